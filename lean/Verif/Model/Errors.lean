import Verif.Model.Utf8
/-
skull/common/errors.c: turning a diagnostic into text.

A `char *` string is the list of its bytes before the NUL; NULL is `none`.
-/
namespace Skull

/-- errors.h:14-88 `ErrorCode`; the numbers without a message are not used anywhere. -/
inductive Code where
  | errUnexpectedToken
  | errEofNoBracket
  | errNotInt
  | errFuncTypeMismatch
  | errExpectedSameType
  | errRuneTooLong
  | errBadEscape
  | errVarNotFound
  | errOverflow
  | errMissingOpenBrak
  | errMissingClosingParen
  | errMissingDeclaration
  | errMissingBlock
  | errNoClosingComment
  | errNoClosingQuote
  | errNoVoidAssign
  | errImportIdent
  | errVarAlreadyDefined
  | errNonIntMain
  | errNonBoolExpr
  | errNoRedefineFunc
  | errZeroParamFunc
  | errShadowVar
  | errExpectedReturn
  | errNoVoidReturn
  | errElseElifMissingIf
  | errUnexpectedCodeBlock
  | errEmptyBlock
  | errUnreachableCode
  | errReassignConst
  | errInvalidExpr
  | errNoDanglingExpr
  | errRedundantReassign
  | errDivByZero
  | errNoNested
  | errExpectedComma
  | errUnclosedFuncCall
  | errTypeNotFound
  | errAliasAlreadyDefined
  | errAssignMissingExpr
  | errReturnMissingExpr
  | errExpectedExpr
  | errNoControlChar
  | errInvalidNumParams
  | errInvalidCommentStart
  | errIllegalSeqAt
  | errIllegalSeq
  | errPowBadType
  | errExpectedNewline
  | warnVarNotConst
  | warnVarUnused
  | warnFuncUnused
  | warnCondAlwaysTrue
  | warnCondAlwaysFalse
  | warnFileEmpty
  | errNestedBlockComment
  | warnTrivialType
  | errNotNumeric
  | warnNoBom
  | errBreakNotInWhile
  | errContinueNotInWhile
  | errNoMutTypeAlias
  | errNoTypeExpr
  | errNoDoubleUnary
  | errUnexpectedUnaryExpr
  | errRefIdentOnly
  | errMissingAssignment
  | errUnexpectedComma
  | errCannotDeref
  | errLoadModule
  | errNoRedefineXAsY
deriving DecidableEq, Repr
/-- errors.c:32-110, the table of messages. -/
def template : Code → String
  | .errUnexpectedToken => "unexpected token: \"%s\""
  | .errEofNoBracket => "Reached EOF, expected closing bracket"
  | .errNotInt => "expected an integer"
  | .errFuncTypeMismatch => "expected param of type \"%s\", got \"%s\""
  | .errExpectedSameType => "expected type \"%s\", got \"%s\""
  | .errRuneTooLong => "rune contains too many characters"
  | .errBadEscape => "bad escape sequence: \"%s\""
  | .errVarNotFound => "variable \"%s\" not found"
  | .errOverflow => "overflow occurred while parsing \"%s\""
  | .errMissingOpenBrak => "missing opening bracket"
  | .errMissingClosingParen => "missing closing parenthesis"
  | .errMissingDeclaration => "function \"%s\" missing declaration"
  | .errMissingBlock => "%s statement must be followed by code block"
  | .errNoClosingComment => "expected closing \"#}\" for block comment"
  | .errNoClosingQuote => "expected closing quote"
  | .errNoVoidAssign => "function returning type void cannot be assigned to variable \"%s\""
  | .errImportIdent => "expected identifier after \"import\""
  | .errVarAlreadyDefined => "variable \"%s\" already defined"
  | .errNonIntMain => "returning non-int expression \"%s\" from main"
  | .errNonBoolExpr => "expected boolean expression"
  | .errNoRedefineFunc => "cannot redeclare function \"%s\""
  | .errZeroParamFunc => "passing parameter to function that takes zero parameters"
  | .errShadowVar => "variable \"%s\" shadows existing variable"
  | .errExpectedReturn => "expected return value in function \"%s\""
  | .errNoVoidReturn => "unexpected return from void function \"%s\""
  | .errElseElifMissingIf => "else/elif statement missing preceding if statement"
  | .errUnexpectedCodeBlock => "unexpected code block"
  | .errEmptyBlock => "code block cannot be empty"
  | .errUnreachableCode => "unreachable code"
  | .errReassignConst => "cannot reassign const variable \"%s\""
  | .errInvalidExpr => "invalid expression near \"%s\""
  | .errNoDanglingExpr => "expression cannot be used on its own"
  | .errRedundantReassign => "redundant assignment of variable \"%s\" to itself"
  | .errDivByZero => "division by zero"
  | .errNoNested => "cannot declare nested function \"%s\" as external or exported"
  | .errExpectedComma => "expected comma"
  | .errUnclosedFuncCall => "function call missing closing parenthesis"
  | .errTypeNotFound => "type \"%s\" could not be found"
  | .errAliasAlreadyDefined => "alias \"%s\" is already defined"
  | .errAssignMissingExpr => "expected expression in assignment variable"
  | .errReturnMissingExpr => "expected expression in return"
  | .errExpectedExpr => "expected expression after \"%s\""
  | .errNoControlChar => "control character cannot be used in rune"
  | .errInvalidNumParams => "invalid number of parameters"
  | .errInvalidCommentStart => "invalid start of comment"
  | .errIllegalSeqAt => "illegal UTF8 sequence at character offset %s"
  | .errIllegalSeq => "illegal UTF8 sequence in this region"
  | .errPowBadType => "cannot use type \"%s\" for power operator"
  | .errExpectedNewline => "expected a newline"
  | .warnVarNotConst => "variable \"%s\" should be constant"
  | .warnVarUnused => "variable \"%s\" is unused"
  | .warnFuncUnused => "function \"%s\" is unused"
  | .warnCondAlwaysTrue => "condition is always true"
  | .warnCondAlwaysFalse => "condition is always false"
  | .warnFileEmpty => "file is empty"
  | .errNestedBlockComment => "cannot put opening block comment in existing block comment"
  | .warnTrivialType => "explicit type \"%s\" can be trivialy deduced"
  | .errNotNumeric => "expected a numeric value"
  | .warnNoBom => "BOM found"
  | .errBreakNotInWhile => "break must be inside while loop"
  | .errContinueNotInWhile => "continue must be inside while loop"
  | .errNoMutTypeAlias => "type alias cannot be mutable"
  | .errNoTypeExpr => "type aliases cannot be used in expressions"
  | .errNoDoubleUnary => "cannot use unary operator twice"
  | .errUnexpectedUnaryExpr => "unexpected unary operator"
  | .errRefIdentOnly => "cannot take reference of non-identifier"
  | .errMissingAssignment => "variable is missing an assignment"
  | .errUnexpectedComma => "unexpected comma"
  | .errCannotDeref => "cannot dereference expression"
  | .errLoadModule => "could not load module \"%s\": %s"
  | .errNoRedefineXAsY => "cannot redeclare %s \"%s\" as %s"

/-- The bytes of an ASCII text. -/
def ascii (s : String) : List UInt8 := s.toList.map fun c => UInt8.ofNat c.toNat

/-- parse/token.h `Location`. -/
structure ErrLoc where
  line : Nat
  col : Nat
deriving DecidableEq, Repr

/-- errors.h:95-106 `Message`.  For a variable and a type only the name is used, for a token its text and location. -/
structure Message where
  str : Option (List UInt8) := none
  str32 : Option (List Char) := none
  tok : Option (List Char × ErrLoc) := none
  loc : Option ErrLoc := none
  var : Option (List UInt8) := none
  type : Option (List UInt8) := none
  real : Option (List UInt8) := none
  i : Nat := 0
deriving DecidableEq, Repr

/-- `%u` and `%zu`. -/
def decimal (n : Nat) : List UInt8 := ascii (toString n)

/-- errors.c:235-246 `message_stringify`: the `real` field afterwards. -/
def messageStringify (m : Message) : Message :=
  if let some v := m.var then { m with real := some v }
  else if let some t := m.type then { m with real := some t }
  else if let some s := m.str32 then { m with real := some (c32stombs s) }
  else if m.i ≠ 0 then { m with real := some (decimal (m.i - 1)) }
  else
    match m.tok, m.real, m.str with
    | some t, none, none => { m with real := some (c32stombs t.1) }
    | _, _, _ => m

/-- errors.c:134-142: messages are stringified from the first one on, up to and including the first without text.
The array ends with a zeroed message (errors.h:117, 122); the result is the messages before that one.  Running off the array is `none`. -/
def stringifyAll : List Message → Option (List Message)
  | [] => none
  | m :: rest =>
    let m := messageStringify m
    if m.real.isSome || m.str.isSome then (stringifyAll rest).map (m :: ·) else some []

/-- errors.c:202 and others: `msgs[k].real ? msgs[k].real : msgs[k].str` -/
def Message.text (m : Message) : List UInt8 :=
  match m.real with
  | some r => r
  | none => m.str.getD []

/-- C `vsnprintf` for formats whose only conversion is `%s`: too few arguments, or another conversion, is undefined (`none`); further
arguments are ignored. -/
def printfS : List Char → List (List UInt8) → Option (List UInt8)
  | [], _ => some []
  | '%' :: 's' :: f, a :: args => (printfS f args).map (a ++ ·)
  | '%' :: _, _ => none
  | c :: f, args => (printfS f args).map (UInt8.ofNat c.toNat :: ·)

/-- errors.c:177-190 `get_location_str`; NULL is the empty text (errors.c:161). -/
def locationStr (m : Message) : List UInt8 :=
  match (match m.tok with | some t => some t.2 | none => m.loc) with
  | none => []
  | some l => if l.line = 0 then [] else ascii "line " ++ decimal l.line ++ ascii " column " ++ decimal l.col ++ ascii ": "

/-- errors.c:192-224 `get_error_msg`. With more than three texts NULL is returned and then printed (`none`). -/
def getErrorMsg (code : Code) (msgs : List Message) : Option (List UInt8) :=
  match msgs with
  | [] => some (ascii (template code))          -- strdup
  | [_] | [_, _] | [_, _, _] => printfS (template code).toList (msgs.map Message.text)
  | _ => none

inductive DiagKind where
  | fatal
  | warning
deriving DecidableEq, Repr

/-- errors.c:22-27 and 145-154, the prefix. -/
def prefixStr (color : Bool) (filename : List UInt8) : DiagKind → List UInt8
  | .fatal =>
    filename ++ ascii ": " ++ (if color then ascii "\x1b[1m\x1b[91mCompilation error\x1b[0m" else ascii "Compilation error") ++ ascii ": "
  | .warning =>
    filename ++ ascii ": " ++ (if color then ascii "\x1b[1m\x1b[93mWarning\x1b[0m" else ascii "Warning") ++ ascii ": "

/-- errors.c:127-175 `fmt_message_internal` on `(Message[]){ msgs, {0} }` (errors.h:117, 122).
The first message is stringified too before its location is read, which does not change the location. -/
def fmtMessage (color : Bool) (filename : List UInt8) (kind : DiagKind) (code : Code) (msgs : List Message) :
    Option (List UInt8) :=
  match stringifyAll (msgs ++ [({} : Message)]), (msgs ++ [({} : Message)]).head? with
  | some ms, some first =>
    match getErrorMsg code ms with
    | some text => some (prefixStr color filename kind ++ locationStr first ++ text ++ ascii "\n")
    | none => none
  | _, _ => none

/-! ### The places that report diagnostics -/

/-- What is written between the braces of one message at a call of FMT_ERROR or FMT_WARN. -/
inductive ArgKind where
  | zero | tok | loc | locReal | locStr | locType | locVar | locStr32 | real | str | type | num
deriving DecidableEq, Repr

/-- The message with the given contents: the names of fields are those at the call. -/
def argMessage (k : ArgKind) (l : ErrLoc) (s : List UInt8) (s32 : List Char) (n : Nat) : Message :=
  match k with
  | .zero => {}
  | .tok => { tok := some (s32, l) }
  | .loc => { loc := some l }
  | .locReal => { loc := some l, real := some s }
  | .locStr => { loc := some l, str := some s }
  | .locType => { loc := some l, type := some s }
  | .locVar => { loc := some l, var := some s }
  | .locStr32 => { loc := some l, str32 := some s32 }
  | .real => { real := some s }
  | .str => { str := some s }
  | .type => { type := some s }
  | .num => { i := n + 1 }

/-- Every call of FMT_ERROR and FMT_WARN: the code and the messages. -/
def diagSites : List (Code × List ArgKind) := [
  (.warnFileEmpty, [.zero]),    -- real_main.c:56
  (.warnFileEmpty, [.zero]),    -- pipeline.c:47
  (.warnTrivialType, [.type]),    -- assign.c:46
  (.errReassignConst, [.tok]),    -- assign.c:60
  (.errTypeNotFound, [.tok]),    -- assign.c:92
  (.errNoVoidAssign, [.locReal]),    -- assign.c:138
  (.errExpectedSameType, [.locType, .type]),    -- assign.c:157
  (.errRedundantReassign, [.tok]),    -- assign.c:174
  (.errNoRedefineXAsY, [.locStr, .real, .str]),    -- symbol.c:24
  (.errVarAlreadyDefined, [.locReal]),    -- symbol.c:32
  (.errAliasAlreadyDefined, [.locReal]),    -- symbol.c:35
  (.errNoRedefineFunc, [.locReal]),    -- symbol.c:38
  (.errNoNested, [.tok]),    -- func.c:51
  (.errExpectedReturn, [.real]),    -- func.c:120
  (.errNoVoidReturn, [.real]),    -- func.c:125
  (.errTypeNotFound, [.tok]),    -- func.c:152
  (.errShadowVar, [.locVar]),    -- func.c:180
  (.errTypeNotFound, [.tok]),    -- func.c:207
  (.errReturnMissingExpr, [.loc]),    -- flow.c:31
  (.errNonIntMain, [.tok]),    -- flow.c:51
  (.errExpectedSameType, [.locType, .type]),    -- flow.c:59
  (.errUnreachableCode, [.loc]),    -- flow.c:82
  (.errBreakNotInWhile, [.loc]),    -- flow.c:144
  (.errContinueNotInWhile, [.loc]),    -- flow.c:153
  (.errMissingBlock, [.locStr]),    -- flow.c:182
  (.errElseElifMissingIf, [.loc]),    -- flow.c:207
  (.errNonBoolExpr, [.loc]),    -- flow.c:217
  (.warnCondAlwaysTrue, [.loc]),    -- flow.c:225
  (.warnCondAlwaysFalse, [.loc]),    -- flow.c:225
  (.errUnexpectedCodeBlock, [.loc]),    -- flow.c:254
  (.warnVarNotConst, [.locVar]),    -- unused.c:28
  (.warnVarUnused, [.locVar]),    -- unused.c:33
  (.warnFuncUnused, [.locStr]),    -- unused.c:43
  (.errExpectedSameType, [.locType, .type]),    -- semantic/expr.c:77
  (.errNotInt, [.loc]),    -- semantic/expr.c:201
  (.errNotNumeric, [.loc]),    -- semantic/expr.c:214
  (.errDivByZero, [.loc]),    -- semantic/expr.c:233
  (.errPowBadType, [.type]),    -- semantic/expr.c:245
  (.errExpectedSameType, [.locType, .type]),    -- semantic/expr.c:255
  (.errRefIdentOnly, [.loc]),    -- semantic/expr.c:270
  (.errCannotDeref, [.loc]),    -- semantic/expr.c:282
  (.errNoDanglingExpr, [.loc]),    -- semantic/expr.c:294
  (.errInvalidNumParams, [.loc]),    -- semantic/expr.c:314
  (.errZeroParamFunc, [.loc]),    -- semantic/expr.c:324
  (.errMissingDeclaration, [.tok]),    -- semantic/expr.c:342
  (.errFuncTypeMismatch, [.locType, .type]),    -- semantic/expr.c:357
  (.errLoadModule, [.real, .str]),    -- import.c:80
  (.errVarNotFound, [.locReal]),    -- scope.c:95
  (.errOverflow, [.tok]),    -- types.c:46
  (.errOverflow, [.tok]),    -- types.c:85
  (.errNoControlChar, [.loc]),    -- types.c:101
  (.errBadEscape, [.locStr32]),    -- types.c:111
  (.errRuneTooLong, [.loc]),    -- types.c:119
  (.errIllegalSeq, [.loc]),    -- types.c:134
  (.errBadEscape, [.locStr32]),    -- types.c:157
  (.errNoMutTypeAlias, [.loc]),    -- types.c:268
  (.errNoTypeExpr, [.loc]),    -- types.c:275
  (.errIllegalSeq, [.loc]),    -- str.c:69
  (.errIllegalSeqAt, [.num]),    -- str.c:124
  (.errMissingAssignment, [.loc]),    -- ast_node.c:119
  (.errAssignMissingExpr, [.loc]),    -- ast_node.c:141
  (.errExpectedNewline, [.loc]),    -- ast_node.c:155
  (.errAssignMissingExpr, [.loc]),    -- ast_node.c:218
  (.errMissingClosingParen, [.loc]),    -- ast_node.c:290
  (.errExpectedNewline, [.loc]),    -- ast_node.c:316
  (.errMissingOpenBrak, [.loc]),    -- ast_node.c:316
  (.errExpectedComma, [.loc]),    -- ast_node.c:332
  (.errExpectedNewline, [.loc]),    -- ast_node.c:340
  (.errInvalidExpr, [.tok]),    -- ast_node.c:424
  (.errEofNoBracket, [.zero]),    -- ast_node.c:482
  (.errImportIdent, [.loc]),    -- ast_node.c:532
  (.errMissingOpenBrak, [.loc]),    -- ast_node.c:549
  (.errUnexpectedToken, [.tok]),    -- ast_node.c:595
  (.errUnexpectedCodeBlock, [.loc]),    -- ast_node.c:615
  (.errEmptyBlock, [.loc]),    -- ast_node.c:638
  (.errExpectedExpr, [.tok]),    -- ast_node.c:707
  (.errNoDoubleUnary, [.loc]),    -- ast_node.c:714
  (.errUnexpectedUnaryExpr, [.loc]),    -- ast_node.c:775
  (.errExpectedExpr, [.tok]),    -- ast_node.c:785
  (.errMissingClosingParen, [.loc]),    -- ast_node.c:847
  (.errInvalidExpr, [.tok]),    -- ast_node.c:855
  (.errUnclosedFuncCall, [.loc]),    -- ast_node.c:896
  (.errUnexpectedComma, [.loc]),    -- ast_node.c:905
  (.errMissingClosingParen, [.loc]),    -- ast_node.c:930
  (.errExpectedComma, [.loc]),    -- ast_node.c:942
  (.warnNoBom, [.zero]),    -- token.c:51
  (.errNestedBlockComment, [.loc]),    -- token.c:166
  (.errNoClosingComment, [.loc]),    -- token.c:175
  (.errInvalidCommentStart, [.loc]),    -- token.c:197
  (.errNoClosingQuote, [.loc])    -- token.c:232
  ]

end Skull
