/-
Model of the tokenizer, skull/parse/token.c.

Conventions.
* `const char32_t *` pointing into the NUL terminated source is the list of the characters
  from the pointer to the terminator.  `*p` at the end of the list is NUL.  `p++` at the end of the
  list steps past the terminator, which is `ub`.
* Source characters are Lean `Char`s (Unicode scalar values): the source text comes from
  `mbstoc32s` (skull/common/str.c:109-141) which yields decoded UTF-8 and stops at NUL.
* `unsigned` line, column and length counters are `Nat`: sources of 2^32 and more characters are not modelled.
-/
namespace Skull

/-- skull/parse/token.h:7-67 `TokenType`, in the same order (`TOKEN_END` is never produced). -/
inductive TokType
  | unknown
  | identifier | newIdentifier | dotIdentifier
  | kwMut | kwReturn | kwUnreachable | kwIf | kwElif | kwElse | kwWhile | kwExternal | kwExport
  | kwNoop | kwBreak | kwContinue | kwImport | kwNamespace
  | newline | comma | bracketOpen | bracketClose | parenOpen | parenClose
  | operEqual | operPlus | operDash | operStar | operDiv | operMod | operAutoEqual | operNot
  | operIs | operIsnt | operAnd | operOr | operXor | operLessThan | operGtrThan
  | operLessThanEq | operGtrThanEq | operLshift | operRshift | operPow | operRef
  | intConst | floatConst | boolConst | runeConst | strConst
  | comment
  deriving DecidableEq, Repr, Inhabited

/-- skull/parse/token.h:88-95 `Token`.  `begin = none` is the NULL pointer.  The `next` pointer is the
list the token sits in. -/
structure Token where
  begin : Option (List Char) := none
  len : Nat := 0
  ty : TokType := .unknown
  line : Nat := 0
  col : Nat := 0
  deriving DecidableEq, Repr, Inhabited

/-- The diagnostics of the tokenizer, skull/common/errors.h:293-346. -/
inductive TokErr
  | noClosingComment | noClosingQuote | invalidCommentStart | nestedBlockComment | bom
  deriving DecidableEq, Repr

/-- skull/parse/token.c:19-26 `TokenizeCtx`.  `done` holds the tokens of the linked list before
`token`, last first; `ctx->last` is its first element (token.c:112, token.c:262).  The `comment`
field is local to `iter_comment` and is passed as an argument there. -/
structure TokCtx where
  done : List Token := []
  token : Token := {}
  code : List Char
  line : Nat := 1
  col : Nat := 0
  deriving DecidableEq, Repr

/-- Result of a tokenizer step: success, a diagnosed error, or undefined behaviour. -/
inductive TokRes (α : Type)
  | ok (a : α)
  | err (e : TokErr) (line col : Nat)
  | ub
  deriving DecidableEq, Repr

/-- token.c:287-289 `is_whitespace`. -/
def isWhitespace (c : Char) : Bool := c = ' ' || c = '\t' || c = '\r' || c = '\n'

/-- token.c:294-296 `is_quote`. -/
def isQuote (c : Char) : Bool := c = '\'' || c = '"'

/-- token.c:123-134 `is_delimeter`. -/
def isDelimiter (c : Char) : Bool :=
  c = '{' || c = '}' || c = '(' || c = ')' || c = ',' || c = '\n' || c = '&' || c = '*'

/-- token.c:266-270 `token_add_info`. -/
def tokenAddInfo (ctx : TokCtx) : TokCtx :=
  { ctx with token := { ctx.token with begin := some ctx.code, line := ctx.line, col := ctx.col } }

/-- How the loop of `iter_comment` or `iter_quote` ends: at a position, at the terminator, or in an error. -/
inductive LoopOut
  | at (code : List Char) (line col : Nat)
  | eof (line col : Nat)
  | nested (line col : Nat)
  | ub
  deriving DecidableEq, Repr

/-- token.c:147-172, the do-while loop of `iter_comment`.  The list is `ctx->code` at the start of the loop body;
`block` is `ctx->comment == BLOCK_COMMENT`. -/
def commentLoop (block : Bool) : List Char → Nat → Nat → LoopOut
  | [], _, _ => .ub                                     -- 148: chomp past the terminator
  | [_], line, col => .eof line (col + 1)               -- 148, 172: chomp reaches the terminator
  | c :: d :: rest, line, col =>
    if !block && d = '\n' then
      .at (c :: d :: rest) line (col + 1)               -- 150-153: step back, column stays
    else if block && d = '#' then
      match rest with                                   -- 155: second chomp
      | [] => .eof line (col + 2)
      | e :: rest' =>
        if e = '}' then .at (e :: rest') line (col + 2)             -- 157
        else if e = '\n' then commentLoop block (e :: rest') (line + 1) 0   -- 159
        else if e = '{' then .nested line (col + 2)                 -- 161-168
        else commentLoop block (e :: rest') line (col + 2)
    else if d = '\n' then commentLoop block (d :: rest) (line + 1) 0        -- 170
    else commentLoop block (d :: rest) line (col + 1)

/-- token.c:183-203 `is_valid_comment_start`: the character after `#` (`ctx->code[1]`) selects the kind of comment;
`some true` is `BLOCK_COMMENT`, `some false` is `LINE_COMMENT`. -/
def commentKind : List Char → Option Bool
  | c :: _ => if c = ' ' || c = '\t' then some false else if c = '{' then some true else none
  | [] => none

/-- token.c:141-181 `iter_comment`. -/
def iterComment (ctx : TokCtx) : TokRes TokCtx :=
  match ctx.code with
  | [] => .ub
  | _ :: rest =>
    match commentKind rest with
    | none => .err .invalidCommentStart ctx.line ctx.col            -- 192-200
    | some block =>
      let ctx := if ctx.token.begin.isNone then tokenAddInfo ctx else ctx   -- 144
      match commentLoop block rest ctx.line (ctx.col + 1) with              -- 145
      | .at code line col =>
        .ok { ctx with code := code, line := line, col := col,
                       token := { ctx.token with ty := .comment } }         -- 179
      | .eof line col =>
        if block then .err .noClosingComment ctx.token.line ctx.token.col   -- 174-177
        else .ok { ctx with code := [], line := line, col := col,
                            token := { ctx.token with ty := .comment } }
      | .nested line col => .err .nestedBlockComment line col
      | .ub => .ub

/-- token.c:221-224: the character at a backslash is followed by a backslash or by the quote. -/
def escapesNext (quote : Char) : List Char → Bool
  | e :: _ => e = '\\' || e = quote
  | [] => false

/-- token.c:215-229, the do-while loop of `iter_quote`.  The list is `ctx->code` at the start of the loop body. -/
def quoteLoop (quote : Char) : List Char → Nat → Nat → LoopOut
  | [], _, _ => .ub                                     -- 216: step past the terminator
  | [_], line, col => .eof line col
  | _ :: d :: rest, line, col =>
    if d = '\n' then quoteLoop quote (d :: rest) (line + 1) 0       -- 218-220
    else if d = '\\' && escapesNext quote rest then
      quoteLoop quote rest line (col + 1)                           -- 221-226
    else if d = quote then .at (d :: rest) line col                 -- 227
    else quoteLoop quote (d :: rest) line col

/-- token.c:210-237 `iter_quote`. -/
def iterQuote (ctx : TokCtx) : TokRes TokCtx :=
  match ctx.code with
  | [] => .ub
  | quote :: _ =>
    let ctx := if ctx.token.begin.isNone then tokenAddInfo ctx else ctx     -- 213
    match quoteLoop quote ctx.code ctx.line ctx.col with
    | .at code line col => .ok { ctx with code := code, line := line, col := col }
    | .eof _ _ => .err .noClosingQuote ctx.token.line ctx.token.col         -- 231-234
    | .nested _ _ => .ub
    | .ub => .ub

/-- token.c:251-260: the type `parse_delimiter` gives a delimiter.  `*` keeps type 0 and is classified later. -/
def delimiterType (c : Char) : TokType :=
  if c = '{' then .bracketOpen
  else if c = '}' then .bracketClose
  else if c = '(' then .parenOpen
  else if c = ')' then .parenClose
  else if c = ',' then .comma
  else if c = '\n' then .newline
  else if c = '&' then .operRef
  else .unknown

/-- `ctx->token->len = ctx->code - ctx->token->begin` followed by `setup_next` (token.c:41-43, 111-113, 241-242):
the current token is finished and a fresh zeroed one becomes current. -/
def closeToken (ctx : TokCtx) (begin : List Char) : TokCtx :=
  { ctx with
    done := { ctx.token with len := begin.length - ctx.code.length } :: ctx.done
    token := {} }

/-- token.c:239-264 `parse_delimiter`; `c` is `*ctx->code`. -/
def parseDelimiter (ctx : TokCtx) (c : Char) : TokCtx :=
  let ctx := match ctx.token.begin with
    | some b => closeToken ctx b
    | none => ctx
  let delim : Token :=
    { begin := some ctx.code, len := 1, ty := delimiterType c, line := ctx.line, col := ctx.col }
  { ctx with done := delim :: ctx.done, token := {} }

/-- token.c:104-114, the branches of `tokenize_inner_loop` after the quote test. -/
def innerChain (ctx : TokCtx) : TokCtx :=
  match ctx.code with
  | [] => ctx
  | c :: _ =>
    if isDelimiter c then parseDelimiter ctx c
    else match ctx.token.begin with
      | none => if !isWhitespace c then tokenAddInfo ctx else ctx
      | some b => if ctx.token.len = 0 && isWhitespace c then closeToken ctx b else ctx

/-- token.c:116-118: count a newline and step to the next character. -/
def innerStep (ctx : TokCtx) : TokRes TokCtx :=
  match ctx.code with
  | [] => .ub
  | c :: rest =>
    if c = '\n' then .ok { ctx with code := rest, line := ctx.line + 1, col := 0 }
    else .ok { ctx with code := rest }

/-- token.c:93-121 `tokenize_inner_loop`. -/
def tokenizeInnerLoop (ctx : TokCtx) : TokRes TokCtx :=
  let ctx := { ctx with col := ctx.col + 1 }
  match ctx.code with
  | [] => .ub
  | c :: _ =>
    if c = '#' then
      match iterComment ctx with
      | .ok ctx => if ctx.code.isEmpty then .ok ctx else innerStep ctx
      | .err e l k => .err e l k
      | .ub => .ub
    else if isQuote c then
      match iterQuote ctx with
      | .ok ctx => innerStep (innerChain ctx)
      | .err e l k => .err e l k
      | .ub => .ub
    else innerStep (innerChain ctx)

/-- token.c:66-73, the main loop of `tokenize`.  `none` means the fuel ran out. -/
def tokenizeLoop : Nat → TokCtx → Option (TokRes TokCtx)
  | 0, _ => none
  | fuel + 1, ctx =>
    if ctx.code.isEmpty then some (.ok ctx)
    else match tokenizeInnerLoop ctx with
      | .ok ctx => tokenizeLoop fuel ctx
      | .err e l k => some (.err e l k)
      | .ub => some .ub

/-- token.c:75-85: close a dangling token, or drop the empty last token unless it is the head. -/
def finishTokens (ctx : TokCtx) : List Token :=
  match ctx.token.begin with
  | some b => ({ ctx.token with len := b.length - ctx.code.length } :: ctx.done).reverse
  | none => if ctx.done.isEmpty then [ctx.token] else ctx.done.reverse

/-- U+FEFF, token.c:49. -/
def bomChar : Char := Char.ofNat 0xFEFF

/-- token.c:57-85, `tokenize` after the byte order mark.  The fuel is the number of characters plus one. -/
def tokenizeFrom (code : List Char) : Option (TokRes (List Token)) :=
  match tokenizeLoop (code.length + 1) { code := code } with
  | none => none
  | some (.ok ctx) => some (.ok (finishTokens ctx))
  | some (.err e l k) => some (.err e l k)
  | some .ub => some .ub

/-- token.c:48-86 `tokenize`.  `werror` is `BUILD_DATA.werror`, under which the byte order mark warning is an error
(skull/common/errors.h:381-384). -/
def tokenize (werror : Bool) (src : List Char) : Option (TokRes (List Token)) :=
  match src with
  | c :: code =>
    if c = bomChar then (if werror then some (.err .bom 0 0) else tokenizeFrom code)
    else tokenizeFrom (c :: code)
  | [] => tokenizeFrom []

end Skull
