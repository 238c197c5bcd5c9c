import Verif.Model.Ast
import Verif.Model.Errors
/-
skull/parse/ast_node.c: the parser.

A `Token *` is the list of tokens from there on; `[]` is the null pointer.  Freeing memory is left out.
-/
namespace Skull

/-- A diagnostic emitted by `FMT_ERROR`: its code and the token whose location or text goes with it (`none`: no location, or the
token is null). -/
structure PDiag where
  code : Code
  at? : Option Token
  deriving DecidableEq, Repr

/-- The fields of `ParserCtx` (ast_node.c:14-20) that expression parsing uses, with the diagnostics emitted so far (last first). -/
structure PS where
  toks : List Token
  err : Bool := false
  diags : List PDiag := []
  deriving DecidableEq, Repr

/-- What a parser function does: return, perform an undefined operation, or (in the model only) run out of fuel. -/
inductive P (α : Type)
  | ok (a : α) (s : PS)
  | ub
  | fuel

/-- `FMT_ERROR(code, ..)` and `ctx->err = true`. -/
def PS.fail (s : PS) (code : Code) (t : Option Token) : PS :=
  { s with err := true, diags := ⟨code, t⟩ :: s.diags }

/-- semantic/types.c:324-329 `is_identifier_like`. -/
def isIdentLike (t : Token) : Bool := t.ty = .dotIdentifier || t.ty = .identifier

/-- ast_node.c:1087-1099 `is_single_token_expr`. -/
def isSingleTokenExpr : TokType → Bool
  | .identifier | .dotIdentifier | .intConst | .floatConst | .boolConst | .runeConst | .strConst => true
  | _ => false

/-- ast_node.c:232-255 `token_type_to_binary_expr_type`. -/
def binaryOper : TokType → Oper
  | .operPlus => .add
  | .operDash => .sub
  | .operStar => .mult
  | .operDiv => .div
  | .operMod => .mod
  | .operLshift => .lshift
  | .operRshift => .rshift
  | .operPow => .pow
  | .operIs => .is
  | .operIsnt => .isnt
  | .operLessThan => .lessThan
  | .operGtrThan => .gtrThan
  | .operLessThanEq => .lessThanEq
  | .operGtrThanEq => .gtrThanEq
  | .operAnd => .and
  | .operXor => .xor
  | .operOr => .or
  | .operNot => .not
  | .operRef => .ref
  | _ => .unknown

/-- ast_node.c:738-746 `get_potential_unary_oper`. -/
def unaryOper : TokType → Oper
  | .operDash => .unaryNeg
  | .operStar => .deref
  | .operNot => .not
  | .operRef => .ref
  | _ => .unknown

/-- ast_node.c:729-736 `is_unary_oper`. -/
def isUnaryOper (o : Oper) : Bool := o = .unaryNeg || o = .not || o = .ref || o = .deref

/-- ast_node.c:801-837 `oper_to_precedence`. -/
def operToPrecedence : Oper → Nat
  | .unknown => 0
  | .identifier | .const | .func => 1
  | .pow => 2
  | .not | .unaryNeg | .deref => 3
  | .mult | .div | .mod => 4
  | .add | .sub => 5
  | .and | .or | .xor | .lshift | .rshift => 6
  | .is | .isnt | .lessThan | .gtrThan | .lessThanEq | .gtrThanEq => 7
  | _ => 0

/-- The field `oper` of an expression. -/
def Expr.oper : Expr → Oper
  | .missing => .unknown
  | .ident _ => .identifier
  | .const _ => .const
  | .call .. => .func
  | .un o _ => o
  | .bin o .. => o

/-- ast_node.c:791-796 and 679-689: the new node over `last`, and the rotation when `last` binds less tightly.  A rotation makes
`last` the root again, with the new node as its right operand. -/
def attach (last : Expr) (oper : Oper) (rhs : Expr) : Expr :=
  if operToPrecedence last.oper > operToPrecedence oper then
    match last with
    | .un o r => .un o (.bin oper r rhs)
    | .bin o l r => .bin o l (.bin oper r rhs)
    | e => .bin oper e rhs             -- leaves have precedence 1, below every operator that gets here
  else .bin oper last rhs

/-- Append to the list of arguments. -/
def Args.snoc : Args → Token → Expr → Args
  | .nil, t, e => .cons t e .nil
  | .cons t' e' n, t, e => .cons t' e' (n.snoc t e)

mutual

/-- ast_node.c:661-693 `parse_expression`.  The null result is `none`. -/
def parseExpression : Nat → PS → P (Option Expr)
  | 0, _ => .fuel
  | f + 1, s =>
    match s.toks with
    | [] => .ok none s
    | _ :: _ =>
      match parseSingle f s with
      | .ok head s =>
        if s.err then .ok none s
        else match head with
          | none => .ok none s                     -- 670: `last != current` is false at once
          | some h => parseRhsLoop f h s
      | .ub => .ub
      | .fuel => .fuel

/-- ast_node.c:670-692, the loop of `parse_expression` with `parse_expr_rhs` (768-799); `cur` is `current`. -/
def parseRhsLoop : Nat → Expr → PS → P (Option Expr)
  | 0, _, _ => .fuel
  | f + 1, cur, s =>
    match s.toks with
    | [] => .ok (some cur) s
    | t :: rest =>
      if binaryOper t.ty = .unknown then .ok (some cur) s
      else if isUnaryOper (binaryOper t.ty) then .ok none (s.fail .errUnexpectedUnaryExpr t)
      else
        match parseSingle f { s with toks := rest } with
        | .ok none s => .ok none (s.fail .errExpectedExpr t)
        | .ok (some rhs) s =>
          if s.err then .ok none s
          else parseRhsLoop f (attach cur (binaryOper t.ty) rhs) s
        | .ub => .ub
        | .fuel => .fuel

/-- ast_node.c:695-727 `parse_single_expr`. -/
def parseSingle : Nat → PS → P (Option Expr)
  | 0, _ => .fuel
  | f + 1, s =>
    match s.toks with
    | [] => .ok none s
    | t :: rest =>
      if unaryOper t.ty = .unknown then parseRoot f s
      else match rest with
        | [] => .ok none ({ s with toks := [] }.fail .errExpectedExpr t)
        | t2 :: _ =>
          if unaryOper t2.ty ≠ .unknown then .ok none ({ s with toks := rest }.fail .errNoDoubleUnary t2)
          else match parseRoot f { s with toks := rest } with
            | .ok none s => .ok (some (.un (unaryOper t.ty) .missing)) s
            | .ok (some e) s => .ok (some (.un (unaryOper t.ty) e)) s
            | .ub => .ub
            | .fuel => .fuel

/-- ast_node.c:752-766 `parse_root_expr`, with `parse_paren_expr` (839-863) and `parse_single_token_expr` (868-877). -/
def parseRoot : Nat → PS → P (Option Expr)
  | 0, _ => .fuel
  | f + 1, s =>
    match s.toks with
    | [] => .ub                                    -- 753: ctx->token is null
    | t :: rest =>
      if t.ty = .parenOpen then
        match parseExpression f { s with toks := rest } with
        | .ok none s => .ok none (s.fail .errInvalidExpr t)
        | .ok (some e) s =>
          match s.toks with
          | [] => .ok none (s.fail .errMissingClosingParen t)
          | c :: rest' =>
            if c.ty ≠ .parenClose then .ok none (s.fail .errMissingClosingParen t)
            else .ok (some e) { s with toks := rest' }
        | .ub => .ub
        | .fuel => .fuel
      else if isIdentLike t && (rest.head?.map (·.ty)) = some .parenOpen then
        parseArgs f t .nil 0 { s with toks := rest.tail }
      else if isSingleTokenExpr t.ty then
        .ok (some (if isIdentLike t then .ident t else .const t)) { s with toks := rest }
      else .ok none s

/-- ast_node.c:894-965, the loop of `parse_func_call` (884-966); `num` is `num_values`, an `unsigned short`. -/
def parseArgs : Nat → Token → Args → Nat → PS → P (Option Expr)
  | 0, _, _, _, _ => .fuel
  | f + 1, name, args, num, s =>
    match s.toks with
    | [] => .ok none (s.fail .errUnclosedFuncCall name)
    | last :: _ =>
      if last.ty = .comma then .ok none (s.fail .errUnexpectedComma last)
      else
        match parseExpression f s with
        | .ok e s =>
          let args' := match e with | none => args | some e => args.snoc last e
          let num' := match e with | none => num | some _ => (num + 1) % 65536
          match s.toks with
          | [] => .ok none (s.fail .errMissingClosingParen last)
          | t :: rest =>
            if t.ty = .newline then .ok none (s.fail .errMissingClosingParen t)
            else if t.ty = .parenClose then .ok (some (.call name args' num')) { s with toks := rest }
            else if t.ty ≠ .comma then .ok none (s.fail .errExpectedComma t)
            else parseArgs f name args' num' { s with toks := rest }
        | .ub => .ub
        | .fuel => .fuel

end

/-- The fuel that is always enough for an expression from `toks` on. -/
def exprFuel (toks : List Token) : Nat := 5 * toks.length + 5

/-- `parse_expression` with enough fuel. -/
def parseExpr (s : PS) : P (Option Expr) := parseExpression (exprFuel s.toks) s

/-- ast_node.c:189-201 `is_potential_type`: the list from the last token of the type on, `none` for null. -/
def isPotentialType : List Token → Option (List Token)
  | [] => none
  | t :: rest =>
    if isIdentLike t then some (t :: rest)
    else if t.ty = .operRef then isPotentialType rest
    else none

/-- ast_node.c:164-183 `is_explicit_type`: `some` is true with the new `ctx->token`, `none` is false and leaves `ctx->token`. -/
def isExplicitType : List Token → Option (List Token)
  | t :: t2 :: rest =>
    if t.ty ≠ .newIdentifier then none
    else (isPotentialType (t2 :: rest)).map List.tail
  | _ => none

/-- ast_node.c:383-410 `parse_function_proto_params`: the parameters (last first) and the new `ctx->token`. -/
def parseParams : Nat → List Token → List Param → Option (List Param × List Token)
  | 0, _, _ => none
  | f + 1, toks, acc =>
    match isExplicitType toks, toks with
    | none, _ => some (acc, toks)
    | some [], _ => some (acc, [])
    | some (last :: rest), name :: type =>
      if last.ty ≠ .comma then some (⟨name, type⟩ :: acc, last :: rest)
      else parseParams f rest (⟨name, type⟩ :: acc)
    | some (last :: rest), [] => some (acc, last :: rest)      -- not reached: is_explicit_type was true

/-- A node of the list being built: everything but `next`. -/
structure Node where
  stmt : Stmt
  tok : List Token
  tokEnd : List Token
  child : Tree

/-- The whole `ParserCtx` (ast_node.c:14-20).  `done` are the nodes before `ctx->node`, last first; `headChild` is the `child` of
`ctx->node` while it is the head of the list (a later `ctx->node` has none). -/
structure PCtx where
  ps : PS
  done : List Node := []
  headChild : Tree := .nil

/-- ast_node.c:971-987 `push_ast_node`; `tokEnd` is `ctx->token` at the time of the call.  Fields of the union set after the call
are given here. -/
def PCtx.push (c : PCtx) (stmt : Stmt) (tok tokEnd : List Token) : PCtx :=
  { c with done := ⟨stmt, tok, tokEnd, c.headChild⟩ :: c.done, headChild := .nil }

/-- `ParserResult` (ast_node.c:47-51) with the new state, or an undefined operation. -/
inductive PRes
  | ok (c : PCtx)
  | ignore
  | error (c : PCtx)
  | ub
  | fuel

/-- `AST_TOKEN_CMP2` (ast_node.c:55-57); `none` when the token is null. -/
def tokenCmp2 (toks : List Token) (t1 t2 : TokType) : Option Bool :=
  match toks with
  | [] => none
  | t :: rest => some (t.ty = t1 && (rest.head?.map (·.ty)) = some t2)

/-- ast_node.c:349-380, the end of `parse_function_proto`; `after` is `ctx->token` (the closing parenthesis or the last token of the
return type). -/
def pushProto (c : PCtx) (first name after : List Token) (params : List Param) (ret : Option (List Token))
    (isExternal isExport : Bool) : PRes :=
  match name with
  | [] => .ub
  | n :: _ =>
    let num := params.length % 65536
    let proto : FuncProto := ⟨n, ret, isExternal, isExport, params.take num, num⟩
    let c := c.push (.funcProto proto) first after
    .ok { c with ps := { c.ps with toks := after.tail } }

/-- ast_node.c:285-381, `parse_function_proto` after the opening parenthesis; `start` is `ctx->token`. -/
def finishProto (c : PCtx) (first name start : List Token) (isExternal isExport : Bool) : PRes :=
  match parseParams (start.length + 1) start [] with
  | none => .fuel
  | some (_, []) =>
    .error { c with ps := { c.ps with toks := [] }.fail .errMissingClosingParen name.tail.head? }
  | some (rparams, cur :: after) =>
    let params := rparams.reverse
    let isProto := (cur :: after).length ≠ start.length
    let tokType := if isExternal then TokType.newline else .bracketOpen
    match (if cur.ty = .parenClose then isPotentialType after else none) with
    | some [] => .ub                             -- not reached: is_potential_type gives a token
    | some (ty :: more) =>
      if (more.head?.map (·.ty)) = some tokType then
        pushProto c first name (ty :: more) params (some after) isExternal isExport
      else
        let code : Code := if isExternal then .errExpectedNewline else .errMissingOpenBrak
        .error { c with ps := { c.ps with toks := cur :: after }.fail code (some ty) }
    | none =>
      if cur.ty = .parenClose ∧ (after.head?.map (·.ty)) = some tokType then
        pushProto c first name (cur :: after) params none isExternal isExport
      else if isProto then .error { c with ps := { c.ps with toks := cur :: after }.fail .errExpectedComma (some cur) }
      else if isExternal && after = [] then
        .error { c with ps := { c.ps with toks := cur :: after }.fail .errExpectedNewline (some cur) }
      else .ignore

/-- ast_node.c:267-381 `parse_function_proto`. -/
def parseFunctionProto (c : PCtx) : PRes :=
  match c.ps.toks with
  | [] => .ub
  | t :: rest =>
    let isExternal := t.ty = .kwExternal
    let isExport := t.ty = .kwExport
    let name := if isExternal || isExport then rest else t :: rest
    match tokenCmp2 name .identifier .parenOpen with
    | none => .ub
    | some false => .ignore
    | some true => finishProto c (t :: rest) name name.tail.tail isExternal isExport

/-- ast_node.c:134-161, the end of `parse_var_def`; `cur` is `ctx->token`. -/
def finishVarDef (c : PCtx) (first name cur : List Token) (isConst isImplicit isExported : Bool) : PRes :=
  match cur with
  | [] => .ub
  | _ :: rest =>
    match parseExpr { c.ps with toks := rest } with
    | .ub => .ub
    | .fuel => .fuel
    | .ok e s =>
      if s.err then .error { c with ps := s }
      else match e with
        | none =>
          match s.toks with
          | [] => .ub                                -- 141: &ctx->token->location
          | t :: _ => .error { c with ps := s.fail .errAssignMissingExpr t }
        | some e =>
          let c' := { c.push (.varDef name isConst isImplicit isExported e) first cur with ps := s }
          match s.toks with
          | [] => .ok c'
          | t :: _ =>
            if t.ty ≠ .newline then .error { c' with ps := s.fail .errExpectedNewline t }
            else .ok c'

/-- ast_node.c:93-162 `parse_var_def`. -/
def parseVarDef (c : PCtx) : PRes :=
  let first := c.ps.toks
  match first with
  | [] => .ub
  | t :: rest =>
    let isMut := t.ty = .kwMut
    let isExported := t.ty = .kwExport
    let name := if isMut || isExported then rest else first
    match name with
    | [] => .ignore
    | n :: _ =>
      match isExplicitType name with
      | some [] => .error { c with ps := { c.ps with toks := [] }.fail .errMissingAssignment n }
      | some cur => finishVarDef c first name cur (!isMut) false isExported
      | none =>
        match tokenCmp2 name .identifier .operAutoEqual with
        | none => .ub
        | some true => finishVarDef c first name name.tail (!isMut) true isExported
        | some false => .ignore

/-- ast_node.c:203-227 `parse_var_assign`. -/
def parseVarAssign (c : PCtx) : PRes :=
  match c.ps.toks with
  | [] => .ub
  | t :: rest =>
    if !(isIdentLike t && (rest.head?.map (·.ty)) = some .operEqual) then .ignore
    else
      match parseExpr { c.ps with toks := rest.tail } with
      | .ub => .ub
      | .fuel => .fuel
      | .ok none s =>
        match s.toks with
        | [] => .ub                                  -- 218: &ctx->token->location
        | t' :: _ => .error { c with ps := s.fail .errAssignMissingExpr t' }
      | .ok (some e) s => .ok { c.push (.varAssign e) c.ps.toks rest with ps := s }

/-- The result of `parse_ast_node` and of the functions it calls: whether a closing bracket was reached, and the new state. -/
inductive NRes
  | ok (done : Bool) (c : PCtx)
  | ub
  | fuel

/-- Push a node for the current token and go to the next one (`parse_else` 441-444, `parse_unreachable` 498-501, `parse_comment`
503-506, `parse_noop` 508-511, `parse_break` 513-516, `parse_continue` 518-521). -/
def pushToken (c : PCtx) (stmt : Stmt) : NRes :=
  .ok false { c.push stmt c.ps.toks c.ps.toks with ps := { c.ps with toks := c.ps.toks.tail } }

/-- ast_node.c:83-91 `parse_return`. -/
def parseReturn (c : PCtx) : NRes :=
  match parseExpr { c.ps with toks := c.ps.toks.tail } with
  | .ub => .ub
  | .fuel => .fuel
  | .ok e s => .ok false { c.push (.ret (e.getD .missing)) c.ps.toks c.ps.toks with ps := s }

/-- ast_node.c:412-431 `parse_condition`.  When it fails the pushed node is not seen any more, since `ctx->err` ends the parse. -/
def parseCondition (c : PCtx) (mk : Expr → Stmt) : NRes :=
  match c.ps.toks with
  | t :: t2 :: rest =>
    match parseExpr { c.ps with toks := t2 :: rest } with
    | .ub => .ub
    | .fuel => .fuel
    | .ok none s => .ok false { c with ps := s.fail .errInvalidExpr s.toks.head? }
    | .ok (some e) s =>
      if s.err then .ok false { c with ps := s.fail .errInvalidExpr s.toks.head? }
      else .ok false { c.push (mk e) (t :: t2 :: rest) (t :: t2 :: rest) with ps := s }
  | _ => .ok false { c with ps := { c.ps with err := true } }

/-- ast_node.c:450-459 `parse_namespace`. -/
def parseNamespace (c : PCtx) : NRes :=
  match c.ps.toks with
  | t :: t2 :: rest => .ok false { c.push .namespaces (t :: t2 :: rest) rest with ps := { c.ps with toks := rest } }
  | _ => .ok false { c with ps := { c.ps with err := true } }

/-- ast_node.c:523-538 `parse_import`. -/
def parseImport (c : PCtx) : NRes :=
  match c.ps.toks with
  | [] => .ub
  | [t] => .ok false { c with ps := c.ps.fail .errImportIdent t }
  | t :: t2 :: rest =>
    if t2.ty = .identifier then
      .ok false { c.push .imports (t :: t2 :: rest) (t :: t2 :: rest) with ps := { c.ps with toks := rest } }
    else .ok false { c with ps := c.ps.fail .errImportIdent t2 }

/-- ast_node.c:581-599: the expression statement, and the last case of `parse_ast_node`. -/
def parseExprStmt (c : PCtx) : NRes :=
  match parseExpr c.ps with
  | .ub => .ub
  | .fuel => .fuel
  | .ok (some e) s => .ok false { c.push (.expr e) c.ps.toks s.toks with ps := s }
  | .ok none s =>
    if s.err then .ok false { c with ps := s }
    else .ok false { c with ps := s.fail .errUnexpectedToken s.toks.head? }

/-- ast_node.c:573-603: the default case of `parse_ast_node`. -/
def parseDefault (c : PCtx) : NRes :=
  match parseFunctionProto c with
  | .ok c => .ok false c
  | .error c => .ok false c
  | .ub => .ub
  | .fuel => .fuel
  | .ignore =>
    match parseVarDef c with
    | .ok c => .ok false c
    | .error c => .ok false c
    | .ub => .ub
    | .fuel => .fuel
    | .ignore =>
      match parseVarAssign c with
      | .ok c => .ok false c
      | .error c => .ok false c
      | .ub => .ub
      | .fuel => .fuel
      | .ignore => parseExprStmt c

/-- The list of nodes (last first) as a tree. -/
def linkNodes : List Node → Tree → Tree
  | [], acc => acc
  | n :: ns, acc => linkNodes ns (.node n.stmt n.tok n.tokEnd n.child acc)

/-- ast_node.c:489-495: the list `parse_ast_tree_` returns.  Without any pushed node it is the empty head node. -/
def PCtx.tree (c : PCtx) : Tree :=
  match c.done with
  | [] => .node .unknown [] [] c.headChild .nil
  | ns => linkNodes ns .nil

/-- The result of `parse_ast_tree_`: the tree (`none` for null) and the context's token, error flag and diagnostics. -/
inductive TRes
  | ok (tree : Option Tree) (s : PS)
  | ub
  | fuel

/-- Whether the first node of a list has a token. -/
def Tree.hasToken : Tree → Bool
  | .nil => false
  | .node _ tok _ _ _ => tok ≠ []

/-- ast_node.c:614 `ctx->node->last && ctx->node->last->child`. -/
def PCtx.lastHasChild (c : PCtx) : Bool :=
  match c.done with
  | { child := .node .., .. } :: _ => true
  | _ => false

/-- ast_node.c:644-651: hang the block `child` on the last node, or on the head. -/
def PCtx.setChild (c : PCtx) (child : Tree) : PCtx :=
  match c.done with
  | [] => { c with headChild := child }
  | n :: ns => { c with done := { n with child := child } :: ns }

mutual

/-- ast_node.c:466-496 `parse_ast_tree_`; `lvl` is `ctx->indent_lvl`. -/
def parseTree : Nat → Nat → PS → TRes
  | 0, _, _ => .fuel
  | f + 1, lvl, s =>
    match parseNodes f lvl { ps := s } with
    | .ub => .ub
    | .fuel => .fuel
    | .ok _ c =>
      if c.ps.err then .ok none c.ps
      else if c.ps.toks = [] && lvl ≠ 0 then .ok none (c.ps.fail .errEofNoBracket none)
      else .ok (some c.tree) c.ps

/-- ast_node.c:470-474, the loop of `parse_ast_tree_`. -/
def parseNodes : Nat → Nat → PCtx → NRes
  | 0, _, _ => .fuel
  | f + 1, lvl, c =>
    match c.ps.toks with
    | [] => .ok false c
    | _ :: _ =>
      match parseNode f lvl c with
      | .ub => .ub
      | .fuel => .fuel
      | .ok done c => if done || c.ps.err then .ok done c else parseNodes f lvl c

/-- ast_node.c:545-608 `parse_ast_node`. -/
def parseNode : Nat → Nat → PCtx → NRes
  | 0, _, _ => .fuel
  | f + 1, lvl, c =>
    match c.ps.toks with
    | [] => .ub
    | t :: rest =>
      match t.ty with
      | .bracketClose =>
        if lvl = 0 then .ok true { c with ps := c.ps.fail .errMissingOpenBrak t }
        else .ok true c
      | .bracketOpen => parseSubTree f lvl c
      | .newline | .comma => .ok false { c with ps := { c.ps with toks := rest } }
      | .kwReturn => parseReturn c
      | .kwIf => parseCondition c .ifs
      | .kwElif => parseCondition c .elifs
      | .kwElse => pushToken c .elses
      | .kwWhile => parseCondition c .whiles
      | .kwNamespace => parseNamespace c
      | .kwUnreachable => pushToken c .unreachable
      | .comment => pushToken c .comment
      | .kwNoop => pushToken c .noop
      | .kwBreak => pushToken c .breaks
      | .kwContinue => pushToken c .continues
      | .kwImport => parseImport c
      | _ => parseDefault c

/-- ast_node.c:613-654 `parse_ast_sub_tree_`. -/
def parseSubTree : Nat → Nat → PCtx → NRes
  | 0, _, _ => .fuel
  | f + 1, lvl, c =>
    match c.ps.toks with
    | [] => .ub
    | t :: rest =>
      if c.lastHasChild then .ok false { c with ps := c.ps.fail .errUnexpectedCodeBlock t }
      else
        match parseTree f (lvl + 1) { c.ps with toks := rest, err := false } with
        | .ub => .ub
        | .fuel => .fuel
        | .ok none s => .ok false { c with ps := { s with err := true } }
        | .ok (some child) s =>
          if s.err then .ok false { c with ps := { s with err := true } }
          else if !child.hasToken then
            match s.toks with
            | [] => .ub
            | t' :: _ => .ok false { c with ps := { s with err := c.ps.err }.fail .errEmptyBlock t' }
          else
            match s.toks with
            | [] => .ub
            | _ :: rest' => .ok false { c.setChild child with ps := { s with toks := rest', err := c.ps.err } }

end

/-- The fuel that is always enough for the statements from `toks` on. -/
def treeFuel (toks : List Token) : Nat := 4 * toks.length + 4

/-- ast_node.c:69-73: the first node gets the head of the token list when it has no token. -/
def Tree.setHead (toks : List Token) : Tree → Tree
  | .nil => .nil
  | .node st tok te ch nx => if tok = [] then .node st toks te ch nx else .node st tok te ch nx

/-- ast_node.c:62-81 `parse_ast_tree`. -/
def parseAstTree (toks : List Token) : TRes :=
  match parseTree (treeFuel toks) 0 { toks := toks } with
  | .ub => .ub
  | .fuel => .fuel
  | .ok none s => .ok none s
  | .ok (some t) s => if s.err then .ok none s else .ok (some (t.setHead toks)) s

end Skull
