import Verif.Model.Scope
import Verif.Model.Literal
/-
skull/semantic/expr.c, assign.c, func.c, flow.c, import.c, entry.c, unused.c: the semantic check.

The check writes into the syntax tree; here it returns the tree with what it wrote (`AExpr`, `ATree`).
-/
namespace Skull

/-- What the check needs to know of the world: fields of BUILD_DATA, the C library's `strtod` (the bits of the value, and whether
`errno` becomes `ERANGE`), and which directories and files can be opened. -/
structure Cfg where
  filename : List Char
  quiet : Bool := false
  werror : Bool := false
  strtod : List Char → Nat × Bool := fun _ => (0, false)
  openDir : List Char → Bool := fun _ => true
  openFile : List Char → List Char → Bool := fun _ _ => true

/-- ast_node.h:176-182, the union `value`. -/
inductive Value
  | int (i : Int)
  | float (bits : Nat)
  | bool (b : Bool)
  | rune (r : Nat)
  | str (s : List Nat)
  deriving DecidableEq, Repr

/-- The type of a constant (expr.c:158-193). -/
def Value.type : Value → Ty
  | .int _ => .prim .int
  | .float _ => .prim .float
  | .bool _ => .prim .bool
  | .rune _ => .prim .rune
  | .str _ => .prim .str

mutual
/-- ast_node.h:163-188 `AstNodeExpr` with the fields the check fills in. -/
inductive AExpr
  | ident (tok : Token) (sym : Nat) (type : Ty) (isConst : Bool)
  | const (tok : Token) (value : Value)
  | call (name : Token) (args : AArgs) (sym : Nat) (type : Ty)
  | un (oper : Oper) (rhs : AExpr) (type : Ty) (isConst : Bool)
  | bin (oper : Oper) (lhs rhs : AExpr) (type : Ty) (isConst : Bool)
/-- The arguments of a call.  Those after `num_params` are not looked at. -/
inductive AArgs
  | nil
  | cons (first : Token) (expr : AExpr) (next : AArgs)
  | unchecked (rest : Args)
end

/-- The field `type`. -/
def AExpr.type : AExpr → Ty
  | .ident _ _ ty _ => ty
  | .const _ v => v.type
  | .call _ _ _ ty => ty
  | .un _ _ ty _ => ty
  | .bin _ _ _ ty _ => ty

/-- The field `is_const_expr`. -/
def AExpr.isConstExpr : AExpr → Bool
  | .ident _ _ _ c => c
  | .const _ _ => true
  | .call .. => false
  | .un _ _ _ c => c
  | .bin _ _ _ _ c => c

/-- The field `oper`. -/
def AExpr.oper : AExpr → Oper
  | .ident .. => .identifier
  | .const .. => .const
  | .call .. => .func
  | .un o _ _ _ => o
  | .bin o _ _ _ _ => o

/-- ast_node.c:1163-1178 `find_expr_node_token`. -/
def AExpr.token : AExpr → Token
  | .ident t _ _ _ => t
  | .const t _ => t
  | .call t _ _ _ => t
  | .un _ r _ _ => r.token
  | .bin _ l _ _ _ => l.token

/-- types.c:220-225, the types the check compares with. -/
abbrev tInt : Ty := .prim .int
abbrev tFloat : Ty := .prim .float
abbrev tBool : Ty := .prim .bool
abbrev tVoid : Ty := .prim .void

/-- scope.c:87-104 `scope_find_var`.  For a function, and for a namespace whose block has ended, line 92 reads another member of the
union than the one that was stored. -/
def scopeFindVar (t : Token) : Chk (Nat × Variable) := do
  let name ← tokName t
  match ← lookup name with
  | none => Chk.error .errVarNotFound t
  | some id =>
    match (← symAt id).kind with
    | .var v => if v.isDefined then pure (id, v) else Chk.error .errVarNotFound t
    | .alias => Chk.error .errVarNotFound t
    | .ns none => Chk.error .errVarNotFound t
    | .ns (some _) => Chk.ub
    | .func _ => Chk.ub

/-- Change the variable of a symbol. -/
def updVar (id : Nat) (f : Variable → Variable) : Chk Unit :=
  updSym id fun sym =>
    match sym.kind with
    | .var v => { sym with kind := .var (f v) }
    | _ => sym

/-- Change the function of a symbol. -/
def updFunc (id : Nat) (f : Func → Func) : Chk Unit :=
  updSym id fun sym =>
    match sym.kind with
    | .func g => { sym with kind := .func (f g) }
    | _ => sym

/-- The diagnostics of literals (types.c:46, 85, 101, 111, 118, 134, 157). -/
def evalLit (t : Token) : Ev α → Chk α
  | .ok a => pure a
  | .overflow => Chk.error .errOverflow t
  | .controlChar => Chk.error .errNoControlChar t
  | .badEscape => Chk.error .errBadEscape t
  | .runeTooLong => Chk.error .errRuneTooLong t
  | .illegalSeq => Chk.error .errIllegalSeq t
  | .ub => Chk.ub

/-- str.c:57-84: code points that are no scalar values cannot be converted to bytes. -/
def toBytes (t : Token) (str : List Nat) : Chk Value :=
  if str.all isScalar then pure (.str str) else Chk.error .errIllegalSeq t

/-- expr.c:154-197 `validate_const_expr`.  The conversion to bytes stops at a NUL. -/
def validateConst (cfg : Cfg) (t : Token) : Chk Value :=
  match t.ty with
  | .intConst => do pure (.int (← evalLit t (evalInteger t)))
  | .floatConst => do
    pure (.float (← evalLit t (evalFloat cfg.strtod 0x7FF0000000000000 0xFFF0000000000000 0x7FF8000000000000 t)))
  | .boolConst => pure (.bool (evalBool t))
  | .runeConst => do pure (.rune (← evalLit t (evalRune t)))
  | .strConst => do
    let str ← evalLit t ((evalStr t).getD .ub)
    toBytes t (str.takeWhile (· ≠ 0))
  | _ => Chk.stop

/-- expr.c:209-220 `is_numeric`, on the right operand; `t` is the token of the expression. -/
def isNumeric (rhs : AExpr) (t : Token) : Chk Unit :=
  if rhs.type = tInt ∨ rhs.type = tFloat then pure () else Chk.error .errNotNumeric t

/-- expr.c:222-239 `is_div_by_zero`. -/
def notDivByZero (rhs : AExpr) : Chk Unit :=
  match rhs with
  | .const t _ =>
    if t.ty = .intConst then
      match evalInteger t with
      | .ok i => if i = 0 then Chk.error .errDivByZero t else pure ()
      | .ub => Chk.ub
      | _ => pure ()
    else pure ()
  | _ => pure ()

/-- expr.c:241-251 `validate_pow_expr`. -/
def validatePow (rhs : AExpr) : Chk Unit :=
  if rhs.type ≠ tInt ∧ rhs.type ≠ tFloat then Chk.error .errPowBadType none else pure ()

/-- expr.c:90-122 `validate_expr_restrictions` with the functions it calls (199-288); `t` is the token of the expression. -/
def validateRestrictions (o : Oper) (rhs : AExpr) (t : Token) : Chk Unit :=
  match o with
  | .add | .sub | .mult | .unaryNeg | .lessThan | .gtrThan | .lessThanEq | .gtrThanEq => isNumeric rhs t
  | .div | .mod => do notDivByZero rhs; isNumeric rhs t
  | .pow => do validatePow rhs; isNumeric rhs t
  | .lshift | .rshift => if rhs.type ≠ tInt then Chk.error .errNotInt t else pure ()
  | .not | .and | .or | .xor => if rhs.type ≠ tBool then Chk.error .errExpectedSameType t else pure ()
  | .ref => if rhs.oper ≠ .identifier then Chk.error .errRefIdentOnly t else pure ()
  | .deref =>
    match rhs, rhs.type with
    | .ident .., .ref _ => pure ()
    | _, _ => Chk.error .errCannotDeref t
  | _ => pure ()

/-- expr.c:124-143 `set_expr_type`. -/
def exprType (o : Oper) (rhs : Ty) : Chk Ty :=
  match o with
  | .not | .is | .isnt | .lessThan | .gtrThan | .lessThanEq | .gtrThanEq | .and | .or | .xor => pure tBool
  | .ref => pure (.ref rhs)
  | .deref => match rhs with | .ref inner => pure inner | .prim _ => Chk.ub
  | _ => pure rhs

/-- expr.c:334-344 `find_func_by_token`. -/
def findFuncByToken (t : Token) : Chk Nat := do
  let name ← tokName t
  match ← findFuncByName name with
  | some id => pure id
  | none => Chk.error .errMissingDeclaration t

/-- `symbol->func`. -/
def funcAt (id : Nat) : Chk Func := do
  match (← symAt id).kind with
  | .func f => pure f
  | _ => Chk.ub

/-- expr.c:311-328: the number of arguments. -/
def checkCount (f : Func) (name : Token) (params : Args) (num : Nat) : Chk Unit :=
  if f.numParams ≠ num then Chk.error .errInvalidNumParams name
  else
    match params with
    | .cons first _ _ => if f.numParams = 0 then Chk.error .errZeroParamFunc first else pure ()
    | .nil => pure ()

/-- Operators before one operand. -/
def isPrefixOper (o : Oper) : Bool := o = .unaryNeg || o = .not || o = .ref || o = .deref

/-- Operators between two operands. -/
def isInfixOper (o : Oper) : Bool :=
  !(isPrefixOper o || o = .unknown || o = .identifier || o = .const || o = .func)

/-- The parser gives a node with one operand no other operator than those before one operand, and a node with two operands none
of them (expr.c:374-381 `is_binary_expr` would take the one for the other). -/
def operFits (fits : Bool) : Chk Unit := if fits then pure () else Chk.ub

/-- expr.c:76-85 -/
def sameTypes (l r : AExpr) : Chk Unit :=
  if l.type ≠ r.type then Chk.error .errExpectedSameType r.token else pure ()

mutual

/-- expr.c:36-54 `validate_expr`, with `validate_ident_expr` (56-69), `validate_binary_expr` (71-88) and `set_const_expr`
(145-152). -/
def validateExpr (cfg : Cfg) : Expr → Chk AExpr
  | .missing => Chk.ub
  | .ident t => do
    let (id, v) ← scopeFindVar t
    updVar id fun v => { v with wasRead := true }
    pure (.ident t id v.type (v.constExpr.getD false))
  | .const t => do pure (.const t (← validateConst cfg t))
  | .call name params num => do
    let id ← findFuncByToken name
    let f ← funcAt id
    updFunc id fun f => { f with wasCalled := true }
    checkCount f name params num
    let args ← validateArgs cfg f.paramTypes params
    pure (.call name args id f.returnType)
  | .un o rhs => do
    operFits (isPrefixOper o)
    let r ← validateExpr cfg rhs
    validateRestrictions o r r.token
    let ty ← exprType o r.type
    pure (.un o r ty r.isConstExpr)
  | .bin o lhs rhs => do
    operFits (isInfixOper o)
    let r ← validateExpr cfg rhs
    let l ← validateExpr cfg lhs
    sameTypes l r
    validateRestrictions o r l.token
    let ty ← exprType o r.type
    pure (.bin o l r ty (l.isConstExpr && r.isConstExpr))

/-- expr.c:346-372 `validate_func_call_params`. -/
def validateArgs (cfg : Cfg) : List Ty → Args → Chk AArgs
  | [], .nil => pure .nil
  | [], .cons first e next => pure (.unchecked (.cons first e next))
  | _ :: _, .nil => Chk.ub                           -- 354: the empty node at the end has no expression
  | ty :: tys, .cons first e next => do
    let a ← validateExpr cfg e
    if a.type ≠ ty then Chk.error .errFuncTypeMismatch first
    else do
      let rest ← validateArgs cfg tys next
      pure (.cons first a rest)

end

/-- `if (!scope_add_symbol(state, symbol)) return false;` -/
def mustAdd (id : Nat) : Chk Unit := do
  if ← scopeAddSymbol id then pure () else Chk.stop

/-- `FMT_WARN(err, code, ..)` followed by failing if `err` (errors.h:116-119). -/
def warn (cfg : Cfg) (code : Code) (t : Option Token) : Chk Unit := do
  report code t
  if cfg.werror then Chk.stop else pure ()

/-- What the check wrote into a node. -/
inductive Ann
  | none
  | varDef (sym : Nat) (expr : AExpr)
  | varAssign (sym : Nat) (expr : AExpr)
  | func (sym : Nat) (params : List Nat)
  | expr (e : AExpr)
  | ns (sym : Nat)

/-- The tree with what the check wrote.  A block behind a call is not looked at. -/
inductive ATree
  | nil
  | unchecked (t : Tree)
  | node (ann : Ann) (stmt : Stmt) (tok : List Token) (child next : ATree)

/-- The token at a pointer that is dereferenced. -/
def headTok : List Token → Chk Token
  | [] => Chk.ub
  | t :: _ => pure t

/-- flow.c:240-262 `assert_sane_child`. -/
def assertSaneChild : Tree → Chk Unit
  | .nil => pure ()
  | .node _ _ _ .nil _ => pure ()
  | .node stmt _ _ (.node _ ctok _ _ _) _ =>
    match stmt with
    | .ifs _ | .elifs _ | .elses | .whiles _ | .funcProto _ | .namespaces | .expr (.call ..) => pure ()
    | .expr .missing => Chk.ub
    | _ => do
      let t ← headTok ctok
      Chk.error .errUnexpectedCodeBlock t

/-- flow.c:74-94 `no_dead_code_below`. -/
def noDeadCodeBelow : Tree → Chk Unit
  | .nil => pure ()
  | .node stmt tok _ _ next =>
    match stmt with
    | .comment | .unreachable | .noop => noDeadCodeBelow next
    | _ => do
      let t ← headTok tok
      Chk.error .errUnreachableCode t

/-- flow.c:190-213 `validate_control_not_missing_if`; the list is the statements before, last first. -/
def notMissingIf : List Stmt → Bool
  | [] => false
  | .comment :: before => notMissingIf before
  | .ifs _ :: _ | .elifs _ :: _ => true
  | _ :: _ => false

/-- The diagnostic of lines 206-210; one that is behind comments is not reported for them. -/
def needIf (before : List Stmt) (tok : List Token) : Chk Unit :=
  if notMissingIf before then pure ()
  else do
    let t ← headTok tok
    Chk.error .errElseElifMissingIf t

/-- flow.c:215-233 `validate_bool_expr`. -/
def validateCond (cfg : Cfg) (e : AExpr) : Chk Unit :=
  if e.type ≠ tBool then Chk.error .errNonBoolExpr e.token
  else
    match e with
    | .const t (.bool b) => warn cfg (if b then .warnCondAlwaysTrue else .warnCondAlwaysFalse) t
    | _ => pure ()

/-- flow.c:179-188 `is_missing_block`. -/
def needBlock (child : Tree) (tok : List Token) : Chk Unit :=
  match child with
  | .node .. => pure ()
  | .nil => do
    let t ← headTok tok
    Chk.error .errMissingBlock t

/-- flow.c:30-36 and 43-68: the value of a return, none if there is no value; `f` is the current function. -/
def checkReturn (isMain : Bool) (f : Func) (e : Option AExpr) (tok : List Token) : Chk Unit :=
  match e with
  | none =>
    if f.returnType ≠ tVoid then do
      let t ← headTok tok
      Chk.error .errReturnMissingExpr t
    else pure ()
  | some e =>
    if isMain ∧ e.type ≠ tInt then Chk.error .errNonIntMain e.token
    else if f.returnType ≠ tVoid ∧ e.type ≠ f.returnType then Chk.error .errExpectedSameType e.token
    else pure ()

/-- flow.c:26, the operand of a return if there is one. -/
def validateOptExpr (cfg : Cfg) : Expr → Chk (Option AExpr)
  | .missing => pure none
  | e => do pure (some (← validateExpr cfg e))

/-- flow.c:23-41 `validate_stmt_return`. -/
def validateReturn (cfg : Cfg) (expr : Expr) (tok : List Token) (next : Tree) : Chk Ann := do
  assertSaneChild next
  let e ← validateOptExpr cfg expr
  let s ← Chk.get
  let f ← funcAt s.currentFunc
  checkReturn (s.currentFunc == 0) f e tok
  noDeadCodeBelow next
  pure (match e with | none => .none | some e => .expr e)

/-- types.c:264-297 `validate_stmt_type_alias`. -/
def validateTypeAlias (isConst : Bool) (expr : Expr) (tok : List Token) : Chk Unit := do
  if !isConst then do
    let t ← headTok tok.tail
    Chk.error .errNoMutTypeAlias t
  else if !isTypeExpr expr then do
    let t ← headTok tok.tail.tail
    Chk.error .errNoTypeExpr t
  else do
    let type ← tokenToType tok.tail.tail
    let first ← headTok tok
    let alias ← tokName first
    let id ← newSym { name := alias, loc := some first, exprType := type, kind := .alias }
    mustAdd id
where
  /-- types.c:272-274 -/
  isTypeExpr : Expr → Bool
    | .ident _ => true
    | .un o _ => o = .ref
    | _ => false

/-- `mangle_name`, for exported names (mangle.c:9-25). -/
def linkageName (cfg : Cfg) (isExport : Bool) (name : List Char) : Chk (List Char) :=
  if isExport then Chk.ofOption (mangleName cfg.filename name) else pure name

/-- assign.c:134-150 `is_void_func_assign`. -/
def notVoidFuncAssign (e : AExpr) : Chk Unit :=
  match e with
  | .call name _ _ ty => if ty = tVoid then Chk.error .errNoVoidAssign name else pure ()
  | _ => pure ()

/-- assign.c:84 and 88-96: the type of a definition; `name` is `name_tok`. -/
def declaredType (isImplicit : Bool) (e : AExpr) (name : List Token) : Chk Ty :=
  if isImplicit then pure e.type
  else do
    match ← tokenToType name.tail with
    | some ty => pure ty
    | none => Chk.error .errTypeNotFound name.tail.head?

/-- assign.c:82-132 `node_to_var`. -/
def nodeToVar (cfg : Cfg) (name : List Token) (isConst isImplicit isExported : Bool) (e : AExpr) : Chk Nat := do
  notVoidFuncAssign e
  let type ← declaredType isImplicit e name
  let t ← headTok name
  let str ← tokName t
  let var ← makeVariable type str isConst
  let link ← linkageName cfg isExported str
  let id ← newSym { name := str, exprType := some type, loc := some t,
                    kind := .var { var with implicitlyTyped := isImplicit, isExported := isExported, linkageName := link } }
  mustAdd id
  pure id

/-- assign.c:152-168 `is_expr_compatible_with_var`. -/
def compatible (e : AExpr) (type : Ty) : Chk Unit :=
  if e.type ≠ type then Chk.error .errExpectedSameType e.token else pure ()

/-- `symbol->var`. -/
def varAt (id : Nat) : Chk Variable := do
  match (← symAt id).kind with
  | .var v => pure v
  | _ => Chk.ub

/-- assign.c:44-48. -/
def warnTrivial (cfg : Cfg) (e : AExpr) (isImplicit : Bool) : Chk Unit :=
  match e with
  | .const .. => if isImplicit then pure () else warn cfg .warnTrivialType none
  | _ => pure ()

/-- assign.c:29-50, `validate_stmt_var_def` when the value is no type. -/
def validateVar (cfg : Cfg) (name : List Token) (isConst isImplicit isExported : Bool) (expr : Expr) : Chk Ann := do
  let e ← validateExpr cfg expr
  let id ← nodeToVar cfg name isConst isImplicit isExported e
  updVar id fun v => { v with isDefined := true, constExpr := some e.isConstExpr }
  let v ← varAt id
  compatible e v.type
  warnTrivial cfg e v.implicitlyTyped
  pure (.varDef id e)

/-- assign.c:24-51 `validate_stmt_var_def`. -/
def validateVarDef (cfg : Cfg) (name : List Token) (isConst isImplicit isExported : Bool) (expr : Expr)
    (tok tokEnd : List Token) : Chk Ann := do
  match ← tokenToType tokEnd.tail with
  | some _ => do
    validateTypeAlias isConst expr tok
    pure .none
  | none => validateVar cfg name isConst isImplicit isExported expr

/-- assign.c:170-180 `is_redundant_reassign`. -/
def notRedundant (e : AExpr) (id : Nat) : Chk Unit :=
  match e with
  | .ident t sym _ _ => if sym = id then Chk.error .errRedundantReassign t else pure ()
  | _ => pure ()

/-- assign.c:53-75 `validate_stmt_var_assign`. -/
def validateVarAssign (cfg : Cfg) (expr : Expr) (tok : List Token) : Chk Ann := do
  let t ← headTok tok
  let (id, v) ← scopeFindVar t
  if v.isConst then Chk.error .errReassignConst t
  else do
    updVar id fun v => { v with wasReassigned := true }
    let e ← validateExpr cfg expr
    compatible e v.type
    notRedundant e id
    pure (.varAssign id e)

/-- func.c:200-213 `validate_return_type`. -/
def validateReturnType : Option (List Token) → Chk Ty
  | none => pure tVoid
  | some toks => do
    match ← tokenToType toks with
    | some ty => pure ty
    | none => Chk.error .errTypeNotFound toks.head?

/-- func.c:148-194, the loop of `validate_func_params`; returns the types and the symbols.  On failure the scope is restored,
which nobody observes. -/
def validateParams (isExternal : Bool) : List Param → Chk (List (Ty × Nat))
  | [] => pure []
  | p :: ps => do
    match ← tokenToType p.type with
    | none => Chk.error .errTypeNotFound p.type.head?
    | some ty => do
      let str ← tokName p.name
      let var ← makeVariable ty str true
      let id ← newSym { name := str, exprType := some ty, loc := some p.name,
                        kind := .var { var with isDefined := true, wasReassigned := isExternal, wasRead := isExternal } }
      if ← scopeAddVar id then do
        let rest ← validateParams isExternal ps
        pure ((ty, id) :: rest)
      else Chk.error .errShadowVar p.name

/-- func.c:135-198 `validate_func_params`. -/
def validateFuncParams (p : FuncProto) (id : Nat) : Chk (List Nat) := do
  if p.numParams = 0 then pure []
  else do
    makeChildScope
    let ps ← validateParams p.isExternal (p.params.take p.numParams)
    updFunc id fun f => { f with paramTypes := ps.map Prod.fst }
    restoreParentScope
    pure (ps.map Prod.snd)

/-- func.c:50-53. -/
def notNested (p : FuncProto) : Chk Unit := do
  let top ← isTopLvlScope
  if (p.isExport || p.isExternal) && !top then Chk.error .errNoNested p.name else pure ()

/-- func.c:82-83: the new function becomes the current one. -/
def enterFunc (id : Nat) : Chk Unit := fun s =>
  .ok () { s with lastFunc := some s.currentFunc, currentFunc := id }

/-- func.c:42-94 `validate_stmt_func_decl_`; returns the symbol and the parameters. -/
def validateFuncDecl (cfg : Cfg) (p : FuncProto) : Chk (Nat × List Nat) := do
  notNested p
  let ret ← validateReturnType p.returnType
  let str ← tokName p.name
  let link ← linkageName cfg p.isExport str
  let id ← newSym { name := str, linkageName := link, exprType := some ret, loc := some p.name,
                    kind := .func { numParams := p.numParams, paramTypes := [], returnType := ret, isExternal := p.isExternal,
                                    isExport := p.isExport } }
  enterFunc id
  mustAdd id
  let params ← validateFuncParams p id
  pure (id, params)

/-- func.c:105-117: whether the first return or unreachable among the statements is a return with a value. -/
def returnsValue : Tree → Bool
  | .nil => false
  | .node stmt _ _ _ next =>
    match stmt with
    | .ret .missing => false
    | .ret _ => true
    | .unreachable => false
    | _ => returnsValue next

/-- func.c:119-128 -/
def checkReturns (f : Func) (child : Tree) : Chk Unit :=
  if !returnsValue child && f.returnType ≠ tVoid then Chk.error .errExpectedReturn none
  else if returnsValue child && f.returnType = tVoid then Chk.error .errNoVoidReturn none
  else pure ()

/-- func.c:130: the function before becomes the current one again. -/
def leaveFunc : Chk Unit := fun s =>
  match s.lastFunc with
  | none => .ub
  | some l => .ok () { s with currentFunc := l }

/-- func.c:96-133 `post_validate_stmt_func_decl`. -/
def postValidateFunc (child : Tree) : Chk Unit := do
  let s ← Chk.get
  let f ← funcAt s.currentFunc
  if f.isExternal then pure ()
  else do
    checkReturns f child
    leaveFunc

/-- import.c:60-72 `current_file_dir`; the name of the file is not empty. -/
def currentFileDir (filename : List Char) : List Char :=
  match lastSlash filename with
  | some (i + 1) => filename.take (i + 1)
  | _ => ['.']

/-- import.c:18-58 `validate_stmt_import`. -/
def validateImport (cfg : Cfg) (tok : List Token) : Chk Unit := do
  let t ← headTok tok.tail
  let name ← tokName t
  if !cfg.openDir (currentFileDir cfg.filename) then Chk.error .errLoadModule none
  else if !cfg.openFile (currentFileDir cfg.filename) (name ++ ".sk".toList) then Chk.error .errLoadModule none
  else pure ()

/-- Set the depth of loops, an `unsigned`. -/
def setDepth (d : Nat) : Chk Unit := fun s => .ok () { s with whileDepth := d % 2 ^ 32 }

/-- flow.c:158-170: the new namespace. -/
def declareNamespace (tok : List Token) : Chk Nat := do
  let t ← headTok tok.tail
  let name ← tokName t
  let id ← newSym { name := name, loc := some t, kind := .ns none }
  mustAdd id
  pure id

/-- flow.c:174: the last scope of the block that has just been checked. -/
def blockScope (s : SS) : Option (Option Nat) :=
  match s.scope.bind (s.scopes[·]?) with
  | none => none
  | some sc =>
    match sc.last.bind (s.scopes[·]?) with
    | none => none
    | some before => lastAdjacent s.scopes (s.scopes.length + 1) before.child

/-- flow.c:174: the scope of a namespace is the last one of its block. -/
def closeNamespace (id : Nat) : Chk Unit := fun s =>
  match blockScope s with
  | none => .ub
  | some scope => updSym id (fun sym => { sym with kind := .ns scope }) s

/-- flow.c:139-146 `validate_control_break` and 148-155 `validate_control_continue`. -/
def validateJump (code : Code) (tok : List Token) (next : Tree) : Chk Unit := do
  let s ← Chk.get
  if s.whileDepth > 0 then noDeadCodeBelow next
  else do
    let t ← headTok tok
    Chk.error code t

/-- entry.c:46-58 `setup_and_validate_ast_sub_tree`; `nodes` checks the statements. -/
def block (nodes : Chk ATree) : Chk ATree := do
  makeChildScope
  let r ← nodes
  resetScopeHead
  restoreParentScope
  makeAdjacentScope
  pure r

/-- A condition (`validate_expr && validate_bool_expr`). -/
def condition (cfg : Cfg) (c : Expr) : Chk AExpr := do
  let e ← validateExpr cfg c
  validateCond cfg e
  pure e

/-- The block behind a call is left alone. -/
def leaveAlone : Tree → ATree
  | .nil => .nil
  | t => .unchecked t

/-- entry.c:66-83, `validate_ast_node`; `nodes` checks the statements of the block, `before` are the statements before, last
first. -/
def validateStmt (cfg : Cfg) (before : List Stmt) (stmt : Stmt) (tok tokEnd : List Token) (child next : Tree)
    (nodes : Chk ATree) : Chk (Ann × ATree) :=
  match stmt with
  | .ret e => do
    let a ← validateReturn cfg e tok next
    pure (a, .nil)
  | .unreachable => do
    noDeadCodeBelow next
    pure (.none, .nil)
  | .funcProto p => do                               -- func.c:27-40
    let s ← Chk.get
    setDepth 0
    let r ← validateFuncDecl cfg p
    let body ← block nodes
    postValidateFunc child
    setDepth s.whileDepth
    pure (.func r.1 r.2, body)
  | .varDef name isConst isImplicit isExported e => do
    let a ← validateVarDef cfg name isConst isImplicit isExported e tok tokEnd
    pure (a, .nil)
  | .varAssign e => do
    let a ← validateVarAssign cfg e tok
    pure (a, .nil)
  | .expr .missing => Chk.ub
  | .expr (.call name params num) => do              -- expr.c:290-296
    let e ← validateExpr cfg (.call name params num)
    pure (.expr e, leaveAlone child)
  | .expr _ => do
    let t ← headTok tok
    Chk.error .errNoDanglingExpr t
  | .ifs c => do                                     -- flow.c:104-111
    needBlock child tok
    let e ← condition cfg c
    let body ← block nodes
    pure (.expr e, body)
  | .elses => do                                     -- flow.c:96-102
    needIf before tok
    needBlock child tok
    let body ← block nodes
    pure (.none, body)
  | .elifs c => do                                   -- flow.c:113-121
    needBlock child tok
    needIf before tok
    let e ← condition cfg c
    let body ← block nodes
    pure (.expr e, body)
  | .whiles c => do                                  -- flow.c:123-137
    let s ← Chk.get
    setDepth (s.whileDepth + 1)
    needBlock child tok
    let e ← condition cfg c
    let body ← block nodes
    let s ← Chk.get
    setDepth (s.whileDepth + (2 ^ 32 - 1))
    pure (.expr e, body)
  | .breaks => do
    validateJump .errBreakNotInWhile tok next
    pure (.none, .nil)
  | .continues => do
    validateJump .errContinueNotInWhile tok next
    pure (.none, .nil)
  | .namespaces => do                                -- flow.c:157-177
    let id ← declareNamespace tok
    let body ← block nodes
    closeNamespace id
    pure (.ns id, body)
  | .imports => do
    validateImport cfg tok
    pure (.none, .nil)
  | .unknown | .comment | .noop => pure (.none, .nil)

/-- entry.c:35-40, the loop of `validate_ast_sub_tree`, and entry.c:64. -/
def validateNodes (cfg : Cfg) (before : List Stmt) : Tree → Chk ATree
  | .nil => pure .nil
  | .node stmt tok tokEnd child next => do
    assertSaneChild (.node stmt tok tokEnd child next)
    let r ← validateStmt cfg before stmt tok tokEnd child next (validateNodes cfg [] child)
    let rest ← validateNodes cfg (stmt :: before) next
    pure (.node r.1 stmt tok r.2 rest)

/-- unused.c:11-57 on a tree that was not checked, whose function prototypes have no symbol (line 42); `true` means that nothing
undefined happens. -/
def unusedUnchecked : Tree → Bool
  | .nil => true
  | .node stmt _ _ child next =>
    match stmt with
    | .funcProto _ => false
    | .varDef .. => unusedUnchecked next
    | _ => unusedUnchecked child && unusedUnchecked next

/-- One `FMT_WARN` of `check_unused_symbols`: the new `err`. -/
def warnIf (cfg : Cfg) (cond : Bool) (err : Bool) (code : Code) (t : Option Token) : Chk Bool :=
  if cond then do
    report code t
    pure (err || cfg.werror)
  else pure err

/-- unused.c:27-36 and 42-46: the warnings about one symbol. -/
def unusedSym (cfg : Cfg) (err : Bool) (sym : Symbol) : Chk Bool :=
  match sym.kind with
  | .var v => do
    let err ← warnIf cfg (!v.isConst && !v.wasReassigned) err .warnVarNotConst sym.loc
    warnIf cfg (!v.wasRead && !v.isExported) err .warnVarUnused sym.loc
  | .func f => warnIf cfg (!f.wasCalled) err .warnFuncUnused sym.loc
  | _ => Chk.ub

/-- unused.c:11-57 `check_unused_symbols` without the negation at its end; `err` is the variable. -/
def checkUnused (cfg : Cfg) (err : Bool) : ATree → Chk Bool
  | .nil => pure err
  | .unchecked t => if unusedUnchecked t then pure err else Chk.ub
  | .node (.varDef id _) _ _ _ next => do
    let sym ← symAt id
    let err ← unusedSym cfg err sym
    checkUnused cfg err next
  | .node (.func id _) _ _ _ next => do
    let sym ← symAt id
    let err ← unusedSym cfg err sym
    checkUnused cfg err next
  | .node _ _ _ .nil next => checkUnused cfg err next
  | .node _ _ _ child next => do
    let inner ← checkUnused cfg false child
    checkUnused cfg (err && !inner) next               -- 50: err &= check_unused_symbols(head->child)

/-- entry.c:25-30 `validate_ast_tree`. -/
def validateAstTree (cfg : Cfg) (t : Tree) : Chk ATree := do
  let a ← validateNodes cfg [] t
  resetScopeHead
  resetScopeHead
  if cfg.quiet then pure a
  else do
    let err ← checkUnused cfg false a
    if err then Chk.stop else pure a

/-- shared.c:14-34 `setup_semantic_state`: the function `main`. -/
def setupState (cfg : Cfg) : Option SS :=
  (createMainFuncName cfg.filename).map fun name =>
    { syms := [{ name := name, linkageName := name,
                 kind := .func { numParams := 0, paramTypes := [], returnType := tInt, isExternal := false,
                                 isExport := false } }] }

/-- The check of a whole file. -/
def semantic (cfg : Cfg) (t : Tree) : SRes ATree :=
  match setupState cfg with
  | none => .ub
  | some s => validateAstTree cfg t s

end Skull
