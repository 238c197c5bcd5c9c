import Verif.Model.Semantic
/-
skull/codegen/llvm/expr.c, assign.c, flow.c, func.c, core.c, shared.c, types.c, and of debug.c what generates code: the LLVM back end, as calls of LLVM's C interface.

A module is a list of functions and a list of globals; functions, globals and blocks are named by their places in these lists, and
the result of an instruction by a number.  A block is the list of the instructions that were appended to it.  `none` is an undefined
operation: a null pointer dereferenced, or an assertion that fails.

LLVM's part: `LLVMBuildX` either appends an instruction or gives a value that is known without one (`LCfg.fold`, LLVM's constant
folder); everything else is appended.  Types of the operands are not checked here.  Moving a block changes the order in which blocks
are printed and is left out, as are the names of blocks and instructions, and that a second global or function with the same name
gets another one.  Strings stand for the address of a constant with these characters.

With `-g` (`LCfg.debug`) parameters are copied to memory and `noop` is a store.  The debug information itself, metadata that has no
influence on what the code does, is left out, as is the cursor `state->semantic->scope`, which is moved along but never used.
-/
namespace Skull

/-- Operations on two operands: LLVMBuildNSWAdd, NSWSub, NSWMul, ExactSDiv, SRem, Shl, LShr; FAdd, FSub, FMul, FDiv, FRem; And, Or,
Xor; ICmp EQ, SLT, SGT, SLE, SGE; FCmp OEQ, OLT, OGT, OLE, OGE. -/
inductive LOp
  | add | sub | mul | sdiv | srem | shl | lshr
  | fadd | fsub | fmul | fdiv | frem
  | and | or | xor
  | ieq | islt | isgt | isle | isge
  | foeq | folt | fogt | fole | foge
  deriving DecidableEq, Repr

/-- The functions of the run time. -/
inductive LBuiltin
  | intPow | floatPow | strcmp
  deriving DecidableEq, Repr

/-- Values: constants, addresses of globals, parameters of the function, and results of instructions. -/
inductive LVal
  | int (i : Int)
  | float (bits : Nat)
  | bool (b : Bool)
  | rune (r : Nat)
  | str (s : List Nat)
  | poison
  | null (ty : Ty)
  | global (g : Nat)
  | param (i : Nat)
  | reg (r : Nat)
  deriving DecidableEq, Repr

/-- `LLVMIsConstant` -/
def LVal.isConstant : LVal → Bool
  | .param _ | .reg _ => false
  | _ => true

/-- Instructions.  A target of `br` may be null. -/
inductive LInstr
  | bin (r : Nat) (op : LOp) (a b : LVal)
  | load (r : Nat) (ty : Ty) (p : LVal)
  | store (v p : LVal)
  | alloca (r : Nat) (ty : Ty)
  | call (r : Nat) (f : Nat) (args : List LVal)
  | builtin (r : Nat) (f : LBuiltin) (a b : LVal)
  | br (b : Option Nat)
  | condBr (c : LVal) (t e : Nat)
  | ret (v : LVal)
  | retVoid
  | unreachable
  deriving DecidableEq, Repr

/-- A function; one that is only declared has no blocks. -/
structure LFunc where
  name : List Char
  params : List Ty
  ret : Ty
  isPrivate : Bool
  blocks : List (List LInstr) := []
  deriving DecidableEq, Repr

/-- A global variable. -/
structure LGlobal where
  name : List Char
  ty : Ty
  isPrivate : Bool
  init : LVal
  deriving DecidableEq, Repr

/-- shared.h:9-19 `SkullStateLLVM`, the module and the position of the builder, and the fields `ref`, `is_global` and
`is_const` of variables and `ref` of functions. -/
structure LState where
  funcs : List LFunc := []
  globals : List LGlobal := []
  curFn : Nat := 0                                   -- the function of `LLVMGetInsertBlock`
  curBlock : Nat := 0                                -- `LLVMGetInsertBlock`
  nextReg : Nat := 0
  refs : Nat → Option LVal := fun _ => none
  isGlobal : Nat → Bool := fun _ => false
  spilled : Nat → Bool := fun _ => false             -- whether `is_const` was reset by debug.c:405
  funcRef : Nat → Option Nat := fun _ => none
  currentFunc : Nat := 0                             -- `current_func`
  whileCond : Option Nat := none                     -- `current_while_cond`
  whileEnd : Option Nat := none                      -- `current_while_end`

/-- The symbols, LLVM's constant folder, and `BUILD_DATA.debug`. -/
structure LCfg where
  syms : List Symbol
  fold : LOp → LVal → LVal → Option LVal := fun _ _ _ => none
  debug : Bool := false

/-- A step of the generator. -/
abbrev LGen (α : Type) : Type := LState → Option (α × LState)

def LGen.bind (m : LGen α) (f : α → LGen β) : LGen β := fun s =>
  match m s with
  | some (a, s) => f a s
  | none => none

instance : Monad LGen where
  pure a := fun s => some (a, s)
  bind := LGen.bind

def LGen.ub : LGen α := fun _ => none
def LGen.get : LGen LState := fun s => some (s, s)
def LGen.modify (f : LState → LState) : LGen Unit := fun s => some ((), f s)
def LGen.ofOption : Option α → LGen α
  | some a => pure a
  | none => LGen.ub

/-- Append to a block. -/
def LFunc.append (f : LFunc) (b : Nat) (i : LInstr) : LFunc :=
  { f with blocks := f.blocks.modify b (· ++ [i]) }

/-- Append an instruction where the builder is. -/
def emit (i : LInstr) : LGen Unit :=
  LGen.modify fun s => { s with funcs := s.funcs.modify s.curFn (·.append s.curBlock i) }

/-- A number for the result of an instruction. -/
def newReg : LGen Nat := fun s => some (s.nextReg, { s with nextReg := s.nextReg + 1 })

/-- `LLVMBuildX` of an operation. -/
def buildBin (cfg : LCfg) (op : LOp) (a b : LVal) : LGen LVal :=
  match cfg.fold op a b with
  | some v => pure v
  | none => do
    let r ← newReg
    emit (.bin r op a b)
    pure (.reg r)

/-- `LLVMBuildLoad2` -/
def buildLoad (ty : Ty) (p : LVal) : LGen LVal := do
  let r ← newReg
  emit (.load r ty p)
  pure (.reg r)

/-- expr.c:434-469 `create_and_call_builtin_oper`. -/
def buildBuiltin (f : LBuiltin) (a b : LVal) : LGen LVal := do
  let r ← newReg
  emit (.builtin r f a b)
  pure (.reg r)

/-- `LLVMBuildNot` -/
def buildNot (cfg : LCfg) (v : LVal) : LGen LVal := buildBin cfg .xor v (.bool true)

/-- `LLVMAppendBasicBlockInContext` in the function of `current_func`. -/
def appendBlock (f : Nat) : LGen Nat := fun s =>
  match s.funcs[f]? with
  | some fn => some (fn.blocks.length, { s with funcs := s.funcs.modify f fun fn => { fn with blocks := fn.blocks ++ [[]] } })
  | none => none

/-- `LLVMPositionBuilderAtEnd` -/
def positionAt (f b : Nat) : LGen Unit := LGen.modify fun s => { s with curFn := f, curBlock := b }

/-- `symbol->var` -/
def LCfg.var (cfg : LCfg) (id : Nat) : Option Variable :=
  match cfg.syms[id]? with
  | some sym => match sym.kind with | .var v => some v | _ => none
  | none => none

/-- `symbol->func` with the symbol. -/
def LCfg.func (cfg : LCfg) (id : Nat) : Option (Symbol × Func) :=
  match cfg.syms[id]? with
  | some sym => match sym.kind with | .func f => some (sym, f) | _ => none
  | none => none

/-- `var->is_const` -/
def LState.isConst (s : LState) (id : Nat) (v : Variable) : Bool := v.isConst && !s.spilled id

/-- expr.h:10-20 `Expr`.  The type may be null. -/
structure LExpr where
  ty : Option Ty
  val : LVal

/-- types.h: `type->inner`, null for types that are no references. -/
def Ty.inner? : Ty → Option Ty
  | .ref t => some t
  | .prim _ => none

/-- expr.c:133-168 `gen_expr_const`. -/
def genConstL : Value → LVal
  | .int i => .int i
  | .float bits => .float bits
  | .bool b => .bool b
  | .rune r => .rune r
  | .str s => .str s

/-- expr.c:176-196 `gen_expr_math_oper`. -/
def mathL (cfg : LCfg) (iop fop : LOp) (ty : Option Ty) (a b : LVal) : LGen LExpr :=
  if ty = some (.prim .int) then do
    let v ← buildBin cfg iop a b
    pure ⟨ty, v⟩
  else if ty = some (.prim .float) then do
    let v ← buildBin cfg fop a b
    pure ⟨ty, v⟩
  else LGen.ub

/-- expr.c:258-295: the shifts. -/
def shiftL (cfg : LCfg) (op : LOp) (ty : Option Ty) (a b : LVal) : LGen LExpr :=
  if ty = some (.prim .int) then do
    let v ← buildBin cfg op a b
    pure ⟨some (.prim .int), v⟩
  else LGen.ub

/-- expr.c:300-321 `gen_expr_pow`. -/
def powL (ty : Option Ty) (a b : LVal) : LGen LExpr :=
  if ty = some (.prim .int) then do
    let v ← buildBuiltin .intPow a b
    pure ⟨ty, v⟩
  else if ty = some (.prim .float) then do
    let v ← buildBuiltin .floatPow a b
    pure ⟨ty, v⟩
  else LGen.ub                                       -- the name of the function is null

/-- expr.c:374-409 `gen_expr_is` and 414-427 `gen_expr_is_str`. -/
def isL (cfg : LCfg) (ty : Option Ty) (a b : LVal) : LGen LExpr :=
  if ty = some (.prim .int) ∨ ty = some (.prim .rune) ∨ ty = some (.prim .bool) then do
    let v ← buildBin cfg .ieq a b
    pure ⟨some (.prim .bool), v⟩
  else if ty = some (.prim .float) then do
    let v ← buildBin cfg .foeq a b
    pure ⟨some (.prim .bool), v⟩
  else if ty = some (.prim .str) then do
    let v ← buildBuiltin .strcmp a b
    pure ⟨some (.prim .bool), v⟩
  else LGen.ub

/-- expr.c:474-488 `gen_expr_is_not`. -/
def isNotL (cfg : LCfg) (ty : Option Ty) (a b : LVal) : LGen LExpr := do
  let e ← isL cfg ty a b
  let v ← buildNot cfg e.val
  pure ⟨e.ty, v⟩

/-- expr.c:496-528 `gen_expr_relational_oper`. -/
def relL (cfg : LCfg) (iop fop : LOp) (ty : Option Ty) (a b : LVal) : LGen LExpr :=
  if ty = some (.prim .int) then do
    let v ← buildBin cfg iop a b
    pure ⟨some (.prim .bool), v⟩
  else if ty = some (.prim .float) then do
    let v ← buildBin cfg fop a b
    pure ⟨some (.prim .bool), v⟩
  else LGen.ub

/-- expr.c:579-589 `gen_expr_logical_oper`. -/
def logicL (cfg : LCfg) (op : LOp) (ty : Option Ty) (a b : LVal) : LGen LExpr := do
  let v ← buildBin cfg op a b
  pure ⟨ty, v⟩

/-- expr.c:624-647 `expr_type_to_func` and the functions for two operands; `ty` is the type of the right one. -/
def binL (cfg : LCfg) (o : Oper) (ty : Option Ty) (a b : LVal) : LGen LExpr :=
  match o with
  | .add => mathL cfg .add .fadd ty a b
  | .sub => mathL cfg .sub .fsub ty a b
  | .mult => mathL cfg .mul .fmul ty a b
  | .div => mathL cfg .sdiv .fdiv ty a b
  | .mod => mathL cfg .srem .frem ty a b
  | .lshift => shiftL cfg .shl ty a b
  | .rshift => shiftL cfg .lshr ty a b
  | .pow => powL ty a b
  | .is => isL cfg ty a b
  | .isnt => isNotL cfg ty a b
  | .lessThan => relL cfg .islt .folt ty a b
  | .gtrThan => relL cfg .isgt .fogt ty a b
  | .lessThanEq => relL cfg .isle .fole ty a b
  | .gtrThanEq => relL cfg .isge .foge ty a b
  | .and => logicL cfg .and ty a b
  | .or => logicL cfg .or ty a b
  | .xor => logicL cfg .xor ty a b
  | _ => LGen.ub

/-- expr.c:336-347 `gen_expr_not` and 352-369 `gen_expr_unary_neg`. -/
def unL (cfg : LCfg) (o : Oper) (e : LExpr) : LGen LExpr :=
  match o with
  | .not => do
    let v ← buildNot cfg e.val
    pure ⟨some (.prim .bool), v⟩
  | .unaryNeg => mathL cfg .sub .fsub e.ty (if e.ty = some (.prim .int) then .int 0 else .float 0) e.val
  | _ => LGen.ub

/-- expr.c:84-106 `gen_expr_identifier`. -/
def identL (cfg : LCfg) (id : Nat) : LGen LExpr := do
  let v ← LGen.ofOption (cfg.var id)
  let s ← LGen.get
  let p ← LGen.ofOption (s.refs id)
  if s.isGlobal id || !s.isConst id v then do
    let x ← buildLoad v.type p
    pure ⟨some v.type, x⟩
  else pure ⟨some v.type, p⟩

/-- expr.c:108-128 `gen_expr_deref`. -/
def derefL (cfg : LCfg) (id : Nat) : LGen LExpr := do
  let v ← LGen.ofOption (cfg.var id)
  let s ← LGen.get
  let p ← LGen.ofOption (s.refs id)
  let inner ← LGen.ofOption v.type.inner?
  let q ← buildLoad v.type p
  let x ← buildLoad inner q
  pure ⟨some inner, x⟩

/-- expr.c:326-331 `gen_expr_ref`. -/
def refL (cfg : LCfg) (id : Nat) : LGen LExpr := do
  let v ← LGen.ofOption (cfg.var id)
  let s ← LGen.get
  let p ← LGen.ofOption (s.refs id)
  pure ⟨v.type.inner?, p⟩

/-- func.c:118-129: the call itself. -/
def callL (cfg : LCfg) (id : Nat) (args : List LVal) : LGen LExpr := do
  let f ← LGen.ofOption (cfg.func id)
  let s ← LGen.get
  let ref ← LGen.ofOption (s.funcRef id)
  let r ← newReg
  emit (.call r ref args)
  pure ⟨some f.2.returnType, .reg r⟩

/-- expr.c:60-63: `&` and `*`, which look at the symbol of their operand. -/
def addrL (cfg : LCfg) (o : Oper) : AExpr → LGen LExpr
  | .ident _ id _ _ => if o = .ref then refL cfg id else derefL cfg id
  | _ => LGen.ub

mutual

/-- expr.c:52-79 `gen_expr`, with `gen_expr_func_call` (func.c:101-136). -/
def genExprL (cfg : LCfg) : AExpr → LGen LExpr
  | .ident _ id _ _ => identL cfg id
  | .const _ v => pure ⟨some v.type, genConstL v⟩
  | .call _ args id _ => do
    let f ← LGen.ofOption (cfg.func id)
    let as ← genArgsL cfg f.2.numParams args
    callL cfg id as
  | .un o r _ _ =>
    if o = .ref ∨ o = .deref then addrL cfg o r
    else do
      let e ← genExprL cfg r
      unL cfg o e
  | .bin o l r _ _ => do
    let a ← genExprL cfg l
    let b ← genExprL cfg r
    binL cfg o b.ty a.val b.val

/-- func.c:113-116, the loop over the parameters. -/
def genArgsL (cfg : LCfg) : Nat → AArgs → LGen (List LVal)
  | 0, _ => pure []
  | n + 1, .cons _ e next => do
    let a ← genExprL cfg e
    let as ← genArgsL cfg n next
    pure (a.val :: as)
  | _ + 1, _ => LGen.ub

end

/-- assign.c:99-119 `assign_value_to_var`. -/
def assignL (cfg : LCfg) (id : Nat) (v : LVal) : LGen Unit := do
  let var ← LGen.ofOption (cfg.var id)
  let s ← LGen.get
  if s.isConst id var && (!s.isGlobal id || v.isConstant) then
    LGen.modify fun s => { s with refs := fun i => if i = id then some v else s.refs i }
  else do
    let p ← LGen.ofOption (s.refs id)
    emit (.store v p)

/-- assign.c:64-84, 93: a variable outside of functions. -/
def globalVarL (cfg : LCfg) (id : Nat) (var : Variable) (v : LVal) : LGen Unit := do
  LGen.modify fun s => { s with
    isGlobal := fun i => if i = id then true else s.isGlobal i
    refs := fun i => if i = id then some (.global s.globals.length) else s.refs i
    globals := s.globals ++ [⟨var.linkageName, var.type, !var.isExported, if v.isConstant then v else .null var.type⟩] }
  if v.isConstant then pure () else assignL cfg id v

/-- assign.c:85-93: a variable in a function. -/
def localVarL (cfg : LCfg) (id : Nat) (var : Variable) (v : LVal) : LGen Unit := do
  LGen.modify fun s => { s with isGlobal := fun i => if i = id then false else s.isGlobal i }
  let s ← LGen.get
  if s.isConst id var then assignL cfg id v
  else do
    let r ← newReg
    emit (.alloca r var.type)
    LGen.modify fun s => { s with refs := fun i => if i = id then some (.reg r) else s.refs i }
    assignL cfg id v

/-- assign.c:52-94 `setup_var_llvm` and 121-123 `is_top_level`; symbol 0 is the main function. -/
def setupVarL (cfg : LCfg) (id : Nat) (v : LVal) : LGen Unit := do
  let var ← LGen.ofOption (cfg.var id)
  let s ← LGen.get
  if s.currentFunc = 0 then globalVarL cfg id var v else localVarL cfg id var v

/-- func.c:53-78 `add_func`. -/
def addFuncL (sym : Symbol) (f : Func) (id : Nat) : LGen Nat := fun s =>
  some (s.funcs.length,
    { s with
      funcs := s.funcs ++ [⟨sym.linkageName, f.paramTypes, f.returnType, !(f.isExternal || f.isExport), []⟩]
      funcRef := fun i => if i = id then some s.funcs.length else s.funcRef i })

/-- func.c:148-157: the references of the parameters. -/
def setParams (params : List Nat) : LGen Unit :=
  LGen.modify fun s => { s with refs := fun i => if i ∈ params then some (.param (params.idxOf i)) else s.refs i }

/-- debug.c:389-406 `alloc_debug_function_param`. -/
def spillParam (cfg : LCfg) (id : Nat) : LGen Unit := do
  let var ← LGen.ofOption (cfg.var id)
  let s ← LGen.get
  let old ← LGen.ofOption (s.refs id)
  let r ← newReg
  emit (.alloca r var.type)
  emit (.store old (.reg r))
  LGen.modify fun s => { s with
    refs := fun i => if i = id then some (.reg r) else s.refs i
    spilled := fun i => if i = id then true else s.spilled i }

/-- debug.c:353-384, the loop over the parameters. -/
def spillParams (cfg : LCfg) : List Nat → LGen Unit
  | [] => pure ()
  | id :: ids => do
    spillParam cfg id
    spillParams cfg ids

/-- debug.c:308-387 `add_llvm_func_debug_info`. -/
def debugParams (cfg : LCfg) (params : List Nat) : LGen Unit :=
  if cfg.debug then spillParams cfg params else pure ()

/-- func.c:36-48 `gen_stmt_func_decl` and 141-186 `gen_function_def`; `body` generates the statements and gives what `gen_tree`
returns. -/
def functionL (cfg : LCfg) (id : Nat) (params : List Nat) (body : LGen (Option (Option Ty))) : LGen Unit := do
  let (sym, f) ← LGen.ofOption (cfg.func id)
  let ref ← addFuncL sym f id
  if f.isExternal then pure ()
  else do
    setParams (params.take f.numParams)
    let old ← LGen.get
    let entry ← appendBlock ref
    positionAt ref entry
    LGen.modify fun s => { s with currentFunc := id }
    debugParams cfg (params.take f.numParams)
    let returned ← body
    LGen.modify fun s => { s with currentFunc := old.currentFunc }
    if f.returnType = .prim .void ∧ returned ≠ some (some (.prim .void)) then emit .retVoid else pure ()
    positionAt old.curFn old.curBlock

/-- The LLVM function of `current_func`. -/
def currentRef : LGen Nat := do
  let s ← LGen.get
  LGen.ofOption (s.funcRef s.currentFunc)

/-- flow.c:264-286 `gen_control_code_block`, when the block to go on with is not null. -/
def codeBlockL (body : LGen (Option (Option Ty))) (target : Nat) : LGen Unit := do
  match ← body with
  | none => emit (.br (some target))
  | some _ => pure ()

/-- flow.c:91-132 `gen_control_while`. -/
def whileL (cfg : LCfg) (e : AExpr) (body : LGen (Option (Option Ty))) : LGen Unit := do
  let f ← currentRef
  let cond ← appendBlock f
  let loop ← appendBlock f
  let fin ← appendBlock f
  LGen.modify fun s => { s with whileCond := some cond, whileEnd := some fin }
  emit (.br (some cond))
  positionAt f cond
  let c ← genExprL cfg e
  emit (.condBr c.val loop fin)
  positionAt f loop
  codeBlockL body cond
  positionAt f fin
  LGen.modify fun s => { s with whileCond := none, whileEnd := none }

/-- flow.c:51-65 `gen_stmt_noop`. -/
def noopL (cfg : LCfg) : LGen Unit :=
  if cfg.debug then do
    let r ← newReg
    emit (.alloca r (.prim .int))
    emit (.store (.int 0) (.reg r))
  else pure ()

/-- core.c:39-64, the cases of `gen_node` other than `if`, `while` and blocks.  The result is `none` for `(Expr){0}`, and the type
otherwise. -/
def simpleL (cfg : LCfg) (ann : Ann) (stmt : Stmt) : LGen (Option (Option Ty)) :=
  match stmt with
  | .varDef .. =>
    match ann with
    | .varDef id e => do                             -- assign.c:30-38
      let v ← genExprL cfg e
      setupVarL cfg id v.val
      pure none
    | .none => pure none
    | _ => LGen.ub
  | .varAssign _ =>
    match ann with
    | .varAssign id e => do                          -- assign.c:43-50
      let v ← genExprL cfg e
      assignL cfg id v.val
      pure none
    | _ => LGen.ub
  | .ret _ =>
    match ann with
    | .none => do                                    -- flow.c:71-77
      emit .retVoid
      pure (some (some (.prim .void)))
    | .expr e => do                                  -- flow.c:79-85
      let v ← genExprL cfg e
      emit (.ret v.val)
      pure (some v.ty)
    | _ => LGen.ub
  | .expr _ =>
    match ann with
    | .expr (.call t args id ty) => do
      let _ ← genExprL cfg (.call t args id ty)
      pure none
    | _ => LGen.ub
  | .noop => do
    noopL cfg
    pure none
  | .unreachable => do
    emit .unreachable
    pure (some (some (.prim .void)))
  | .breaks => do                                    -- flow.c:246-251
    let s ← LGen.get
    emit (.br s.whileEnd)
    pure (some (some (.prim .void)))
  | .continues => do
    let s ← LGen.get
    emit (.br s.whileCond)
    pure (some (some (.prim .void)))
  | .imports | .comment => pure none
  | _ => LGen.ub

/-- Where the generator is in a list of statements: at the beginning of one, or behind the block of an `if` or `elif` whose condition
is still to be generated.  `entry` is the block the condition goes to, `ifTrue` the block of the `if`, `fin` the block behind the whole
chain. -/
inductive LMode
  | stmts
  | afterIf (cond : AExpr) (f entry ifTrue fin : Nat)

/-- flow.c:226-243: the condition behind a block that is the last one of its chain. -/
def closeIf (cfg : LCfg) : LMode → LGen Unit
  | .stmts => pure ()
  | .afterIf e f entry ifTrue fin => do
    positionAt f entry
    let c ← genExprL cfg e
    emit (.condBr c.val ifTrue fin)
    positionAt f fin

/-- flow.c:185-213: the condition behind a block that another one follows; gives the block for that one. -/
def nextIf (cfg : LCfg) (e : AExpr) (f entry ifTrue : Nat) : LGen Nat := do
  positionAt f entry
  let ifFalse ← appendBlock f
  let c ← genExprL cfg e
  emit (.condBr c.val ifTrue ifFalse)
  pure ifFalse

/-- core.c:28-37 `gen_tree`, 39-64 `gen_node`, and flow.c:137-148 `gen_control_if` and 160-244 `gen_control_if_`.  Behind an `if` comments are skipped;
nothing is generated for them anyway. -/
def genTreeL (cfg : LCfg) : LMode → ATree → LGen (Option (Option Ty))
  | mode, .nil => do
    closeIf cfg mode
    pure none
  | _, .unchecked _ => LGen.ub
  | mode, .node ann stmt _ child next =>
    match mode, stmt with
    | .afterIf e f entry ifTrue fin, .comment => genTreeL cfg (.afterIf e f entry ifTrue fin) next
    | .afterIf e f entry ifTrue fin, .elifs _ =>
      match ann with
      | .expr e' => do
        let ifFalse ← nextIf cfg e f entry ifTrue
        let ifTrue' ← appendBlock f
        positionAt f ifTrue'
        codeBlockL (genTreeL cfg .stmts child) fin
        genTreeL cfg (.afterIf e' f ifFalse ifTrue' fin) next
      | _ => LGen.ub
    | .afterIf e f entry ifTrue fin, .elses => do
      let ifFalse ← nextIf cfg e f entry ifTrue
      positionAt f ifFalse
      codeBlockL (genTreeL cfg .stmts child) fin
      positionAt f fin
      genTreeL cfg .stmts next
    | mode, stmt => do
      closeIf cfg mode
      match stmt with
      | .ifs _ =>
        match ann with
        | .expr e => do
          let f ← currentRef
          let s ← LGen.get
          let fin ← appendBlock f
          let ifTrue ← appendBlock f
          positionAt f ifTrue
          codeBlockL (genTreeL cfg .stmts child) fin
          genTreeL cfg (.afterIf e f s.curBlock ifTrue fin) next
        | _ => LGen.ub
      | .whiles _ =>
        match ann with
        | .expr e => do
          whileL cfg e (genTreeL cfg .stmts child)
          genTreeL cfg .stmts next
        | _ => LGen.ub
      | .funcProto _ =>
        match ann with
        | .func id params => do
          functionL cfg id params (genTreeL cfg .stmts child)
          genTreeL cfg .stmts next
        | _ => LGen.ub
      | .namespaces => do                            -- flow.c:153-155: what the block returns is not looked at
        let _ ← genTreeL cfg .stmts child
        genTreeL cfg .stmts next
      | _ => do
        match ← simpleL cfg ann stmt with
        | some ty => pure (some ty)
        | none => genTreeL cfg .stmts next

/-- shared.c:19-66 `setup_llvm_state`: the main function with its first block. -/
def setupL (name : List Char) : LState :=
  { funcs := [⟨name, [], .prim .int, false, [[]]⟩]
    funcRef := fun i => if i = 0 then some 0 else none }

/-- core.c:17-23 `gen_module`. -/
def genModuleL (cfg : LCfg) (t : ATree) : LGen Unit := do
  match ← genTreeL cfg .stmts t with
  | none => emit (.ret (.int 0))
  | some _ => pure ()

/-- The module for a checked program. -/
def codegenL (cfg : LCfg) (name : List Char) (t : ATree) : Option LState :=
  (genModuleL cfg t (setupL name)).map (·.2)

end Skull
