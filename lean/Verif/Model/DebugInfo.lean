import Verif.Model.CodegenLLVM
/-
skull/codegen/llvm/debug.c and its uses in assign.c, flow.c, func.c and core.c: what `-g` says about where instructions come from.

The generator of `Model/CodegenLLVM` again, with `DEBUG_INFO.scope`, the locations that instructions get, and the descriptions of variables.
That it generates the same code is `C84_same`.  Left out: files, the compile unit, the types of variables, names, and that `getcwd` can fail.

Of every location the statement it was set for is kept; the C code does not have that.
-/
namespace Skull

/-- `DEBUG_INFO.scope`: the subprogram of a function (`LLVMSetSubprogram`), or a lexical block in another scope. -/
inductive DScope
  | func (f : Nat)
  | block (line col : Nat) (parent : DScope)
  deriving DecidableEq, Repr

/-- The function a scope is in. -/
def DScope.fn : DScope → Nat
  | .func f => f
  | .block _ _ p => p.fn

/-- An instruction: by its result, or by its function, block and place. -/
inductive DInstr
  | reg (r : Nat)
  | at (f b i : Nat)
  deriving DecidableEq, Repr

/-- token.h:72-75 `Location`. -/
structure DPos where
  line : Nat := 0
  col : Nat := 0
  deriving DecidableEq, Repr

def Token.pos (t : Token) : DPos := ⟨t.line, t.col⟩

/-- A location that an instruction gets, and the statement or condition it was set for. -/
structure DLoc where
  instr : DInstr
  pos : DPos
  scope : DScope
  ann : Ann
  tok : List Token

/-- A description of a variable in a function: the function, the scope, and the line. -/
structure DVar where
  fn : Nat
  scope : DScope
  line : Nat
  deriving DecidableEq, Repr

structure DState where
  l : LState
  scope : DScope := .func 0                          -- debug.c:96-113
  locs : List DLoc := []                             -- the last one first
  vars : List DVar := []
  globals : List (Nat × Nat) := []                   -- described globals, with their lines
  ann : Ann := .none
  tok : List Token := []

abbrev DGen (α : Type) : Type := DState → Option (α × DState)

def DGen.bind (m : DGen α) (f : α → DGen β) : DGen β := fun s =>
  match m s with
  | some (a, s) => f a s
  | none => none

instance : Monad DGen where
  pure a := fun s => some (a, s)
  bind := DGen.bind

def DGen.ub : DGen α := fun _ => none
def DGen.get : DGen DState := fun s => some (s, s)
def DGen.modify (f : DState → DState) : DGen Unit := fun s => some ((), f s)
/-- A step that has nothing to do with debug information. -/
def DGen.lift (m : LGen α) : DGen α := fun s => (m s.l).map fun r => (r.1, { s with l := r.2 })

/-- `symbol->location` -/
def symPos (cfg : LCfg) (id : Nat) : DPos :=
  match cfg.syms[id]? with
  | some sym => match sym.loc with | some t => t.pos | none => {}
  | none => {}

/-- debug.c:206-209 and 213-224 `make_llvm_debug_location`: `LLVMInstructionSetDebugLoc`. -/
def setLoc (i : DInstr) (p : DPos) : DGen Unit :=
  DGen.modify fun s => { s with locs := ⟨i, p, s.scope, s.ann, s.tok⟩ :: s.locs }

/-- debug.c:200-211 `add_llvm_debug_info` of a value.  A value that is neither a constant nor an instruction is cast to one. -/
def locVal (cfg : LCfg) (v : LVal) (p : DPos) : DGen Unit :=
  if cfg.debug && !v.isConstant then
    match v with
    | .reg r => setLoc (.reg r) p
    | _ => DGen.ub
  else pure ()

/-- debug.c:200-211 `add_llvm_debug_info` of the instruction that was appended last. -/
def locLast (cfg : LCfg) (p : DPos) : DGen Unit := do
  if cfg.debug then
    let s ← DGen.get
    match (s.l.funcs[s.l.curFn]?).bind fun f => f.blocks[s.l.curBlock]? with
    | some code => setLoc (.at s.l.curFn s.l.curBlock (code.length - 1)) p
    | none => DGen.ub
  else pure ()

/-- The statement or condition that comes now; not in the C code. -/
def forStmt (ann : Ann) (tok : List Token) : DGen Unit := DGen.modify fun s => { s with ann := ann, tok := tok }

/-- `&node->token->location` -/
def nodePos : List Token → DGen DPos
  | t :: _ => pure t.pos
  | [] => DGen.ub

mutual

/-- expr.c:52-79 `gen_expr`, with `gen_expr_func_call` (func.c:101-136). -/
def exprD (cfg : LCfg) : AExpr → DGen LExpr
  | .ident _ id _ _ => DGen.lift (identL cfg id)
  | .const _ v => pure ⟨some v.type, genConstL v⟩
  | .call t args id _ => do
    let f ← DGen.lift (LGen.ofOption (cfg.func id))
    let as ← argsD cfg f.2.numParams args
    let x ← DGen.lift (callL cfg id as)
    locVal cfg x.val t.pos                           -- func.c:131
    pure x
  | .un o r _ _ =>
    if o = .ref ∨ o = .deref then DGen.lift (addrL cfg o r)
    else do
      let e ← exprD cfg r
      DGen.lift (unL cfg o e)
  | .bin o l r _ _ => do
    let a ← exprD cfg l
    let b ← exprD cfg r
    DGen.lift (binL cfg o b.ty a.val b.val)

/-- func.c:113-116 -/
def argsD (cfg : LCfg) : Nat → AArgs → DGen (List LVal)
  | 0, _ => pure []
  | n + 1, .cons _ e next => do
    let a ← exprD cfg e
    let as ← argsD cfg n next
    pure (a.val :: as)
  | _ + 1, _ => DGen.ub

end

/-- ast_node.c:1163-1177 `find_expr_node_token`. -/
def exprTok : AExpr → Token
  | .ident t _ _ _ => t
  | .const t _ => t
  | .call t _ _ _ => t
  | .un _ r _ _ => exprTok r
  | .bin _ l _ _ _ => exprTok l

/-- flow.c:114-122, 200-213 and 228-240: a condition and the jump behind it. -/
def branchD (cfg : LCfg) (e : AExpr) (t f : Nat) : DGen Unit := do
  forStmt (.expr e) []
  let c ← exprD cfg e
  locVal cfg c.val (exprTok e).pos
  DGen.lift (emit (.condBr c.val t f))

/-- assign.c:99-119 `assign_value_to_var`. -/
def assignD (cfg : LCfg) (id : Nat) (v : LVal) : DGen Unit := do
  let var ← DGen.lift (LGen.ofOption (cfg.var id))
  let s ← DGen.lift LGen.get
  if s.isConst id var && (!s.isGlobal id || v.isConstant) then
    DGen.lift (LGen.modify fun s => { s with refs := fun i => if i = id then some v else s.refs i })
  else do
    let p ← DGen.lift (LGen.ofOption (s.refs id))
    DGen.lift (emit (.store v p))
    locLast cfg (symPos cfg id)                      -- assign.c:117

/-- assign.c:64-84, 93: a variable outside of functions. -/
def globalVarD (cfg : LCfg) (id : Nat) (var : Variable) (v : LVal) : DGen Unit := do
  DGen.lift (LGen.modify fun s => { s with
    isGlobal := fun i => if i = id then true else s.isGlobal i
    refs := fun i => if i = id then some (.global s.globals.length) else s.refs i
    globals := s.globals ++ [⟨var.linkageName, var.type, !var.isExported, if v.isConstant then v else .null var.type⟩] })
  if v.isConstant then pure () else assignD cfg id v

/-- assign.c:85-93: a variable in a function. -/
def localVarD (cfg : LCfg) (id : Nat) (var : Variable) (v : LVal) : DGen Unit := do
  DGen.lift (LGen.modify fun s => { s with isGlobal := fun i => if i = id then false else s.isGlobal i })
  let s ← DGen.lift LGen.get
  if s.isConst id var then assignD cfg id v
  else do
    let r ← DGen.lift newReg
    DGen.lift (emit (.alloca r var.type))
    DGen.lift (LGen.modify fun s => { s with refs := fun i => if i = id then some (.reg r) else s.refs i })
    assignD cfg id v

/-- debug.c:239-247 `add_llvm_var_def_debug_info`, 249-266 for globals and 268-293 for other variables.  The description of a global is put
at `var->ref`, which is cast to a global. -/
def describe (cfg : LCfg) (id : Nat) : DGen Unit := do
  if cfg.debug then
    let s ← DGen.get
    if s.l.isGlobal id then
      match s.l.refs id with
      | some (.global g) => DGen.modify fun s => { s with globals := s.globals ++ [(g, (symPos cfg id).line)] }
      | _ => DGen.ub
    else DGen.modify fun s => { s with vars := s.vars ++ [⟨s.l.curFn, s.scope, (symPos cfg id).line⟩] }
  else pure ()

/-- assign.c:52-94 `setup_var_llvm` and 37. -/
def setupVarD (cfg : LCfg) (id : Nat) (v : LVal) : DGen Unit := do
  let var ← DGen.lift (LGen.ofOption (cfg.var id))
  let s ← DGen.lift LGen.get
  if s.currentFunc = 0 then globalVarD cfg id var v else localVarD cfg id var v
  describe cfg id

/-- debug.c:353-384: the descriptions of the parameters. -/
def describeParams (cfg : LCfg) (ref id n : Nat) : DGen Unit :=
  if cfg.debug then DGen.modify fun s => { s with vars := s.vars ++ List.replicate n ⟨ref, .func ref, (symPos cfg id).line⟩ }
  else pure ()

/-- func.c:36-48 `gen_stmt_func_decl`, 141-186 `gen_function_def` and debug.c:308-387 `add_llvm_func_debug_info`. -/
def functionD (cfg : LCfg) (id : Nat) (params : List Nat) (body : DGen (Option (Option Ty))) : DGen Unit := do
  let (sym, f) ← DGen.lift (LGen.ofOption (cfg.func id))
  let ref ← DGen.lift (addFuncL sym f id)
  if f.isExternal then pure ()
  else do
    DGen.lift (setParams (params.take f.numParams))
    let old ← DGen.get
    let entry ← DGen.lift (appendBlock ref)
    DGen.lift (positionAt ref entry)
    DGen.lift (LGen.modify fun s => { s with currentFunc := id })
    DGen.modify fun s => { s with scope := .func ref }
    describeParams cfg ref id (params.take f.numParams).length
    DGen.lift (debugParams cfg (params.take f.numParams))
    let returned ← body
    DGen.lift (LGen.modify fun s => { s with currentFunc := old.l.currentFunc })
    DGen.modify fun s => { s with scope := old.scope }
    if f.returnType = .prim .void ∧ returned ≠ some (some (.prim .void)) then DGen.lift (emit .retVoid) else pure ()
    DGen.lift (positionAt old.l.curFn old.l.curBlock)

/-- debug.c:295-306 `add_llvm_control_flow_debug_info` and flow.c:271-277: a block in a scope of its own. -/
def scopedD (cfg : LCfg) (tok : List Token) (body : DGen (Option (Option Ty))) : DGen (Option (Option Ty)) :=
  if cfg.debug then do
    let p ← nodePos tok
    let old ← DGen.get
    DGen.modify fun s => { s with scope := .block p.line p.col old.scope }
    let r ← body
    DGen.modify fun s => { s with scope := old.scope }
    pure r
  else body

/-- flow.c:264-286 `gen_control_code_block`, when the block to go on with is not null. -/
def codeBlockD (cfg : LCfg) (tok : List Token) (body : DGen (Option (Option Ty))) (target : Nat) : DGen Unit := do
  match ← scopedD cfg tok body with
  | none => DGen.lift (emit (.br (some target)))
  | some _ => pure ()

/-- flow.c:91-132 `gen_control_while`. -/
def whileD (cfg : LCfg) (e : AExpr) (tok : List Token) (body : DGen (Option (Option Ty))) : DGen Unit := do
  let f ← DGen.lift currentRef
  let cond ← DGen.lift (appendBlock f)
  let loop ← DGen.lift (appendBlock f)
  let fin ← DGen.lift (appendBlock f)
  DGen.lift (LGen.modify fun s => { s with whileCond := some cond, whileEnd := some fin })
  DGen.lift (emit (.br (some cond)))
  DGen.lift (positionAt f cond)
  branchD cfg e loop fin
  DGen.lift (positionAt f loop)
  codeBlockD cfg tok body cond
  DGen.lift (positionAt f fin)
  DGen.lift (LGen.modify fun s => { s with whileCond := none, whileEnd := none })

/-- An instruction with the location of the node. -/
def emitAt (cfg : LCfg) (i : LInstr) (tok : List Token) : DGen Unit := do
  DGen.lift (emit i)
  if cfg.debug then
    let p ← nodePos tok
    locLast cfg p
  else pure ()

/-- flow.c:51-65 `gen_stmt_noop`. -/
def noopD (cfg : LCfg) (tok : List Token) : DGen Unit := do
  DGen.lift (noopL cfg)
  if cfg.debug then
    let p ← nodePos tok
    locLast cfg p
  else pure ()

/-- core.c:39-64, the cases of `gen_node` other than `if`, `while` and blocks. -/
def simpleD (cfg : LCfg) (ann : Ann) (stmt : Stmt) (tok : List Token) : DGen (Option (Option Ty)) :=
  match stmt with
  | .varDef .. =>
    match ann with
    | .varDef id e => do                             -- assign.c:30-38
      let v ← exprD cfg e
      setupVarD cfg id v.val
      pure none
    | .none => pure none
    | _ => DGen.ub
  | .varAssign _ =>
    match ann with
    | .varAssign id e => do                          -- assign.c:43-50
      let v ← exprD cfg e
      assignD cfg id v.val
      pure none
    | _ => DGen.ub
  | .ret _ =>
    match ann with
    | .none => do                                    -- flow.c:71-77
      emitAt cfg .retVoid tok
      pure (some (some (.prim .void)))
    | .expr e => do                                  -- flow.c:79-85
      let v ← exprD cfg e
      emitAt cfg (.ret v.val) tok
      pure (some v.ty)
    | _ => DGen.ub
  | .expr _ =>
    match ann with
    | .expr (.call t args id ty) => do
      let _ ← exprD cfg (.call t args id ty)
      pure none
    | _ => DGen.ub
  | .noop => do
    noopD cfg tok
    pure none
  | _ => DGen.lift (simpleL cfg ann stmt)            -- no debug information

/-- flow.c:226-243: the condition behind a block that is the last one of its chain. -/
def closeIfD (cfg : LCfg) : LMode → DGen Unit
  | .stmts => pure ()
  | .afterIf e f entry ifTrue fin => do
    DGen.lift (positionAt f entry)
    branchD cfg e ifTrue fin
    DGen.lift (positionAt f fin)

/-- flow.c:185-213: the condition behind a block that another one follows; gives the block for that one. -/
def nextIfD (cfg : LCfg) (e : AExpr) (f entry ifTrue : Nat) : DGen Nat := do
  DGen.lift (positionAt f entry)
  let ifFalse ← DGen.lift (appendBlock f)
  branchD cfg e ifTrue ifFalse
  pure ifFalse

/-- core.c:28-37 `gen_tree`, 39-64 `gen_node`, and flow.c:137-148 `gen_control_if`, 153-155 `gen_control_namespace` and 160-244
`gen_control_if_`. -/
def genTreeD (cfg : LCfg) : LMode → ATree → DGen (Option (Option Ty))
  | mode, .nil => do
    closeIfD cfg mode
    pure none
  | _, .unchecked _ => DGen.ub
  | mode, .node ann stmt tok child next =>
    match mode, stmt with
    | .afterIf e f entry ifTrue fin, .comment => genTreeD cfg (.afterIf e f entry ifTrue fin) next
    | .afterIf e f entry ifTrue fin, .elifs _ =>
      match ann with
      | .expr e' => do
        let ifFalse ← nextIfD cfg e f entry ifTrue
        let ifTrue' ← DGen.lift (appendBlock f)
        DGen.lift (positionAt f ifTrue')
        codeBlockD cfg tok (genTreeD cfg .stmts child) fin
        genTreeD cfg (.afterIf e' f ifFalse ifTrue' fin) next
      | _ => DGen.ub
    | .afterIf e f entry ifTrue fin, .elses => do
      let ifFalse ← nextIfD cfg e f entry ifTrue
      DGen.lift (positionAt f ifFalse)
      codeBlockD cfg tok (genTreeD cfg .stmts child) fin
      DGen.lift (positionAt f fin)
      genTreeD cfg .stmts next
    | mode, stmt => do
      closeIfD cfg mode
      match stmt with
      | .ifs _ =>
        match ann with
        | .expr e => do
          let f ← DGen.lift currentRef
          let s ← DGen.lift LGen.get
          let fin ← DGen.lift (appendBlock f)
          let ifTrue ← DGen.lift (appendBlock f)
          DGen.lift (positionAt f ifTrue)
          codeBlockD cfg tok (genTreeD cfg .stmts child) fin
          genTreeD cfg (.afterIf e f s.curBlock ifTrue fin) next
        | _ => DGen.ub
      | .whiles _ =>
        match ann with
        | .expr e => do
          whileD cfg e tok (genTreeD cfg .stmts child)
          genTreeD cfg .stmts next
        | _ => DGen.ub
      | .funcProto _ =>
        match ann with
        | .func id params => do
          functionD cfg id params (genTreeD cfg .stmts child)
          genTreeD cfg .stmts next
        | _ => DGen.ub
      | .namespaces => do
        let _ ← scopedD cfg tok (genTreeD cfg .stmts child)
        genTreeD cfg .stmts next
      | _ => do
        forStmt ann tok
        match ← simpleD cfg ann stmt tok with
        | some ty => pure (some ty)
        | none => genTreeD cfg .stmts next

/-- The tokens of the first node. -/
def ATree.firstTok : ATree → List Token
  | .node _ _ tok _ _ => tok
  | _ => []

/-- core.c:17-23 `gen_module` and flow.c:42-49 `gen_stmt_implicit_main_return`. -/
def genModuleD (cfg : LCfg) (t : ATree) : DGen Unit := do
  match ← genTreeD cfg .stmts t with
  | none => do
    forStmt .none t.firstTok
    emitAt cfg (.ret (.int 0)) t.firstTok
  | some _ => pure ()

/-- The module for a checked program, with its debug information. -/
def codegenD (cfg : LCfg) (name : List Char) (t : ATree) : Option DState :=
  (genModuleD cfg t { l := setupL name }).map (·.2)

end Skull
