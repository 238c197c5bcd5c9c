import Verif.Model.CodegenC
import Verif.Spec.Heap
/-
The C back end again, with a log of what it does to memory: skull/codegen/c/*.c, and codegen/backend.c.

A string on the heap is a block with a number, and its text.  `uvsnprintf` and `strdup` use the strings they are given and allocate a
new one.  Block 0 is the `SkullStateC`.  `none` is as in CodegenC.lean.  That this generates the same text is `C81_same`.

Left out: strings that belong to the syntax tree and to symbols, which the back end reads only, and the memory of files.
-/
namespace Skull.CHeap

open Skull.Spec

abbrev Event := MemEvent Nat

/-- A `char *` from the heap. -/
structure CStr where
  b : Nat
  text : List Char

/-- The state of the generator, the block of `globals` (when there is one), the number of the next block, and the log. -/
structure HC where
  s : CState := {}
  glob : Nat := 0
  next : Nat := 1
  evs : List Event := [.alloc 0]                     -- shared.c:10-14 `setup_c_state`

abbrev HGen (α : Type) : Type := HC → Option (α × HC)

def HGen.bind (m : HGen α) (f : α → HGen β) : HGen β := fun h =>
  match m h with
  | some (a, h) => f a h
  | none => none

instance : Monad HGen where
  pure a := fun h => some (a, h)
  bind := HGen.bind

/-- A step that allocates and frees nothing. -/
def lift (m : CGen α) : HGen α := fun h =>
  match m h.s with
  | some (a, s) => some (a, { h with s := s, evs := h.evs ++ [.use 0] })
  | none => none

/-- Look at the state. -/
def state : HGen HC := fun h => some (h, { h with evs := h.evs ++ [.use 0] })

def HGen.ub : HGen α := fun _ => none

def log (es : List Event) : HGen Unit := fun h => some ((), { h with evs := h.evs ++ es })

/-- `strdup` of something that is not on the heap. -/
def strdup (text : List Char) : HGen CStr := fun h =>
  some (⟨h.next, text⟩, { h with next := h.next + 1, evs := h.evs ++ [.alloc h.next] })

/-- common/str.c `uvsnprintf`, with these strings as arguments. -/
def format (args : List Nat) (text : List Char) : HGen CStr := do
  log (args.map .use)
  strdup text

def free (s : CStr) : HGen Unit := log [.free s.b]

/-- A pointer that may be null. -/
def freeOpt : Option CStr → HGen Unit
  | some s => free s
  | none => pure ()

def blocks (s : Option CStr) : List Nat := s.toList.map (·.b)

/- ### expr.c -/

mutual

/-- expr.c:21-56 `gen_expr_c`, 58-87 `gen_expr_const_c`, 89-145 `gen_expr_binary_c`, 147-163 `gen_expr_unary_c`, 165-200
`gen_expr_func_call_c`. -/
def exprH (cfg : CCfg) : AExpr → HGen CStr
  | .const _ v => strdup (genConstC cfg v)
  | .ident _ id _ _ => do
    let v ← lift (CGen.ofOption (cfg.var id))
    strdup v.name
  | .bin o l r ty _ => do
    let f ← lift (formatC o l.type ty)
    let lt ← exprH cfg l
    let rt ← exprH cfg r
    let out ← format [lt.b, rt.b] (f.1 ++ lt.text ++ f.2 ++ rt.text ++ ")".toList)
    free lt
    free rt
    pure out
  | .un o r _ _ => do
    let f ← lift (CGen.ofOption (prefixC o))
    let rt ← exprH cfg r
    let out ← format [rt.b] (f.1 ++ rt.text ++ f.2)
    free rt
    pure out
  | .call _ args id _ => do
    let f ← lift (CGen.ofOption (cfg.func id))
    match ← listH cfg f.2.numParams args with
    | none => strdup (f.1.name ++ "()".toList)       -- 173
    | some list => do
      let out ← format [list.b] (f.1.name ++ "(".toList ++ list.text ++ ")".toList)
      free list
      pure out

/-- expr.c:179-194, the loop over the parameters, and its first turn.  There is no `param_list` without parameters. -/
def listH (cfg : CCfg) : Nat → AArgs → HGen (Option CStr)
  | 0, _ => pure none
  | n + 1, .cons _ e next => do
    let t ← exprH cfg e
    let list ← argsH cfg n next t
    pure (some list)
  | _ + 1, _ => HGen.ub                              -- 180: no such parameter

/-- expr.c:179-194, the rest of the loop, with `param_list`. -/
def argsH (cfg : CCfg) : Nat → AArgs → CStr → HGen CStr
  | 0, _, list => pure list
  | n + 1, .cons _ e next, list => do
    let t ← exprH cfg e
    let new ← format [list.b, t.b] (list.text ++ ", ".toList ++ t.text)
    free list
    free t
    argsH cfg n next new
  | _ + 1, _, _ => HGen.ub

end

/- ### types.c and assign.c -/

/-- types.c:7-27 `skull_type_to_c_type`.  `realloc` uses the old block and frees it. -/
def typeH : Ty → HGen CStr
  | .ref inner => do
    let t ← typeH inner
    let new ← format [t.b] (t.text ++ ['*'])
    free t
    log [.use new.b]
    pure new
  | ty => strdup (typeC ty)

/-- `state->globals = uvsnprintf("%s\n...", old_globals ? old_globals : "", ...); free(old_globals)` -/
def appendGlobalH (args : List Nat) (text : List Char) : HGen Unit := do
  let h ← state
  let old := h.s.globals.map (⟨h.glob, ·⟩)
  let new ← format (blocks old ++ args) (h.s.globals.getD [] ++ '\n' :: text)
  fun h => some ((), { h with s := { h.s with globals := some new.text }, glob := new.b, evs := h.evs ++ [.use 0] })
  freeOpt old

/-- assign.c:55-65 `gen_stmt_var_assign_c_`. -/
def assignH (cfg : CCfg) (name : List Char) (e : AExpr) : HGen CStr := do
  let t ← exprH cfg e
  let stmt ← format [t.b] (name ++ " = ".toList ++ t.text ++ ";".toList)
  free t
  pure stmt

/-- assign.c:121-159 `gen_stmt_constexpt_global_var`. -/
def constGlobalH (cfg : CCfg) (v : Variable) (ty : CStr) (e : AExpr) : HGen Unit := do
  let t ← exprH cfg e
  if v.isExported then
    if v.isConst then
      appendGlobalH [ty.b, t.b] ("const ".toList ++ ty.text ++ ' ' :: v.name ++ asmName v.linkageName ++ " = ".toList ++ t.text ++ ";".toList)
      free t
    else HGen.ub
  else do
    appendGlobalH [ty.b, t.b] ((if v.isConst then "static const ".toList else "static ".toList) ++ ty.text ++ ' ' :: v.name ++
      " = ".toList ++ t.text ++ ";".toList)
    free t

/-- assign.c:67-103 `gen_stmt_global_var`. -/
def globalVarH (cfg : CCfg) (v : Variable) (ty : CStr) (e : AExpr) : HGen (Option CStr) := do
  if e.isConstExpr then
    constGlobalH cfg v ty e
    pure none
  else
    if v.isExported then appendGlobalH [ty.b] (ty.text ++ ' ' :: v.name ++ asmName v.linkageName ++ ";".toList)
    else appendGlobalH [ty.b] ("static ".toList ++ ty.text ++ ' ' :: v.name ++ ";".toList)
    let t ← assignH cfg v.name e
    pure (some t)

/-- assign.c:105-119 `gen_stmt_stack_var`. -/
def stackVarH (cfg : CCfg) (v : Variable) (ty : CStr) (e : AExpr) : HGen CStr := do
  let t ← exprH cfg e
  let stmt ← format [ty.b, t.b] ((if v.isConst then "const ".toList else []) ++ ty.text ++ ' ' :: v.name ++ " = ".toList ++ t.text ++ ";".toList)
  free t
  pure stmt

/-- assign.c:35-53 `gen_stmt_var_def_c`, when there is a symbol. -/
def varDefH (cfg : CCfg) (id : Nat) (e : AExpr) : HGen (Option CStr) := do
  let v ← lift (CGen.ofOption (cfg.var id))
  let ty ← typeH v.type
  let h ← state
  if h.s.indent = 1 then do
    let stmt ← globalVarH cfg v ty e
    free ty
    pure stmt
  else do
    let stmt ← stackVarH cfg v ty e
    free ty
    pure (some stmt)

/- ### func.c -/

/-- func.c:117-124 `gen_param_c`. -/
def paramH (cfg : CCfg) (id : Nat) : HGen CStr := do
  let v ← lift (CGen.ofOption (cfg.var id))
  let ty ← typeH v.type
  let out ← format [ty.b] (ty.text ++ ' ' :: v.name)
  free ty
  pure out

/-- func.c:45-60, the loop over the parameters, with `param_list`. -/
def paramsH (cfg : CCfg) : List Nat → Option CStr → HGen (Option CStr)
  | [], list => pure list
  | id :: ids, list => do
    let t ← paramH cfg id
    match list with
    | some list => do
      let new ← format [list.b, t.b] (list.text ++ ", ".toList ++ t.text)
      free t
      free list
      paramsH cfg ids (some new)
    | none => paramsH cfg ids (some t)

/-- debug.c:8-21 `apply_debug_info`. -/
def debugH (cfg : CCfg) (tok : List Token) (t : CStr) : HGen CStr :=
  match cfg.debug with
  | some file =>
    match tok with
    | tok :: _ => do
      let new ← format [t.b] ("#line ".toList ++ decText tok.line ++ " \"".toList ++ file ++ "\"\n".toList ++ t.text)
      free t
      pure new
    | [] => HGen.ub
  | none => pure t

/-- A `%s` whose argument must not be null. -/
def notNullH : Option CStr → HGen CStr
  | some t => pure t
  | none => HGen.ub

/-- The text of a string, or another one when there is none. -/
def textOr (other : List Char) : Option CStr → List Char
  | some s => s.text
  | none => other

/-- func.c:113: only a list from the heap may be freed. -/
def freeParamsH (f : Func) : Option CStr → HGen Unit
  | some list => if f.numParams ≠ 0 then free list else pure ()
  | none => if f.numParams ≠ 0 then HGen.ub else pure ()

/-- func.c:67-76: `fwd_decl`, which only exported functions have. -/
def forwardH (f : Func) (args : List Nat) (text : List Char) : HGen (Option CStr) :=
  if f.isExport then do
    let x ← format args text
    pure (some x)
  else pure none

/-- func.c:38-115 `gen_function_prototype_c`. -/
def prototypeH (cfg : CCfg) (id : Nat) (params : List Nat) (tok : List Token) (body : HGen (Option CStr)) : HGen CStr := do
  let (sym, f) ← lift (CGen.ofOption (cfg.func id))
  let list ← paramsH cfg (params.take f.numParams) none
  let ps := textOr "void".toList list
  let ret ← typeH f.returnType
  let head := ret.text ++ ' ' :: sym.name ++ '(' :: ps ++ [')']
  if f.isExternal then
    if f.isExport then do                            -- 79: `out` is `fwd_decl`
      let out ← format (ret.b :: blocks list) (head ++ asmName sym.linkageName ++ ";\n".toList)
      free ret
      freeParamsH f list
      pure out
    else do
      let out ← format (ret.b :: blocks list) (head ++ [';'])
      free ret
      freeParamsH f list
      pure out
  else do
    let fwd ← forwardH f (ret.b :: blocks list) (head ++ asmName sym.linkageName ++ ";\n".toList)
    let h ← state
    lift (CGen.modify fun s => { s with indent := 0 })
    let tree ← body
    lift (CGen.modify fun t => { t with indent := h.s.indent })
    let tree ← notNullH tree
    let out ← format (blocks fwd ++ ret.b :: blocks list ++ [tree.b])
      (textOr "static ".toList fwd ++ head ++ " {\n".toList ++ tree.text ++ "\n}".toList)
    let out ← debugH cfg tok out
    free tree
    free ret
    freeOpt fwd
    freeParamsH f list
    pure out

/-- func.c:25-36 `gen_function_def_c`. -/
def functionDefH (cfg : CCfg) (id : Nat) (params : List Nat) (tok : List Token) (body : HGen (Option CStr)) : HGen Unit := do
  let func ← prototypeH cfg id params tok body
  let h ← state
  match h.s.globals with
  | some g => do
    let new ← format [h.glob, func.b] (g ++ '\n' :: func.text)
    fun h => some ((), { h with s := { h.s with globals := some new.text }, glob := new.b, evs := h.evs ++ [.use 0] })
    log [.free h.glob]
    free func
  | none => fun h => some ((), { h with s := { h.s with globals := some func.text }, glob := func.b, evs := h.evs ++ [.use 0] })

/- ### flow.c -/

/-- flow.c:80-92 `gen_control_block_c`. -/
def controlH (cfg : CCfg) (word : List Char) (e : AExpr) (body : HGen (Option CStr)) : HGen CStr := do
  let t ← exprH cfg e
  let tree ← body
  let h ← state
  let tree ← notNullH tree
  let block ← format [t.b, tree.b] (word ++ t.text ++ ") {\n".toList ++ tree.text ++ '\n' :: indentation h.s ++ ['}'])
  free tree
  free t
  pure block

/-- flow.c:55-61 `gen_control_else_c` and 67-78 `gen_control_namespace_c`. -/
def plainBlockH (word : List Char) (body : HGen (Option CStr)) : HGen CStr := do
  let tree ← body
  let h ← state
  let tree ← notNullH tree
  let block ← format [tree.b] (word ++ "{\n".toList ++ tree.text ++ '\n' :: indentation h.s ++ ['}'])
  free tree
  pure block

/- ### core.c -/

/-- A statement that is always there. -/
def someH (m : HGen CStr) : HGen (Option CStr) := do
  let t ← m
  pure (some t)

/-- core.c:48-69, the switch of `gen_node_c`. -/
def stmtH (cfg : CCfg) (ann : Ann) (stmt : Stmt) (tok : List Token) (body : HGen (Option CStr)) : HGen (Option CStr) :=
  match stmt with
  | .varDef .. =>
    match ann with
    | .varDef id e => varDefH cfg id e
    | .none => pure none
    | _ => HGen.ub
  | .varAssign _ =>
    match ann with
    | .varAssign id e => do
      let v ← lift (CGen.ofOption (cfg.var id))
      someH (assignH cfg v.name e)
    | _ => HGen.ub
  | .ret _ =>                                        -- flow.c:14-22
    match ann with
    | .none => someH (strdup "return;".toList)
    | .expr e => do
      let t ← exprH cfg e
      let stmt ← format [t.b] ("return ".toList ++ t.text ++ ";".toList)
      free t
      pure (some stmt)
    | _ => HGen.ub
  | .noop => someH (strdup "(void)0;".toList)
  | .expr _ =>                                       -- func.c:17-23
    match ann with
    | .expr e => do
      let t ← exprH cfg e
      let stmt ← format [t.b] (t.text ++ ";".toList)
      free t
      pure (some stmt)
    | _ => HGen.ub
  | .ifs _ =>
    match ann with
    | .expr e => someH (controlH cfg "if (".toList e body)
    | _ => HGen.ub
  | .elifs _ =>
    match ann with
    | .expr e => someH (controlH cfg "else if (".toList e body)
    | _ => HGen.ub
  | .elses => someH (plainBlockH "else ".toList body)
  | .whiles _ =>
    match ann with
    | .expr e => someH (controlH cfg "while (".toList e body)
    | _ => HGen.ub
  | .unreachable => someH (strdup "while (1) {}".toList)
  | .funcProto _ =>
    match ann with
    | .func id params => do
      functionDefH cfg id params tok body
      pure none
    | _ => HGen.ub
  | .namespaces =>
    match ann with
    | .ns id => do
      let sym ← lift (CGen.ofOption cfg.syms[id]?)
      someH (plainBlockH ('"' :: sym.name ++ "\"; ".toList) body)
    | _ => HGen.ub
  | .breaks => someH (strdup "break;".toList)
  | .continues => someH (strdup "continue;".toList)
  | .unknown | .imports | .comment => pure none

/-- core.c:71-82: `apply_indentation` and `apply_debug_info`. -/
def indentH (cfg : CCfg) (tok : List Token) (t : Option CStr) : HGen (Option CStr) :=
  match t with
  | none => pure none
  | some t => do
    let h ← state
    let new ← format [t.b] (indentation h.s ++ t.text)
    free t
    let new ← debugH cfg tok new
    pure (some new)

/-- core.c:28-38. -/
def joinH (a b : Option CStr) : HGen (Option CStr) :=
  match a, b with
  | a, none => pure a
  | none, some b => pure (some b)
  | some a, some b => do
    let new ← format [a.b, b.b] (a.text ++ '\n' :: b.text)
    free a
    free b
    pure (some new)

/-- core.c:25-41, the loop of `gen_tree_c`. -/
def nodesH (cfg : CCfg) (acc : Option CStr) : ATree → HGen (Option CStr)
  | .nil => pure acc
  | .unchecked _ => HGen.ub
  | .node ann stmt tok child next => do
    let body : HGen (Option CStr) := do
      lift (CGen.modify fun s => { s with indent := s.indent + 1 })
      let t ← nodesH cfg none child
      lift (CGen.modify fun s => { s with indent := s.indent - 1 })
      pure t
    let t ← stmtH cfg ann stmt tok body
    let t ← indentH cfg tok t
    let acc ← joinH acc t
    nodesH cfg acc next

/-- core.c:16-18 `gen_module_c` and 20-46 `gen_tree_c`.  The result is `state->tree`. -/
def moduleH (cfg : CCfg) (t : ATree) : HGen (Option CStr) := do
  lift (CGen.modify fun s => { s with indent := s.indent + 1 })
  let t ← nodesH cfg none t
  lift (CGen.modify fun s => { s with indent := s.indent - 1 })
  pure t

/-- write.c:28-46 `write_file_c`: the name of the file, and of the main function, are allocated and freed. -/
def writeH (tree : Option CStr) : HGen Unit := do
  let name ← strdup []
  log [.use name.b]
  free name
  let h ← state
  log ((if h.s.globals.isSome then [h.glob] else []).map .use)
  let main ← strdup []
  log ([0, main.b] ++ blocks tree |>.map .use)
  free main

/-- shared.c:32-41 `free_c_state`. -/
def cleanupH (tree : Option CStr) : HGen Unit := do
  let h ← state
  log (if h.s.globals.isSome then [.free h.glob] else [])
  freeOpt tree
  log [.use 0, .free 0]

/-- backend.c:7-23 `run_backend`: the tree, the state, and what happened to the memory. -/
def backendH (cfg : CCfg) (t : ATree) : Option (Option (List Char) × CState × List Event) :=
  match moduleH cfg t {} with
  | some (tree, h) =>
    match (do writeH tree; cleanupH tree : HGen Unit) h with
    | some (_, h') => some (tree.map (·.text), h.s, h'.evs)
    | none => none
  | none => none

end Skull.CHeap
