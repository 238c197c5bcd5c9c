import Verif.Model.Semantic
import Verif.Spec.Heap
/-
The memory the semantic check allocates, and the functions that free it: skull/semantic/scope.c:179-214, variable.c:41-48,
func.c:225-236, shared.c:36-56, and the places in func.c, assign.c, types.c, flow.c and errors.c where a symbol that could not be
added is taken back.

The check of `Model.Semantic` again, now with a log of what happens to the memory.  A step that touches no memory of its own is taken
from there (`lift`).  The log has the allocations, everything that is freed, and the uses of memory in the functions that free
something.  It has no other uses: the theorems show that nothing is freed before the check fails.

On failure the check restores the scope it had entered (entry.c:52, func.c:158, 189), which `Model.Semantic` leaves out.

A hash table with its vectors and items is one block.  Left out are: strings of tokens that are freed in the function that made
them, the syntax tree and the tokens, and the types of references (types.c:188-218, freed by shared.c:52).
-/
namespace Skull.Heap

open Skull.Spec (MemEvent)

/-- A block of memory.  Symbols and scopes have the numbers of `Model.Scope`. -/
inductive Block
  | state                      -- `SemanticState`
  | sym (id : Nat)             -- `Symbol`
  | name (id : Nat)            -- `name` of a symbol and of its variable
  | link (id : Nat)            -- `linkage_name` of an exported variable or function
  | data (id : Nat)            -- `Variable` or `FunctionDeclaration` of a symbol
  | types (id : Nat)           -- `param_types` of a function
  | scope (i : Nat)            -- `Scope`
  | table (i : Nat)            -- `symbols` of a scope
  deriving DecidableEq, Repr

abbrev Event := MemEvent Block

/-- The state with the log, and with the parameters in the syntax tree that have a symbol (`AstNodeFunctionParam.symbol`). -/
structure HS where
  s : SS
  evs : List Event := []
  bound : List Nat := []

inductive HRes (α : Type)
  | ok (a : α) (h : HS)
  | fail (h : HS)
  | ub

abbrev HChk (α : Type) : Type := HS → HRes α

def HChk.bind (m : HChk α) (f : α → HChk β) : HChk β := fun h =>
  match m h with
  | .ok a h => f a h
  | .fail h => .fail h
  | .ub => .ub

instance : Monad HChk where
  pure a := fun h => .ok a h
  bind := HChk.bind

/-- A step that allocates and frees nothing. -/
def lift (m : Chk α) : HChk α := fun h =>
  match m h.s with
  | .ok a s => .ok a { h with s := s }
  | .fail s => .fail { h with s := s }
  | .ub => .ub

/-- Events. -/
def emit (es : List Event) : HChk Unit := fun h => .ok () { h with evs := h.evs ++ es }

/-- `return false`. -/
def stop : HChk α := fun h => .fail h

/-- A new symbol; `es` are the allocations for it. -/
def newSymH (sym : Symbol) (es : Nat → List Event) : HChk Nat := do
  let id ← lift (newSym sym)
  emit (es id)
  pure id

/-- symbol.c:20-39 with errors.c:169-172: a message frees the name, which it was given as `real`.  There is no message about a
namespace that is there already. -/
def reportExistingH (type : SymType) (sym : Symbol) (id : Nat) : HChk Unit := do
  lift (reportExisting type sym)
  if type ≠ sym.kind.symType ∨ type = .var ∨ type = .alias ∨ type = .func then
    emit [.use (.sym id), .use (.name id), .free (.name id)]
  else pure ()

/-- symbol.c:16-42 `symbol_already_exists`. -/
def symbolAlreadyExistsH (sym : Symbol) (id : Nat) : HChk Bool := do
  let type ← lift (findSymbolType sym.name)
  if type = .unknown then pure false
  else do
    reportExistingH type sym id
    pure true

/-- symbol.c:64 -/
def currentScopeH : HChk Nat := do
  let s ← lift Chk.get
  let i ← lift currentScope
  if s.scope.isNone then emit [.alloc (.scope i)] else pure ()
  pure i

/-- Whether a scope has a table. -/
def hasTable (s : SS) (i : Nat) : Bool := (s.scopes[i]?.bind Scope.symbols).isSome

/-- symbol.c:65-68 -/
def addToScopeH (i : Nat) (name : List Char) (id : Nat) : HChk Bool := do
  let s ← lift Chk.get
  if hasTable s i then pure () else emit [.alloc (.table i)]
  lift (addToScope i name id)

/-- symbol.c:59-69 `scope_add_symbol`. -/
def scopeAddSymbolH (id : Nat) : HChk Bool := do
  let sym ← lift (symAt id)
  if ← symbolAlreadyExistsH sym id then pure false
  else do
    let i ← currentScopeH
    addToScopeH i sym.name id

/-- scope.c:23-32 `scope_add_var`. -/
def scopeAddVarH (id : Nat) : HChk Bool := do
  let sym ← lift (symAt id)
  match ← lift (lookup sym.name) with
  | some _ => pure false
  | none => scopeAddSymbolH id

/-- `if (!scope_add_symbol(state, symbol)) { ..; return false; }`; `es` is what is freed. -/
def mustAddH (id : Nat) (es : List Event) : HChk Unit := do
  if ← scopeAddSymbolH id then pure () else do
    emit es
    stop

/-- scope.c:112-113 -/
def parentScopeH : HChk Nat := do
  let s ← lift Chk.get
  let i ← lift parentScope
  if s.scope.isNone then emit [.alloc (.scope i)] else pure ()
  pure i

/-- Whether a scope has a child. -/
def hasChild (s : SS) (i : Nat) : Bool := (s.scopes[i]?.bind Scope.child).isSome

/-- scope.c:115-119 -/
def enterChildH (i : Nat) : HChk Unit := do
  let s ← lift Chk.get
  if hasChild s i then pure () else emit [.alloc (.scope s.scopes.length)]
  lift (enterChild i)

/-- scope.c:109-120 `make_child_scope`. -/
def makeChildScopeH : HChk Unit := do
  let i ← parentScopeH
  enterChildH i

/-- scope.c:128-136 `make_adjacent_scope`. -/
def makeAdjacentScopeH : HChk Unit := do
  let s ← lift Chk.get
  emit [.alloc (.scope s.scopes.length)]
  lift makeAdjacentScope

/-- `m` between `make_child_scope` and `restore_parent_scope`, which runs after a failure, too. -/
def restoring (m : HChk α) : HChk α := fun h =>
  match m h with
  | .ok a h => (do lift restoreParentScope; pure a : HChk α) h
  | .fail h => (do lift restoreParentScope; stop : HChk α) h
  | .ub => .ub

/-- func.c:190: the parameter in the syntax tree gets its symbol. -/
def bindParam (id : Nat) : HChk Unit := fun h => .ok () { h with bound := h.bound ++ [id] }

/-- func.c:148-194.  When the parameter cannot be added: message_stringify (errors.c:236-237) reads the name, and `free_variable` and
`free` free the variable, its name, and the symbol. -/
def validateParamsH (isExternal : Bool) : List Param → HChk (List (Ty × Nat))
  | [] => pure []
  | p :: ps => do
    match ← lift (tokenToType p.type) with
    | none => lift (Chk.error .errTypeNotFound p.type.head?)
    | some ty => do
      let str ← lift (tokName p.name)
      let var ← lift (makeVariable ty str true)
      let id ← newSymH { name := str, exprType := some ty, loc := some p.name,
                         kind := .var { var with isDefined := true, wasReassigned := isExternal, wasRead := isExternal } }
        fun id => [.alloc (.data id), .alloc (.name id), .alloc (.sym id)]
      if ← scopeAddVarH id then do
        bindParam id
        let rest ← validateParamsH isExternal ps
        pure ((ty, id) :: rest)
      else do
        emit [.use (.sym id), .use (.data id), .use (.name id), .free (.name id), .free (.data id), .free (.sym id)]
        lift (Chk.error .errShadowVar p.name)

/-- func.c:135-198 `validate_func_params`. -/
def validateFuncParamsH (p : FuncProto) (id : Nat) : HChk (List Nat) := do
  if p.numParams = 0 then pure []
  else do
    emit [.alloc (.types id)]
    makeChildScopeH
    restoring do
      let ps ← validateParamsH p.isExternal (p.params.take p.numParams)
      lift (updFunc id fun f => { f with paramTypes := ps.map Prod.fst })
      pure (ps.map Prod.snd)

/-- The block of a linkage name of its own. -/
def linkAlloc (own : Bool) (id : Nat) : List Event := if own then [.alloc (.link id)] else []

/-- func.c:42-94 `validate_stmt_func_decl_`. -/
def validateFuncDeclH (cfg : Cfg) (p : FuncProto) : HChk (Nat × List Nat) := do
  lift (notNested p)
  let ret ← lift (validateReturnType p.returnType)
  let str ← lift (tokName p.name)
  let link ← lift (linkageName cfg p.isExport str)
  let id ← newSymH { name := str, linkageName := link, exprType := some ret, loc := some p.name,
                     kind := .func { numParams := p.numParams, paramTypes := [], returnType := ret, isExternal := p.isExternal,
                                     isExport := p.isExport } }
    fun id => [.alloc (.data id), .alloc (.sym id), .alloc (.name id)] ++ linkAlloc p.isExport id
  lift (enterFunc id)
  mustAddH id [.free (.data id), .free (.sym id)]
  let params ← validateFuncParamsH p id
  pure (id, params)

/-- types.c:264-297 `validate_stmt_type_alias`. -/
def validateTypeAliasH (isConst : Bool) (expr : Expr) (tok : List Token) : HChk Unit := do
  if !isConst then do
    let t ← lift (headTok tok.tail)
    lift (Chk.error .errNoMutTypeAlias t)
  else if !validateTypeAlias.isTypeExpr expr then do
    let t ← lift (headTok tok.tail.tail)
    lift (Chk.error .errNoTypeExpr t)
  else do
    let type ← lift (tokenToType tok.tail.tail)
    let first ← lift (headTok tok)
    let alias ← lift (tokName first)
    let id ← newSymH { name := alias, loc := some first, exprType := type, kind := .alias }
      fun id => [.alloc (.name id), .alloc (.sym id)]
    mustAddH id [.free (.sym id)]

/-- assign.c:82-132 `node_to_var`.  When the variable cannot be added its name is not freed (line 126; the message did it). -/
def nodeToVarH (cfg : Cfg) (name : List Token) (isConst isImplicit isExported : Bool) (e : AExpr) : HChk Nat := do
  lift (notVoidFuncAssign e)
  let type ← lift (declaredType isImplicit e name)
  let t ← lift (headTok name)
  let str ← lift (tokName t)
  let var ← lift (makeVariable type str isConst)
  let link ← lift (linkageName cfg isExported str)
  let id ← newSymH { name := str, exprType := some type, loc := some t,
                     kind := .var { var with implicitlyTyped := isImplicit, isExported := isExported, linkageName := link } }
    fun id => [.alloc (.data id), .alloc (.name id), .alloc (.sym id)] ++ linkAlloc isExported id
  mustAddH id [.use (.data id), .free (.data id), .free (.sym id)]
  pure id

/-- assign.c:29-50 -/
def validateVarH (cfg : Cfg) (name : List Token) (isConst isImplicit isExported : Bool) (expr : Expr) : HChk Ann := do
  let e ← lift (validateExpr cfg expr)
  let id ← nodeToVarH cfg name isConst isImplicit isExported e
  lift (updVar id fun v => { v with isDefined := true, constExpr := some e.isConstExpr })
  let v ← lift (varAt id)
  lift (compatible e v.type)
  lift (warnTrivial cfg e v.implicitlyTyped)
  pure (.varDef id e)

/-- assign.c:24-51 `validate_stmt_var_def`. -/
def validateVarDefH (cfg : Cfg) (name : List Token) (isConst isImplicit isExported : Bool) (expr : Expr)
    (tok tokEnd : List Token) : HChk Ann := do
  match ← lift (tokenToType tokEnd.tail) with
  | some _ => do
    validateTypeAliasH isConst expr tok
    pure .none
  | none => validateVarH cfg name isConst isImplicit isExported expr

/-- flow.c:158-170 -/
def declareNamespaceH (tok : List Token) : HChk Nat := do
  let t ← lift (headTok tok.tail)
  let name ← lift (tokName t)
  let id ← newSymH { name := name, loc := some t, kind := .ns none } fun id => [.alloc (.sym id), .alloc (.name id)]
  mustAddH id [.free (.sym id)]
  pure id

/-- entry.c:46-58 `setup_and_validate_ast_sub_tree`. -/
def blockH (nodes : HChk ATree) : HChk ATree := do
  makeChildScopeH
  let r ← restoring do
    let r ← nodes
    lift resetScopeHead
    pure r
  makeAdjacentScopeH
  pure r

/-- entry.c:66-83, `validate_ast_node`. -/
def validateStmtH (cfg : Cfg) (before : List Stmt) (stmt : Stmt) (tok tokEnd : List Token) (child next : Tree)
    (nodes : HChk ATree) : HChk (Ann × ATree) :=
  match stmt with
  | .funcProto p => do
    let s ← lift Chk.get
    lift (setDepth 0)
    let r ← validateFuncDeclH cfg p
    let body ← blockH nodes
    lift (postValidateFunc child)
    lift (setDepth s.whileDepth)
    pure (.func r.1 r.2, body)
  | .varDef name isConst isImplicit isExported e => do
    let a ← validateVarDefH cfg name isConst isImplicit isExported e tok tokEnd
    pure (a, .nil)
  | .ifs c => do
    lift (needBlock child tok)
    let e ← lift (condition cfg c)
    let body ← blockH nodes
    pure (.expr e, body)
  | .elses => do
    lift (needIf before tok)
    lift (needBlock child tok)
    let body ← blockH nodes
    pure (.none, body)
  | .elifs c => do
    lift (needBlock child tok)
    lift (needIf before tok)
    let e ← lift (condition cfg c)
    let body ← blockH nodes
    pure (.expr e, body)
  | .whiles c => do
    let s ← lift Chk.get
    lift (setDepth (s.whileDepth + 1))
    lift (needBlock child tok)
    let e ← lift (condition cfg c)
    let body ← blockH nodes
    let s ← lift Chk.get
    lift (setDepth (s.whileDepth + (2 ^ 32 - 1)))
    pure (.expr e, body)
  | .namespaces => do
    let id ← declareNamespaceH tok
    let body ← blockH nodes
    lift (closeNamespace id)
    pure (.ns id, body)
  | stmt => lift (validateStmt cfg before stmt tok tokEnd child next Chk.ub)    -- the others make nothing and check no block

/-- entry.c:35-40, the loop of `validate_ast_sub_tree`, and entry.c:64. -/
def validateNodesH (cfg : Cfg) (before : List Stmt) : Tree → HChk ATree
  | .nil => pure .nil
  | .node stmt tok tokEnd child next => do
    lift (assertSaneChild (.node stmt tok tokEnd child next))
    let r ← validateStmtH cfg before stmt tok tokEnd child next (validateNodesH cfg [] child)
    let rest ← validateNodesH cfg (stmt :: before) next
    pure (.node r.1 stmt tok r.2 rest)

/-- entry.c:26-27: after the statements, whether they are right or not, the scope is the first one again. -/
def topNodes (cfg : Cfg) (t : Tree) : HChk ATree := fun h =>
  match validateNodesH cfg [] t h with
  | .ok a h => (do lift resetScopeHead; lift resetScopeHead; pure a : HChk ATree) h
  | .fail h => (do lift resetScopeHead; stop : HChk ATree) h
  | .ub => .ub

/-- entry.c:25-30 `validate_ast_tree`. -/
def validateAstTreeH (cfg : Cfg) (t : Tree) : HChk ATree := do
  let a ← topNodes cfg t
  if cfg.quiet then pure a
  else do
    let err ← lift (checkUnused cfg false a)
    if err then stop else pure a

/-- shared.c:14-34 `setup_semantic_state`. -/
def setupStateH (cfg : Cfg) : Option HS :=
  (setupState cfg).map fun s =>
    { s := s, evs := [.alloc (.data 0), .alloc (.name 0), .alloc (.sym 0), .alloc .state] }

/- ### Freeing -/

/-- variable.c:41-48 `free_variable`; `own` is whether `linkage_name` is not `name`. -/
def freeVariable (own : Bool) (id : Nat) : List Event :=
  [.use (.data id), .free (.name id)] ++ (if own then [.free (.link id)] else []) ++ [.free (.data id)]

/-- func.c:225-236 `free_function_declaration`. -/
def freeFunctionDeclaration (f : Func) (id : Nat) : List Event :=
  [.use (.sym id), .use (.data id), .free (.name id)] ++ (if f.isExport then [.free (.link id)] else []) ++
    (if f.numParams ≠ 0 then [.free (.types id)] else []) ++ [.free (.data id), .free (.sym id)]

/-- scope.c:183-197 `free_symbol`. -/
def freeSymbol (id : Nat) (sym : Symbol) : List Event :=
  match sym.kind with
  | .var v => [.use (.sym id)] ++ freeVariable v.isExported id ++ [.free (.sym id)]
  | .func f => freeFunctionDeclaration f id
  | .alias => [.use (.sym id), .free (.name id), .free (.sym id)]
  | .ns _ => [.use (.sym id), .free (.name id), .free (.sym id)]

/-- vector.c:81-87: the elements that are looked at; `none` is a cell nothing was stored in. -/
def vectorItems (v : CVector α) : Nat → Nat → Option (List α)
  | _, 0 => some []
  | i, n + 1 =>
    match vectorAt v i with
    | some (some a) => (vectorItems v (i + 1) n).map (a :: ·)
    | _ => none

/-- hashtable.c:94-98: the symbols in the slots. -/
def slotItems : List (Option (CVector (HashItem Nat))) → Option (List Nat)
  | [] => some []
  | none :: slots => slotItems slots
  | some v :: slots =>
    match vectorItems v 0 v.length, slotItems slots with
    | some xs, some ys => some (xs.map HashItem.data ++ ys)
    | _, _ => none

/-- scope.c:179-181 `free_ht_symbol` on symbols. -/
def freeSymbols (syms : List Symbol) : List Nat → Option (List Event)
  | [] => some []
  | id :: ids =>
    match syms[id]?, freeSymbols syms ids with
    | some sym, some es => some (freeSymbol id sym ++ es)
    | _, _ => none

/-- hashtable.c:91-101 `free_ht` with `free_ht_symbol`. -/
def freeTable (syms : List Symbol) (i : Nat) : Option (HashTable Nat) → Option (List Event)
  | none => some []
  | some ht =>
    match (slotItems ht.slots).bind (freeSymbols syms) with
    | some es => some ([.use (.table i)] ++ es ++ [.free (.table i)])
    | none => none

/-- scope.c:202-214 `free_scope`; `none` is a dangling pointer, an access outside a vector, or no fuel. -/
def freeScope (scopes : List Scope) (syms : List Symbol) : Nat → Option Nat → Option (List Event)
  | _, none => some []
  | 0, some _ => none
  | f + 1, some i =>
    match scopes[i]? with
    | none => none
    | some sc =>
      match freeTable syms i sc.symbols, freeScope scopes syms f sc.child, freeScope scopes syms f sc.next with
      | some es, some cs, some ns => some ([.use (.scope i)] ++ es ++ cs ++ ns ++ [.free (.scope i)])
      | _, _, _ => none

/-- shared.c:39-56 `free_semantic_state`. -/
def freeSemanticState (s : SS) : Option (List Event) :=
  match findScopeHead s with
  | none => none
  | some head =>
    match freeScope s.scopes s.syms s.scopes.length head, s.syms[0]? with
    | some es, some main => some ([.use .state] ++ es ++ [.use (.sym 0), .use (.data 0)] ++ freeSymbol 0 main ++ [.free .state])
    | _, _ => none

/-- ast_node.c:257-265 `free_param`: the symbol of a parameter and its variable are looked at.  (The variable has a name, and is not
freed.) -/
def freeParams (bound : List Nat) : List Event := bound.flatMap fun id => [.use (.sym id), .use (.data id)]

/-- pipeline.c:69-73: what is freed in the end. -/
def cleanUp (h : HS) : Option (List Event) := (freeSemanticState h.s).map (freeParams h.bound ++ ·)

/-- The check of a whole file. -/
def semanticH (cfg : Cfg) (t : Tree) : HRes ATree :=
  match setupStateH cfg with
  | none => .ub
  | some h => validateAstTreeH cfg t h

/-- pipeline.c:54-73: what happens to the memory of the check, from the start to the end of the compiler; `none` is an undefined
operation of another kind. -/
def memoryLog (cfg : Cfg) (t : Tree) : Option (List Event) :=
  match semanticH cfg t with
  | .ok _ h => (cleanUp h).map (h.evs ++ ·)
  | .fail h => (cleanUp h).map (h.evs ++ ·)
  | .ub => none

end Skull.Heap
