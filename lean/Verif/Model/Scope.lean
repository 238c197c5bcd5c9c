import Verif.Model.Parser
import Verif.Model.Types
import Verif.Model.Classify
import Verif.Model.Paths
/-
skull/semantic/scope.c, symbol.c and the state of the semantic check.

Scopes and symbols live on a heap: a `Scope *` or `Symbol *` is the number of the allocation, `none` is the null pointer.  Freed
objects stay; nothing is freed before the check ends, except symbols that could not be added, which nobody refers to.

A name (`char *`) is a list of characters, not of UTF-8 bytes: UTF-8 encodes distinct characters differently and the dot only by
itself, so comparing names and looking for the dot do not depend on the encoding.

A `const Type *` is the type `Ty` it stands for.  Comparing pointers is comparing types by C32.
-/
namespace Skull

/-- scope.h:18-25 `Scope`. -/
structure Scope where
  symbols : Option (HashTable Nat) := none
  next : Option Nat := none
  last : Option Nat := none
  child : Option Nat := none
  parent : Option Nat := none

/-- variable.h:35-50 `Variable`.  `constExpr` is `expr->is_const_expr`, `none` when `expr` is null.  The backend's fields are left
out, and so are `is_const_lit` and `is_global`, which nobody sets. -/
structure Variable where
  type : Ty
  name : List Char
  linkageName : List Char
  isConst : Bool
  wasReassigned : Bool := false
  wasRead : Bool := false
  implicitlyTyped : Bool := false
  isExported : Bool := false
  isDefined : Bool := false
  constExpr : Option Bool := none
  deriving DecidableEq

/-- func.h:19-34 `FunctionDeclaration`, without the backend's fields. -/
structure Func where
  numParams : Nat
  paramTypes : List Ty
  returnType : Ty
  wasCalled : Bool := false
  isExternal : Bool
  isExport : Bool
  deriving DecidableEq

/-- symbol.h:10-16 `SymbolType` with the union of `Symbol`.  A namespace has no scope until its block has been checked; the union
of an alias is zero. -/
inductive SymKind
  | var (v : Variable)
  | func (f : Func)
  | alias
  | ns (scope : Option Nat)
  deriving DecidableEq

/-- symbol.h:18-29 `Symbol`.  `loc` is a token with its location. -/
structure Symbol where
  name : List Char
  linkageName : List Char := []
  exprType : Option Ty := none
  loc : Option Token := none
  kind : SymKind
  deriving DecidableEq

/-- shared.h:12-19 `SemanticState` with the heap and the diagnostics so far (last first).  `main_func` is symbol 0. -/
structure SS where
  scopes : List Scope := []
  scope : Option Nat := none
  syms : List Symbol := []
  currentFunc : Nat := 0
  lastFunc : Option Nat := none
  whileDepth : Nat := 0
  diags : List PDiag := []

/-- scope.c:46-50: the parts of a name before and after its first dot. -/
def splitDot : List Char → Option (List Char × List Char)
  | [] => none
  | c :: s => if c = '.' then some ([], s) else (splitDot s).map fun p => (c :: p.1, p.2)

/-- scope.c:45-48: a name is only split if the scope has a table. -/
def splitName (symbols : Option (HashTable Nat)) (name : List Char) : Option (List Char × List Char) :=
  match symbols with
  | some _ => splitDot name
  | none => none

/-- scope.c:40-71 `scope_find_name`.  The outer `none` is a dangling pointer, an access outside the hash table, or no fuel. -/
def findName : Nat → List Scope → List Symbol → Option Nat → List Char → Option (Option Nat)
  | 0, _, _, _, _ => none
  | _ + 1, _, _, none, _ => some none
  | f + 1, scopes, syms, some i, name =>
    match scopes[i]? with
    | none => none
    | some sc =>
      if !(sc.symbols.isSome || sc.parent.isSome || sc.last.isSome) then some none
      else
        match splitName sc.symbols name with
        | some (pre, post) =>
          match findName f scopes syms (some i) pre with
          | none => none
          | some none => some none
          | some (some id) =>
            match syms[id]? with
            | none => none
            | some sym =>
              match sym.kind with
              | .ns scope => findName f scopes syms scope post
              | _ => some none
        | none =>
          match htGet sc.symbols name with
          | none => none
          | some (some id) => some (some id)
          | some none =>
            match sc.parent with
            | some p => findName f scopes syms (some p) name
            | none =>
              match sc.last with
              | some l => findName f scopes syms (some l) name
              | none => some none

/-- Enough fuel for every lookup of `name`. -/
def findFuel (scopes : List Scope) (name : List Char) : Nat := (scopes.length + 2) * (name.length + 2)

/-- `scope_find_name(state->scope, name)`. -/
def SS.find (s : SS) (name : List Char) : Option (Option Nat) :=
  findName (findFuel s.scopes name) s.scopes s.syms s.scope name

/-- Result of a step of the semantic check: it went on, it failed, or it performed an undefined operation. -/
inductive SRes (α : Type)
  | ok (a : α) (s : SS)
  | fail (s : SS)
  | ub

/-- A step of the semantic check. -/
abbrev Chk (α : Type) : Type := SS → SRes α

def Chk.bind (m : Chk α) (f : α → Chk β) : Chk β := fun s =>
  match m s with
  | .ok a s => f a s
  | .fail s => .fail s
  | .ub => .ub

instance : Monad Chk where
  pure a := fun s => .ok a s
  bind := Chk.bind

/-- An undefined operation. -/
def Chk.ub : Chk α := fun _ => .ub

/-- `return false` without a diagnostic. -/
def Chk.stop : Chk α := fun s => .fail s

/-- Add a diagnostic. -/
def SS.diag (s : SS) (code : Code) (t : Option Token) : SS := { s with diags := ⟨code, t⟩ :: s.diags }

/-- `FMT_ERROR(code, ..); return false;` -/
def Chk.error (code : Code) (t : Option Token) : Chk α := fun s => .fail (s.diag code t)

/-- The state. -/
def Chk.get : Chk SS := fun s => .ok s s

/-- Replace the state. -/
def Chk.set (s : SS) : Chk Unit := fun _ => .ok () s

/-- The value of an operation that may be undefined. -/
def Chk.ofOption : Option α → Chk α
  | some a => pure a
  | none => Chk.ub

/-- `scope_find_name(state->scope, name)`. -/
def lookup (name : List Char) : Chk (Option Nat) := fun s =>
  match s.find name with
  | some r => .ok r s
  | none => .ub

/-- The symbol behind a pointer. -/
def symAt (id : Nat) : Chk Symbol := fun s =>
  match s.syms[id]? with
  | some sym => .ok sym s
  | none => .ub

/-- Allocate a symbol. -/
def newSym (sym : Symbol) : Chk Nat := fun s => .ok s.syms.length { s with syms := s.syms ++ [sym] }

/-- Change a symbol. -/
def updSym (id : Nat) (f : Symbol → Symbol) : Chk Unit := fun s =>
  match s.syms[id]? with
  | some sym => .ok () { s with syms := s.syms.set id (f sym) }
  | none => .ub

/-- func.c:219-224 `find_func_by_name`. -/
def findFuncByName (name : List Char) : Chk (Option Nat) := do
  match ← lookup name with
  | none => pure none
  | some id =>
    match (← symAt id).kind with
    | .func _ => pure (some id)
    | _ => pure none

/-- types.c:176-185 `find_type`. -/
def findType (name : List Char) : Chk (Option Ty) := do
  match ← lookup name with
  | none => pure ((findBuiltinType name).map Ty.prim)
  | some id =>
    let sym ← symAt id
    match sym.kind with
    | .alias => pure sym.exprType
    | _ => pure ((findBuiltinType name).map Ty.prim)

/-- symbol.h:10-16 `SymbolType`. -/
inductive SymType
  | unknown | var | func | alias | ns
  deriving DecidableEq, Repr

/-- The field `type` of a symbol. -/
def SymKind.symType : SymKind → SymType
  | .var _ => .var
  | .func _ => .func
  | .alias => .alias
  | .ns _ => .ns

/-- symbol.c:45-48: variables and namespaces. -/
def directType : Option Nat → Chk SymType
  | none => pure .unknown
  | some id => do
    match (← symAt id).kind with
    | .var _ => pure .var
    | .ns _ => pure .ns
    | _ => pure .unknown

/-- symbol.c:50-56: functions and types. -/
def funcOrAlias (name : List Char) : Chk SymType := do
  match ← findFuncByName name with
  | some _ => pure .func
  | none =>
    match ← findType name with
    | some _ => pure .alias
    | none => pure .unknown

/-- symbol.c:44-57 `find_symbol_type`. -/
def findSymbolType (name : List Char) : Chk SymType := do
  let found ← lookup name
  match ← directType found with
  | .unknown => funcOrAlias name
  | direct => pure direct

/-- `FMT_ERROR(code, ..)` without leaving the function. -/
def report (code : Code) (t : Option Token) : Chk Unit := fun s => .ok () (s.diag code t)

/-- symbol.c:20-39: the diagnostics; there is none for a namespace. -/
def reportExisting (type : SymType) (sym : Symbol) : Chk Unit :=
  if type ≠ sym.kind.symType then report .errNoRedefineXAsY sym.loc
  else if type = .var then report .errVarAlreadyDefined sym.loc
  else if type = .alias then report .errAliasAlreadyDefined sym.loc
  else if type = .func then report .errNoRedefineFunc sym.loc
  else pure ()

/-- symbol.c:16-42 `symbol_already_exists`. -/
def symbolAlreadyExists (sym : Symbol) : Chk Bool := do
  let type ← findSymbolType sym.name
  if type = .unknown then pure false
  else do
    reportExisting type sym
    pure true

/-- symbol.c:64: the current scope, made on first use. -/
def currentScope : Chk Nat := fun s =>
  match s.scope with
  | some i => .ok i s
  | none => .ok s.scopes.length { s with scopes := s.scopes ++ [{}], scope := some s.scopes.length }

/-- symbol.c:65-68: the table of a scope, made on first use, and `ht_add`. -/
def addToScope (i : Nat) (name : List Char) (id : Nat) : Chk Bool := fun s =>
  match s.scopes[i]? with
  | none => .ub
  | some sc =>
    match htAdd (some (refsOrNew sc.symbols)) name (some id) with
    | none => .ub
    | some (ht, added) => .ok added { s with scopes := s.scopes.set i { sc with symbols := ht } }

/-- symbol.c:59-69 `scope_add_symbol`; `id` is the number of `symbol`. -/
def scopeAddSymbol (id : Nat) : Chk Bool := do
  let sym ← symAt id
  if ← symbolAlreadyExists sym then pure false
  else do
    let i ← currentScope
    addToScope i sym.name id

/-- scope.c:23-32 `scope_add_var`. -/
def scopeAddVar (id : Nat) : Chk Bool := do
  let sym ← symAt id
  match ← lookup sym.name with
  | some _ => pure false
  | none => scopeAddSymbol id

/-- scope.c:112-113: the scope that becomes the parent. -/
def parentScope : Chk Nat := fun s =>
  match s.scope with
  | some i => .ok i s
  | none => .ok s.scopes.length { s with scopes := s.scopes ++ [{}] }

/-- scope.c:115-119: enter the child of scope `i`, made on first use. -/
def enterChild (i : Nat) : Chk Unit := fun s =>
  match s.scopes[i]? with
  | none => .ub
  | some sc =>
    match sc.child with
    | some c =>
      match s.scopes[c]? with
      | none => .ub
      | some cs => .ok () { s with scopes := s.scopes.set c { cs with parent := some i }, scope := some c }
    | none =>
      .ok () { s with
        scopes := s.scopes.set i { sc with child := some s.scopes.length } ++ [{ parent := some i }],
        scope := some s.scopes.length }

/-- scope.c:109-120 `make_child_scope`. -/
def makeChildScope : Chk Unit := do
  let i ← parentScope
  enterChild i

/-- scope.c:128-136 `make_adjacent_scope`. -/
def makeAdjacentScope : Chk Unit := fun s =>
  match s.scope with
  | none => .ub                                      -- 133: state->scope->next
  | some i =>
    match s.scopes[i]? with
    | none => .ub
    | some sc =>
      .ok () { s with
        scopes := s.scopes.set i { sc with next := some s.scopes.length } ++ [{ last := some i }],
        scope := some s.scopes.length }

/-- scope.c:141-152, the loop of `find_scope_head`; `none` is a dangling pointer or no fuel. -/
def scopeHead (scopes : List Scope) : Nat → Nat → Option Nat
  | 0, _ => none
  | f + 1, i =>
    match scopes[i]? with
    | none => none
    | some sc =>
      match sc.last with
      | none => some i
      | some l => scopeHead scopes f l

/-- scope.c:141-152 `find_scope_head`. -/
def findScopeHead (s : SS) : Option (Option Nat) :=
  match s.scope with
  | none => some none
  | some i => (scopeHead s.scopes (s.scopes.length + 1) i).map some

/-- scope.c:154-158 `is_top_lvl_scope`. -/
def isTopLvlScope : Chk Bool := fun s =>
  match findScopeHead s with
  | none => .ub
  | some none => .ok true s
  | some (some h) =>
    match s.scopes[h]? with
    | none => .ub
    | some sc => .ok sc.parent.isNone s

/-- scope.c:163-167 `reset_scope_head`. -/
def resetScopeHead : Chk Unit := fun s =>
  match findScopeHead s with
  | none => .ub
  | some none => .ok () s
  | some (some h) => .ok () { s with scope := some h }

/-- scope.c:176: go to the parent of the current scope. -/
def toParent : Chk Unit := fun s =>
  match s.scope with
  | none => .ok () s
  | some h =>
    match s.scopes[h]? with
    | none => .ub
    | some sc => .ok () { s with scope := sc.parent }

/-- scope.c:172-177 `restore_parent_scope`. -/
def restoreParentScope : Chk Unit := do
  resetScopeHead
  toParent

/-- scope.c:216-222 `get_last_adjacent_scope`; `none` is a dangling pointer or no fuel. -/
def lastAdjacent (scopes : List Scope) : Nat → Option Nat → Option (Option Nat)
  | 0, _ => none
  | _ + 1, none => some none
  | f + 1, some i =>
    match scopes[i]? with
    | none => none
    | some sc =>
      match sc.next with
      | none => some (some i)
      | some n => lastAdjacent scopes f (some n)

/-- The name of a token (`token_to_mbs_str`). -/
def tokName (t : Token) : Chk (List Char) := Chk.ofOption (tokenToString t)

/-- types.c:303-317 `token_to_type`. -/
def tokenToType : List Token → Chk (Option Ty)
  | [] => Chk.ub
  | t :: rest => do
    if isIdentLike t then
      let name ← tokName t
      findType name
    else if t.ty = .operRef then do
      let inner ← tokenToType rest
      pure (inner.map Ty.ref)
    else pure none

/-- variable.c:18-36 `make_variable`; the null result is dereferenced by both callers. -/
def makeVariable (type : Ty) (name : List Char) (isConst : Bool) : Chk Variable :=
  if isValidIdentifier name then pure { type, name, linkageName := name, isConst } else Chk.ub

end Skull
