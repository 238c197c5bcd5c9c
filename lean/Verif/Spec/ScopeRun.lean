import Verif.Model.Semantic
import Verif.Spec.Typing
/-
Sequences of declarations and blocks, and what is visible after them.
-/
namespace Skull.Spec

/-- entry.c:52-55: the end of a block. -/
def closeBlock : Chk Unit := do
  resetScopeHead
  restoreParentScope
  makeAdjacentScope

/-- Declare a symbol: allocate it and add it to the current scope. -/
def declareSym (sym : Symbol) : Chk Bool := do
  let id ← newSym sym
  scopeAddSymbol id

/-- Symbols as the check declares them, once they are finished. -/
def Declarable (sym : Symbol) : Prop :=
  match sym.kind with
  | .var v => v.isDefined = true
  | .func f => f.numParams = f.paramTypes.length
  | .alias => True
  | .ns scope => scope = none

/-- The blocks a program is in, the innermost first, each with the names declared in it so far (the latest first) and their
symbols. -/
abbrev Frames := List (List (List Char × Nat))

/-- What a symbol declares.  A namespace that has not ended has no members. -/
def declOf (sym : Symbol) : Decl :=
  match sym.kind with
  | .var v => .var v.type (!v.isConst)
  | .func f => .func f.paramTypes f.returnType
  | .alias => .alias sym.exprType
  | .ns _ => .ns []

/-- The state `s` is reached by declarations and by the beginnings and ends of blocks and namespaces; `frames` are the blocks it is
in and `decls` all declarations so far.  The members of a namespace are the names visible at its end. -/
inductive ScopeRun (cfg : Cfg) : SS → Frames → List Decl → Prop
  | start {s} : setupState cfg = some s → ScopeRun cfg s [[]] [.func [] Int']
  | declare {s s' sym f fs ds} : ScopeRun cfg s (f :: fs) ds → Declarable sym → declareSym sym s = .ok true s' →
      ScopeRun cfg s' (((sym.name, s.syms.length) :: f) :: fs) (ds ++ [declOf sym])
  | openBlock {s s' fs ds} : ScopeRun cfg s fs ds → makeChildScope s = .ok () s' → ScopeRun cfg s' ([] :: fs) ds
  | closeBlock {s s' f g fs ds} : ScopeRun cfg s (f :: g :: fs) ds → closeBlock s = .ok () s' → ScopeRun cfg s' (g :: fs) ds
  | closeNamespace {s s' s'' f g fs ds id} : ScopeRun cfg s (f :: g :: fs) ds → closeBlock s = .ok () s' →
      ds[id]? = some (.ns []) → closeNamespace id s' = .ok () s'' →
      ScopeRun cfg s'' (g :: fs) (ds.set id (.ns (f :: g :: fs).flatten))

/-- What the names mean. -/
def runEnv (fs : Frames) (ds : List Decl) : Env := ⟨fs.flatten, ds⟩

/-- The declaration of a name in the innermost block that has one. -/
def innermost : Frames → List Char → Option Nat
  | [], _ => none
  | f :: fs, x =>
    match f.lookup x with
    | some id => some id
    | none => innermost fs x

end Skull.Spec
