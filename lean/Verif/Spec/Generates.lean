import Verif.Spec.Uses
/-
The comparisons that the LLVM back end knows, and programs without statements.
-/
namespace Skull.Spec

/-- The type that decides how a value is compared.  For `&x` this is not its own type, but what `x` refers to, if `x` is a reference. -/
def comparedAs : AExpr → Option Ty
  | .un .ref (.ident _ _ (.ref τ) _) _ _ => some τ
  | .un .ref (.ident _ _ (.prim _) _) _ _ => none
  | e => some e.type

mutual
/-- `is` and `isnt` compare numbers, truth values, runes and strings only: no references, and no calls of functions without a value. -/
def Compares : AExpr → Prop
  | .ident .. | .const .. => True
  | .call _ args _ _ => ComparesArgs args
  | .un _ e _ _ => Compares e
  | .bin o l r _ _ => (o = .is ∨ o = .isnt → ∃ p, comparedAs r = some (.prim p) ∧ p ≠ .void) ∧ Compares l ∧ Compares r
def ComparesArgs : AArgs → Prop
  | .nil | .unchecked _ => True
  | .cons _ e next => Compares e ∧ ComparesArgs next
end

/-- A function of another module, which gets no code here. -/
def isForeign : Stmt → Bool
  | .funcProto p => p.isExternal
  | _ => false

/-- So do all expressions of the tree that get code. -/
def ComparesAll : ATree → Prop
  | .nil => True
  | .unchecked _ => True
  | .node ann stmt _ child next =>
    (∀ e, ann.value = some e → Compares e) ∧ (isForeign stmt = false → ComparesAll child) ∧ ComparesAll next

/-- The tree that the parser gives for a file without statements (pipeline.c:41). -/
def EmptyProgram (t : Tree) : Prop := ∃ tok tokEnd, t = .node .unknown tok tokEnd .nil .nil

end Skull.Spec
