import Verif.Spec.Uses
/-
What a checked tree declares, and that it does so before it uses it and where it can be seen.
-/
namespace Skull

/-- The symbols that are declared in a tree: variables, functions and parameters. -/
def ATree.defs : ATree → List Nat
  | .nil => []
  | .unchecked _ => []
  | .node (.varDef id _) _ _ child next => id :: (child.defs ++ next.defs)
  | .node (.func id ps) _ _ child next => id :: (ps ++ (child.defs ++ next.defs))
  | .node _ _ _ child next => child.defs ++ next.defs

/-- The symbols that a statement declares itself. -/
abbrev annDefs : Ann → List Nat
  | .varDef id _ => [id]
  | .func id ps => id :: ps
  | _ => []

namespace Spec

/-- The statement reads, calls or assigns to the symbol. -/
def names (id : Nat) (ann : Ann) : Prop :=
  (∃ e, ann.value = some e ∧ (e.reads id = true ∨ e.calls id = true)) ∨ ann.assigns id = true

/-- What a statement leaves behind for those after it: a variable, a function, or what a namespace leaves behind (`inner`). -/
abbrev lasting (inner : List Nat) : Ann → List Nat
  | .varDef id _ => [id]
  | .func id _ => [id]
  | .ns _ => inner
  | _ => []

/-- What the statements of a block leave behind. -/
def outer : ATree → List Nat
  | .nil => []
  | .unchecked _ => []
  | .node ann _ _ child next => lasting (outer child) ann ++ outer next

/-- Everything that the statements name is among `ds`, or declared by a statement before in the same block or in one around, perhaps in a
namespace, or is a parameter of a function around. -/
def Scoped (ds : List Nat) : ATree → Prop
  | .nil => True
  | .unchecked _ => True
  | .node ann _ _ child next =>
    (∀ id, names id ann → id ∈ ds) ∧ Scoped (ds ++ annDefs ann) child ∧ Scoped (ds ++ lasting (outer child) ann) next

end Spec
end Skull
