import Verif.Proofs.Scoped
import Verif.Props.CodegenLLVM
/-
C60: declarations come before uses.
-/
namespace Skull
open Spec

/- ### C60 -/

/-- In a checked program every variable that is read or assigned to, and every function that is called, is declared by a statement before it
in the same block or in a block around, perhaps in a namespace, or is a parameter of a function around it; and nothing is declared twice.
The main function, symbol 0, cannot be named. -/
theorem C60_declared {cfg : Cfg} {t : Tree} {a : ATree} {s : SS} (hp : Parsed t) (h : semantic cfg t = .ok a s) :
    Scoped [] a ∧ a.defs.Nodup ∧ 0 ∉ a.defs :=
  ⟨semantic_scoped hp h, semantic_defs hp h⟩

/-- A program that calls a function later in the text is refused. -/
example : acceptsSrc "f() Int {\nreturn g()\n}\ng() Int {\nreturn 1\n}\nreturn f()\n" = false := by decide +kernel

/-- So is one that uses a variable after the block that declares it, or a parameter of another function. -/
example : acceptsSrc "if true {\nx := 1\n}\nreturn x\n" = false ∧
    acceptsSrc "f(x: Int) Int {\nreturn x\n}\ng() Int {\nreturn x\n}\nreturn f(1) + g()\n" = false := by decide +kernel

/-- Recursion, and a function in a namespace. -/
def sampleDecl : String := "namespace n {\nf(x: Int) Int {\nif x is 0 {\nreturn 0\n}\nreturn f(x - 1)\n}\n}\nmut y := 1\ny = n.f(y)\nreturn y\n"

/-- What the program declares: the function, its parameter and the variable, in this order. -/
example : (match checked sampleCfg sampleDecl with
    | .ok a _ => decide (a.defs = [2, 3, 4])
    | _ => false) = true := by decide +kernel

/-- The relation refuses trees that use a symbol without its declaration, before it, or after the block that declares it. -/
example {tok : List Token} {v : AExpr} {c} (h : ∀ id, v.reads id = false ∧ v.calls id = false) :
    ¬ Scoped [] (.node (.varAssign 1 v) c tok .nil (.node (.varDef 1 v) c tok .nil .nil)) ∧
    ¬ Scoped [] (.node (.expr v) c tok (.node (.varDef 1 v) c tok .nil .nil) (.node (.varAssign 1 v) c tok .nil .nil)) ∧
    ¬ Scoped [] (.node (.func 2 [1]) c tok .nil (.node (.varAssign 1 v) c tok .nil .nil)) ∧
    Scoped [] (.node (.ns 2) c tok (.node (.varDef 1 v) c tok .nil .nil) (.node (.varAssign 1 v) c tok .nil .nil)) ∧
    Scoped [] (.node (.varDef 1 v) c tok .nil (.node (.varAssign 1 v) c tok .nil .nil)) := by
  have h1 : ∀ (ds : List Nat) id, names id (.varDef 1 v) → id ∈ ds := by
    rintro ds id (⟨e, he, hu⟩ | h')
    · cases he
      simp [h id] at hu
    · cases h'
  have h2 : ∀ (ds : List Nat) id, 1 ∈ ds → names id (.varAssign 1 v) → id ∈ ds := by
    rintro ds id hm (⟨e, he, hu⟩ | h')
    · cases he
      simp [h id] at hu
    · simp only [Ann.assigns, beq_iff_eq] at h'
      rwa [← h']
  refine ⟨?_, ?_, ?_, ⟨?_, ⟨h1 _, trivial, trivial⟩, fun id => h2 _ id (by simp [lasting, outer]), trivial, trivial⟩,
    h1 _, trivial, fun id => h2 _ id (by simp [lasting]), trivial, trivial⟩
  · intro hd
    have := hd.1 1 (.inr rfl)
    simp at this
  · intro hd
    have := hd.2.2.1 1 (.inr rfl)
    simp [lasting] at this
  · intro hd
    have := hd.2.2.1 1 (.inr rfl)
    simp [lasting] at this
  · rintro id (⟨e, he, _⟩ | h')
    · cases he
    · cases h'

end Skull
