import Verif.Proofs.Relabel
import Verif.Proofs.SemAccepted
/-
C87: how a program is parsed depends on the kinds of its tokens only.
-/
namespace Skull
open Spec

/-- A token of which only the kind is left. -/
def bare (t : Token) : Token := { ty := t.ty }

/-- Other names, literals and places give the tree with those names, literals and places, and the same diagnostics at them. -/
theorem C87 {e : Token → Token} (he : KeepsKind e) (toks : List Token) : parseAstTree (toks.map e) = relabelRes e (parseAstTree toks) :=
  Relab.parse_eq he toks

/-- Two lists of tokens of the same kinds are both accepted or both refused, with trees and diagnostics that differ in tokens only. -/
theorem C87_kinds {toks toks' : List Token} (h : toks.map (·.ty) = toks'.map (·.ty)) :
    relabelRes bare (parseAstTree toks) = relabelRes bare (parseAstTree toks') := by
  have hb : KeepsKind bare := fun _ => rfl
  rw [← C87 hb, ← C87 hb]
  have e : ∀ l : List Token, l.map bare = (l.map (·.ty)).map (fun ty => { ty := ty }) := fun l => by rw [List.map_map]; rfl
  rw [e, e, h]

/-- Whether the tokens of two texts have the same kinds. -/
def sameKinds (a b : String) : Bool := (lexed a).map (·.ty) = (lexed b).map (·.ty)

example : relabelRes bare (parseAstTree (lexed "x := a + 1\nif b { f(x) }\n")) =
    relabelRes bare (parseAstTree (lexed "  yy   :=  cc +  27\nif  dd  {  g(yy)  }\n")) :=
  C87_kinds (by have : sameKinds "x := a + 1\nif b { f(x) }\n" "  yy   :=  cc +  27\nif  dd  {  g(yy)  }\n" = true := by decide +kernel
                exact of_decide_eq_true this)

example : relabelRes bare (parseAstTree (lexed "x := 1 +\n")) = relabelRes bare (parseAstTree (lexed "y   := 2 +\n")) :=
  C87_kinds (by have : sameKinds "x := 1 +\n" "y   := 2 +\n" = true := by decide +kernel
                exact of_decide_eq_true this)

/- The first is accepted, with a tree, and the second is not. -/
example : parsed "x := a + 1\nif b { f(x) }\n" ≠ .nil := by
  have : (match parsed "x := a + 1\nif b { f(x) }\n" with | .nil => false | _ => true) = true := by decide +kernel
  intro h; rw [h] at this; cases this
example : (match parseAstTree (lexed "x := 1 +\n") with | .ok _ s => s.err | _ => false) = true := by decide +kernel

/- A keyword has another kind than a name, and a float another kind than an integer. -/
example : sameKinds "x := 1\n" "if := 1\n" = false := by decide +kernel
example : sameKinds "x := 1\n" "x := 1.0\n" = false := by decide +kernel

end Skull
