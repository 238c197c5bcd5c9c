import Verif.Proofs.ParseKnown
import Verif.Proofs.SemStmt
import Verif.Proofs.CheckedTree
import Verif.Spec.Accepted
/-
The statements of a checked tree are those of the program, and only blocks behind calls are left unchecked.
-/
namespace Skull
open Spec

/-- All statements are of some kind, and only blocks behind calls are left unchecked. -/
def Shaped : ATree → Prop
  | .nil => True
  | .unchecked _ => False
  | .node _ st _ child next => st ≠ .unknown ∧ ((∃ e, st = .expr e) ∨ Shaped child) ∧ Shaped next

/-- What the step gives when it goes on. -/
def Gives (m : Chk α) (P : α → Prop) : Prop := ∀ s a s', m s = .ok a s' → P a

namespace Gives

theorem bind {m : Chk α} {f : α → Chk β} {P : α → Prop} {Q : β → Prop} (hm : Gives m P) (hf : ∀ a, P a → Gives (f a) Q) :
    Gives (m >>= f) Q := by
  intro s b s' h
  obtain ⟨a, s₁, h1, h2⟩ := bind_ok.1 h
  exact hf a (hm _ _ _ h1) _ _ _ h2

theorem any {m : Chk α} : Gives m fun _ => True := fun _ _ _ _ => trivial
theorem pure {a : α} {P : α → Prop} (h : P a) : Gives (Pure.pure a : Chk α) P := by intro s b s' h'; cases h'; exact h
theorem ub {P : α → Prop} : Gives (Chk.ub : Chk α) P := by intro s b s' h; cases h
theorem error {c t} {P : α → Prop} : Gives (Chk.error c t : Chk α) P := by intro s b s' h; cases h
theorem andThen {m : Chk α} {f : α → Chk β} {Q : β → Prop} (hf : ∀ a, Gives (f a) Q) : Gives (m >>= f) Q := bind any fun a _ => hf a

end Gives

theorem block_gives {m : Chk ATree} {P} (h : Gives m P) : Gives (block m) P :=
  .andThen fun _ => .bind h fun _ hr => .andThen fun _ => .andThen fun _ => .andThen fun _ => .pure hr

theorem stmt_shaped {cfg before stmt tok tokEnd child next nodes} (hn : Gives nodes Shaped) :
    Gives (validateStmt cfg before stmt tok tokEnd child next nodes) fun r => (∃ e, stmt = .expr e) ∨ Shaped r.2 := by
  unfold validateStmt
  split
  case h_1 => exact .andThen fun _ => .pure (.inr trivial)
  case h_2 => exact .andThen fun _ => .pure (.inr trivial)
  case h_3 => exact .andThen fun _ => .andThen fun _ => .andThen fun _ => .bind (block_gives hn) fun _ h => .andThen fun _ => .andThen fun _ => .pure (.inr h)
  case h_4 => exact .andThen fun _ => .pure (.inr trivial)
  case h_5 => exact .andThen fun _ => .pure (.inr trivial)
  case h_6 => exact .ub
  case h_7 => exact .andThen fun _ => .pure (.inl ⟨_, rfl⟩)
  case h_8 => exact .andThen fun _ => .error
  case h_9 => exact .andThen fun _ => .andThen fun _ => .bind (block_gives hn) fun _ h => .pure (.inr h)
  case h_10 => exact .andThen fun _ => .andThen fun _ => .bind (block_gives hn) fun _ h => .pure (.inr h)
  case h_11 => exact .andThen fun _ => .andThen fun _ => .andThen fun _ => .bind (block_gives hn) fun _ h => .pure (.inr h)
  case h_12 =>
    exact .andThen fun _ => .andThen fun _ => .andThen fun _ => .andThen fun _ => .bind (block_gives hn) fun _ h =>
      .andThen fun _ => .andThen fun _ => .pure (.inr h)
  case h_13 => exact .andThen fun _ => .pure (.inr trivial)
  case h_14 => exact .andThen fun _ => .pure (.inr trivial)
  case h_15 => exact .andThen fun _ => .bind (block_gives hn) fun _ h => .andThen fun _ => .pure (.inr h)
  case h_16 => exact .andThen fun _ => .pure (.inr trivial)
  all_goals exact .pure (.inr trivial)

theorem nodes_shaped {cfg : Cfg} : ∀ (t : Tree) (before : List Stmt), AllStmts Named t → Gives (validateNodes cfg before t) Shaped
  | .nil, before, _ => by unfold validateNodes; exact .pure trivial
  | .node stmt tok tokEnd child next, before, h => by
    unfold validateNodes
    exact .andThen fun _ => .bind (stmt_shaped (nodes_shaped child [] h.2.1)) fun r hr =>
      .bind (nodes_shaped next (stmt :: before) h.2.2) fun rest hrest => .pure ⟨h.1, hr, hrest⟩

/-- A program that is not empty. -/
theorem semantic_shaped {cfg t a s} (hp : Parsed t) (he : ¬ EmptyProgram t) (h : semantic cfg t = .ok a s) : Shaped a := by
  unfold semantic at h
  split at h
  · cases h
  · rename_i s₀ _
    unfold validateAstTree at h
    obtain ⟨a', s₁, h1, h⟩ := bind_ok.1 h
    have : a' = a := by
      obtain ⟨s₂, _, h⟩ := bind_ok_unit.1 h
      obtain ⟨s₃, _, h⟩ := bind_ok_unit.1 h
      split at h
      · cases h; rfl
      · obtain ⟨b, s₄, _, h⟩ := bind_ok.1 h
        split at h
        · cases h
        · cases h; rfl
    subst this
    obtain ⟨toks, ps, hp⟩ := hp
    rcases parsed_named hp with ⟨tok, child, rfl, hc⟩ | hn
    · cases child with
      | nil => exact absurd ⟨_, _, rfl⟩ he
      | node st tk te ch nx =>
        unfold validateNodes at h1
        obtain ⟨s₂, h2, _⟩ := bind_ok_unit.1 h1
        exact absurd ((saneChild_ok h2).1 (by simp)) (by simp [MayHaveBlock])
    · exact nodes_shaped t [] hn _ _ _ h1

end Skull
