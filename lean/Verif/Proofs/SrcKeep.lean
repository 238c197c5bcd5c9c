import Verif.Spec.Run
import Verif.Proofs.LFrame
/-
Facts about the interpreter: which variables outside functions a program defines.
-/
namespace Skull
open Spec

/-- Variables that are not there are not there afterwards. -/
def KeepsNone {ω : Type} (P : Nat → Prop) (S S' : SState ω) : Prop := ∀ id, P id → S.vars id = none → S'.vars id = none

theorem KeepsNone.refl {ω} {P} (S : SState ω) : KeepsNone P S S := fun _ _ h => h

theorem KeepsNone.trans {ω} {P} {S S' S'' : SState ω} (h1 : KeepsNone P S S') (h2 : KeepsNone P S' S'') : KeepsNone P S S'' :=
  fun id hp h => h2 id hp (h1 id hp h)

theorem KeepsNone.mono {ω} {P Q : Nat → Prop} {S S' : SState ω} (h : KeepsNone P S S') (hq : ∀ id, Q id → P id) : KeepsNone Q S S' :=
  fun id hp hn => h id (hq id hp) hn

theorem KeepsNone.set {ω} {P : Nat → Prop} {S : SState ω} {id v} (h : P id → S.vars id ≠ none) :
    KeepsNone P S { S with vars := S.vars.set id v } := by
  intro i hp hi
  show (if i = id then some v else S.vars i) = none
  split
  · rename_i heq; subst heq; exact absurd hi (h hp)
  · exact hi

theorem ATree.defs_child {ann stmt tok child next id} (h : id ∈ child.defs) : id ∈ (ATree.node ann stmt tok child next).defs := by
  cases ann <;> simp [ATree.defs, h]

theorem ATree.defs_next {ann stmt tok child next id} (h : id ∈ next.defs) : id ∈ (ATree.node ann stmt tok child next).defs := by
  cases ann <;> simp [ATree.defs, h]

theorem afterChain_defs : ∀ {t : ATree} {id}, id ∈ (afterChain t).defs → id ∈ t.defs
  | .nil, _, h => h
  | .unchecked _, _, h => h
  | .node ann stmt tok child next, id, h => by
    have lift : id ∈ next.defs → id ∈ (ATree.node ann stmt tok child next).defs := by
      exact ATree.defs_next
    cases stmt
    case elifs => exact lift (afterChain_defs (t := next) h)
    case comment => exact lift (afterChain_defs (t := next) h)
    case elses => exact lift h
    all_goals exact h

section
variable {ω : Type} (c : RunCtx ω)

/-- Which variables statements may define. -/
def Others (top : Bool) (t : ATree) (id : Nat) : Prop := top = false ∨ id ∉ t.defs

structure KeepAt (n : Nat) : Prop where
  expr : ∀ {e L S v S'}, evalE c n e L S = some (v, S') → KeepsNone (fun _ => True) S S'
  args : ∀ {e L S v S'}, evalA c n e L S = some (v, S') → KeepsNone (fun _ => True) S S'
  call : ∀ {id vs S v S'}, callF c n id vs S = some (v, S') → KeepsNone (fun _ => True) S S'
  exec : ∀ {top chain t L S o S'}, execT c n top chain t L S = some (o, S') → KeepsNone (Others top t) S S'
  andThen : ∀ {top child next L S o S'}, andThen c n top child next L S = some (o, S') →
    KeepsNone (fun id => Others top child id ∧ Others top next id) S S'
  loop : ∀ {top e child L S o S'}, loopW c n top e child L S = some (o, S') → KeepsNone (Others top child) S S'

variable {c}

theorem keepAt : ∀ n, KeepAt c n
  | 0 => by
    constructor <;> intros <;> rename_i h <;> first | (simp [evalE] at h) | (simp [evalA] at h) | (simp [callF] at h) | (simp [execT] at h) | (simp [andThen] at h) | (simp [loopW] at h)
  | n + 1 => by
    have ih := keepAt n
    constructor
    · intro e L S v S' h
      cases e with
      | ident t id ty c =>
        simp only [evalE] at h
        split at h
        · cases h; exact .refl _
        · split at h
          · cases h; exact .refl _
          · cases h
      | const t v => simp only [evalE] at h; cases h; exact .refl _
      | call t args id ty =>
        simp only [evalE] at h
        split at h
        · rename_i vs S1 h1
          exact (ih.args h1).trans (ih.call h)
        · cases h
      | un o r ty c =>
        simp only [evalE] at h
        split at h
        · rename_i h1
          split at h
          · cases h; exact ih.expr h1
          · cases h
        · cases h
      | bin o l r ty c =>
        simp only [evalE] at h
        split at h
        · rename_i h1
          split at h
          · rename_i h2
            split at h
            · cases h; exact (ih.expr h1).trans (ih.expr h2)
            · cases h
          · cases h
        · cases h
    · intro e L S v S' h
      cases e with
      | nil => simp only [evalA] at h; cases h; exact .refl _
      | unchecked => simp only [evalA] at h; cases h
      | cons t e next =>
        simp only [evalA] at h
        split at h
        · rename_i h1
          split at h
          · rename_i h2
            cases h
            exact (ih.expr h1).trans (ih.args h2)
          · cases h
        · cases h
    · intro id vs S v S' h
      simp only [callF] at h
      split at h
      · split at h
        · split at h
          · split at h
            · cases h; exact .refl _
            · cases h
          · split at h
            · rename_i h1
              split at h
              · cases h; exact (ih.exec h1).mono fun _ _ => .inl rfl
              · cases h
            · cases h
        · cases h
      · cases h
    · intro top chain t L S o S' h
      cases t with
      | nil => simp only [execT] at h; cases h; exact .refl _
      | unchecked => simp only [execT] at h; cases h
      | node ann stmt tok child next =>
        have nxt : ∀ {ch L S1 o S'}, execT c n top ch next L S1 = some (o, S') →
            KeepsNone (Others top (.node ann stmt tok child next)) S1 S' := fun h =>
          (ih.exec h).mono fun id hp => hp.imp_right fun h1 h2 => h1 (ATree.defs_next h2)
        have after : ∀ {ch L S1 o S'}, execT c n top ch (afterChain next) L S1 = some (o, S') →
            KeepsNone (Others top (.node ann stmt tok child next)) S1 S' := fun h =>
          (ih.exec h).mono fun id hp => hp.imp_right fun h1 h2 => h1 (ATree.defs_next (afterChain_defs h2))
        have chd : ∀ {ch L S1 o S'}, execT c n top ch child L S1 = some (o, S') →
            KeepsNone (Others top (.node ann stmt tok child next)) S1 S' := fun h =>
          (ih.exec h).mono fun id hp => hp.imp_right fun h1 h2 => h1 (ATree.defs_child h2)
        have both : ∀ {L S1 o S'}, Spec.andThen c n top child next L S1 = some (o, S') →
            KeepsNone (Others top (.node ann stmt tok child next)) S1 S' := fun h =>
          (ih.andThen h).mono fun id hp => ⟨hp.imp_right fun h1 h2 => h1 (ATree.defs_child h2), hp.imp_right fun h1 h2 => h1 (ATree.defs_next h2)⟩
        have bothA : ∀ {L S1 o S'}, Spec.andThen c n top child (afterChain next) L S1 = some (o, S') →
            KeepsNone (Others top (.node ann stmt tok child next)) S1 S' := fun h =>
          (ih.andThen h).mono fun id hp => ⟨hp.imp_right fun h1 h2 => h1 (ATree.defs_child h2),
            hp.imp_right fun h1 h2 => h1 (ATree.defs_next (afterChain_defs h2))⟩
        have exp : ∀ {e L S v S'}, evalE c n e L S = some (v, S') →
            KeepsNone (Others top (.node ann stmt tok child next)) S S' := fun h => (ih.expr h).mono fun _ _ => trivial
        have loop : ∀ {e L S1 o S'}, loopW c n top e child L S1 = some (o, S') →
            KeepsNone (Others top (.node ann stmt tok child next)) S1 S' := fun h =>
          (ih.loop h).mono fun id hp => hp.imp_right fun h1 h2 => h1 (ATree.defs_child h2)
        simp only [execT] at h
        split at h
        · exact nxt h
        · exact nxt h
        · exact nxt h
        · exact nxt h
        · exact nxt h
        · split at h
          · rename_i h1
            split at h
            · rename_i ht
              subst ht
              refine (exp h1).trans (.trans (.set ?_) (nxt h))
              rintro (hp | hp)
              · cases hp
              · exact absurd (by simp [ATree.defs]) hp
            · exact (exp h1).trans (nxt h)
          · cases h
        · split at h
          · rename_i h1
            split at h
            · exact (exp h1).trans (nxt h)
            · split at h
              · rename_i hs
                refine (exp h1).trans (.trans (.set fun _ hn => ?_) (nxt h))
                rw [hn] at hs
                cases hs
              · cases h
          · cases h
        · split at h
          · split at h
            · rename_i h1
              exact (exp h1).trans (nxt h)
            · cases h
          · cases h
        · cases h; exact .refl _
        · split at h
          · rename_i h1; cases h; exact exp h1
          · cases h
        · cases h; exact .refl _
        · cases h; exact .refl _
        · split at h
          · rename_i h1; exact (exp h1).trans (bothA h)
          · rename_i h1; exact (exp h1).trans (nxt h)
          · cases h
        · split at h
          · split at h
            · rename_i h1; exact (exp h1).trans (bothA h)
            · rename_i h1; exact (exp h1).trans (nxt h)
            · cases h
          · cases h
        · split at h
          · exact both h
          · cases h
        · split at h
          · rename_i h1; exact (loop h1).trans (nxt h)
          · exact loop h
        · split at h
          · rename_i h1; exact (chd h1).trans (nxt h)
          · exact chd h
        · cases h
    · intro top child next L S o S' h
      simp only [Spec.andThen] at h
      split at h
      · rename_i h1
        have k1 := (ih.exec h1).mono (Q := fun id => Others top child id ∧ Others top next id) fun _ h => h.1
        split at h
        · exact k1.trans ((ih.exec h).mono fun _ h => h.2)
        · cases h; exact k1
      · cases h
    · intro top e child L S o S' h
      simp only [loopW] at h
      split at h
      · rename_i h1; cases h; exact (ih.expr h1).mono fun _ _ => trivial
      · rename_i h1
        have k1 := (ih.expr h1).mono (Q := Others top child) fun _ _ => trivial
        split at h
        · rename_i h2
          have k2 := k1.trans (ih.exec h2)
          split at h
          · exact k2.trans (ih.loop h)
          · exact k2.trans (ih.loop h)
          · cases h; exact k2
          · cases h; exact k2
        · cases h
      · cases h

end
end Skull
