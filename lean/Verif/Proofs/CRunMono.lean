import Verif.Spec.CRun
/-
More steps give the same result, in C.
-/
namespace Skull
open Spec Spec.C

section
variable {ω : Type} {c : CRunCtx ω}

structure CMonoAt (c : CRunCtx ω) (n : Nat) : Prop where
  expr : ∀ {e a S r}, evalX c n e a S = some r → evalX c (n + 1) e a S = some r
  args : ∀ {es a S r}, evalXs c n es a S = some r → evalXs c (n + 1) es a S = some r
  call : ∀ {f vs S r}, callX c n f vs S = some r → callX c (n + 1) f vs S = some r
  exec : ∀ {ss a S r}, execX c n ss a S = some r → execX c (n + 1) ss a S = some r
  block : ∀ {body next a S r}, blockX c n body next a S = some r → blockX c (n + 1) body next a S = some r
  loop : ∀ {e body a S r}, loopX c n e body a S = some r → loopX c (n + 1) e body a S = some r

theorem cmono_expr {n} (ih : CMonoAt c n) {e a S r} (h : evalX c (n + 1) e a S = some r) : evalX c (n + 1 + 1) e a S = some r := by
  cases e with
  | id => rw [evalX] at h ⊢; exact h
  | num => rw [evalX] at h ⊢; exact h
  | str => rw [evalX] at h ⊢; exact h
  | paren e => rw [evalX] at h ⊢; exact ih.expr h
  | call f args =>
    cases f with
    | id f =>
      rw [evalX] at h ⊢
      split at h
      · cases h
      · rename_i h0
        rw [if_neg h0]
        split at h
        · rename_i h1
          rw [if_pos h1]
          split at h
          · rename_i h2
            rw [ih.args h2]
            dsimp only
            split at h
            · rename_i h3
              rw [if_pos h3]
              exact h
            · rename_i h3
              rw [if_neg h3]
              exact ih.call h
          · cases h
        · cases h
    | _ => rw [evalX] at h; cases h; intro _ h; cases h
  | un op e =>
    rw [evalX] at h ⊢
    split at h
    · rename_i h1
      rw [ih.expr h1]
      exact h
    · cases h
  | bin op l r =>
    rw [evalX] at h ⊢
    split at h
    · rename_i h0
      rw [if_pos h0]
      split at h
      · rename_i h1
        rw [ih.expr h1]
        dsimp only
        split at h
        · rename_i h2
          split at h
          · rename_i h3
            rw [if_pos h3]
            split at h
            · rename_i h4
              rw [ih.expr h4]
              exact h
            · cases h
          · rename_i h3
            rw [if_neg h3]
            exact h
        · cases h
      · cases h
    · rename_i h0
      rw [if_neg h0]
      split at h
      · rename_i h1
        rw [if_pos h1]
        split at h
        · rename_i h2
          rw [ih.expr h2]
          dsimp only
          split at h
          · rename_i h3
            rw [ih.expr h3]
            exact h
          · cases h
        · cases h
      · cases h

theorem cmono_args {n} (ih : CMonoAt c n) {es a S r} (h : evalXs c (n + 1) es a S = some r) : evalXs c (n + 1 + 1) es a S = some r := by
  cases es with
  | nil => rw [evalXs] at h ⊢; exact h
  | cons e next =>
    rw [evalXs] at h ⊢
    split at h
    · rename_i h1
      rw [ih.expr h1]
      dsimp only
      split at h
      · rename_i h2
        rw [ih.args h2]
        exact h
      · cases h
    · cases h

theorem cmono_call {n} (ih : CMonoAt c n) {f vs S r} (h : callX c (n + 1) f vs S = some r) : callX c (n + 1 + 1) f vs S = some r := by
  rw [callX] at h ⊢
  split at h
  · split at h
    · split at h
      · rename_i h1
        rw [ih.exec h1]
        exact h
      · cases h
    · cases h
  · exact h

theorem cmono_block {n} (ih : CMonoAt c n) {body next a S r} (h : blockX c (n + 1) body next a S = some r) :
    blockX c (n + 1 + 1) body next a S = some r := by
  rw [blockX] at h ⊢
  split at h
  · rename_i h1
    rw [ih.exec h1]
    dsimp only
    split at h
    · exact ih.exec h
    · exact h
  · cases h

theorem cmono_loop {n} (ih : CMonoAt c n) {e body a S r} (h : loopX c (n + 1) e body a S = some r) : loopX c (n + 1 + 1) e body a S = some r := by
  rw [loopX] at h ⊢
  split at h
  · rename_i h1
    rw [ih.expr h1]
    dsimp only
    split at h
    · exact h
    · split at h
      · rename_i h2
        rw [ih.exec h2]
        dsimp only
        split at h
        all_goals first | exact ih.loop h | exact h
      · cases h
    · cases h
  · cases h

theorem cmono_exec {n} (ih : CMonoAt c n) {ss a S r} (h : execX c (n + 1) ss a S = some r) : execX c (n + 1 + 1) ss a S = some r := by
  cases ss with
  | nil => rw [execX] at h ⊢; exact h
  | simple s next =>
    cases s with
    | decl k ty x e =>
      rw [execX] at h ⊢
      split at h
      · cases h
      · rename_i h0
        rw [if_neg h0]
        split at h
        · rename_i h1
          rw [ih.expr h1]
          dsimp only
          split at h
          · exact ih.exec h
          · cases h
        · cases h
    | assign x e =>
      rw [execX] at h ⊢
      split at h
      · rename_i h1
        rw [ih.expr h1]
        dsimp only
        split at h
        · exact ih.exec h
        · cases h
      · cases h
    | expr e =>
      rw [execX] at h ⊢
      split at h
      · rename_i h1
        rw [ih.expr h1]
        exact ih.exec h
      · cases h
    | skip => rw [execX] at h ⊢; exact ih.exec h
    | ret e =>
      cases e with
      | none => rw [execX] at h ⊢; exact h
      | some e =>
        rw [execX] at h ⊢
        split at h
        · rename_i h1
          rw [ih.expr h1]
          exact h
        · cases h
    | breaks => rw [execX] at h ⊢; exact h
    | continues => rw [execX] at h ⊢; exact h
  | ifs e t f next =>
    rw [execX] at h ⊢
    split at h
    · rename_i h1
      rw [ih.expr h1]
      dsimp only
      split at h
      · exact ih.block h
      · cases h
    · cases h
  | whiles e body next =>
    rw [execX] at h ⊢
    split at h
    · rename_i h1
      rw [ih.loop h1]
      exact ih.exec h
    · rename_i h1
      rw [ih.loop h]
      split
      · rename_i h2
        cases h2
        exact absurd h (h1 _ _)
      · rfl
  | block body next => rw [execX] at h ⊢; exact ih.block h

theorem cmonoAt (c : CRunCtx ω) : ∀ n, CMonoAt c n
  | 0 => by constructor <;> intros <;> rename_i h <;> cases h
  | n + 1 =>
    have ih := cmonoAt c n
    ⟨cmono_expr ih, cmono_args ih, cmono_call ih, cmono_exec ih, cmono_block ih, cmono_loop ih⟩

theorem runC_step {n} {w : ω} {r} (h : runC c n w = some r) : runC c (n + 1) w = some r := by
  unfold runC at h ⊢
  split at h
  · rename_i h0
    rw [if_pos h0]
    split at h
    · rename_i h1
      rw [(cmonoAt c n).call h1]
      exact h
    · cases h
  · cases h

theorem runC_mono {n n'} {w : ω} {r} (h : runC c n w = some r) (hn : n ≤ n') : runC c n' w = some r := by
  induction hn with
  | refl => exact h
  | step _ ih => exact runC_step ih

end

end Skull
