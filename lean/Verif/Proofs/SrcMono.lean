import Verif.Spec.Run
/-
More steps give the same result.
-/
namespace Skull
open Spec

section
variable {ω : Type} {c : RunCtx ω}

structure MonoAt (c : RunCtx ω) (n : Nat) : Prop where
  expr : ∀ {e L S r}, evalE c n e L S = some r → evalE c (n + 1) e L S = some r
  args : ∀ {as L S r}, evalA c n as L S = some r → evalA c (n + 1) as L S = some r
  call : ∀ {id vs S r}, callF c n id vs S = some r → callF c (n + 1) id vs S = some r
  exec : ∀ {top ch t L S r}, execT c n top ch t L S = some r → execT c (n + 1) top ch t L S = some r
  andThen : ∀ {top child next L S r}, andThen c n top child next L S = some r → andThen c (n + 1) top child next L S = some r
  loop : ∀ {top e child L S r}, loopW c n top e child L S = some r → loopW c (n + 1) top e child L S = some r

theorem mono_expr {n} (ih : MonoAt c n) {e L S r} (h : evalE c (n + 1) e L S = some r) : evalE c (n + 1 + 1) e L S = some r := by
  rw [evalE.eq_def] at h ⊢
  dsimp only at h ⊢
  cases e with
  | ident => exact h
  | const => exact h
  | call t args id ty =>
    dsimp only at h ⊢
    split at h
    · rename_i h1
      rw [ih.args h1]
      exact ih.call h
    · cases h
  | un o r ty k =>
    dsimp only at h ⊢
    split at h
    · rename_i h1
      rw [ih.expr h1]
      exact h
    · cases h
  | bin o l r ty k =>
    dsimp only at h ⊢
    split at h
    · rename_i h1
      rw [ih.expr h1]
      dsimp only
      split at h
      · rename_i h2
        rw [ih.expr h2]
        exact h
      · cases h
    · cases h

theorem mono_args {n} (ih : MonoAt c n) {as L S r} (h : evalA c (n + 1) as L S = some r) : evalA c (n + 1 + 1) as L S = some r := by
  rw [evalA.eq_def] at h ⊢
  dsimp only at h ⊢
  cases as with
  | nil => exact h
  | unchecked => exact h
  | cons f e next =>
    dsimp only at h ⊢
    split at h
    · rename_i h1
      rw [ih.expr h1]
      dsimp only
      split at h
      · rename_i h2
        rw [ih.args h2]
        exact h
      · cases h
    · cases h

theorem mono_call {n} (ih : MonoAt c n) {id vs S r} (h : callF c (n + 1) id vs S = some r) : callF c (n + 1 + 1) id vs S = some r := by
  rw [callF] at h ⊢
  split at h
  · rename_i hd hs
    split at h
    · rename_i hl
      rw [if_pos hl]
      split at h
      · rename_i he
        rw [if_pos he]
        exact h
      · rename_i he
        rw [if_neg he]
        split at h
        · rename_i h1
          rw [ih.exec h1]
          exact h
        · cases h
    · cases h
  · cases h

theorem mono_andThen {n} (ih : MonoAt c n) {top child next L S r} (h : andThen c (n + 1) top child next L S = some r) :
    andThen c (n + 1 + 1) top child next L S = some r := by
  rw [andThen] at h ⊢
  split at h
  · rename_i h1
    rw [ih.exec h1]
    dsimp only
    split at h
    · exact ih.exec h
    · exact h
  · cases h

theorem mono_loop {n} (ih : MonoAt c n) {top e child L S r} (h : loopW c (n + 1) top e child L S = some r) :
    loopW c (n + 1 + 1) top e child L S = some r := by
  rw [loopW] at h ⊢
  split at h
  · rename_i h1
    rw [ih.expr h1]
    exact h
  · rename_i h1
    rw [ih.expr h1]
    dsimp only
    split at h
    · rename_i h2
      rw [ih.exec h2]
      dsimp only
      split at h
      all_goals first | exact ih.loop h | exact h
    · cases h
  · cases h

theorem mono_exec {n} (ih : MonoAt c n) {top ch t L S r} (h : execT c (n + 1) top ch t L S = some r) :
    execT c (n + 1 + 1) top ch t L S = some r := by
  have branch : ∀ {e : AExpr} {child next : ATree},
      (match evalE c n e L S with
        | some (.bool true, S) => andThen c n top child (afterChain next) L S
        | some (.bool false, S) => execT c n top true next L S
        | _ => none) = some r →
      (match evalE c (n + 1) e L S with
        | some (.bool true, S) => andThen c (n + 1) top child (afterChain next) L S
        | some (.bool false, S) => execT c (n + 1) top true next L S
        | _ => none) = some r := by
    intro e child next h
    split at h
    · rename_i h1
      rw [ih.expr h1]
      exact ih.andThen h
    · rename_i h1
      rw [ih.expr h1]
      exact ih.exec h
    · cases h
  rw [execT.eq_def] at h ⊢
  dsimp only at h ⊢
  split at h
  · exact h
  · cases h
  · rename_i ann stmt tok child next
    split at h
    · exact ih.exec h
    · exact ih.exec h
    · exact ih.exec h
    · exact ih.exec h
    · exact ih.exec h
    · split at h
      · rename_i h1
        rw [ih.expr h1]
        dsimp only
        split at h
        · rename_i ht
          rw [if_pos ht]
          exact ih.exec h
        · rename_i ht
          rw [if_neg ht]
          exact ih.exec h
      · cases h
    · split at h
      · rename_i h1
        rw [ih.expr h1]
        dsimp only
        split at h
        · rename_i ht
          rw [if_pos ht]
          exact ih.exec h
        · rename_i ht
          rw [if_neg ht]
          split at h
          · rename_i hg
            rw [if_pos hg]
            exact ih.exec h
          · cases h
      · cases h
    · split at h
      · split at h
        · rename_i h1
          rw [ih.expr h1]
          exact ih.exec h
        · cases h
      · cases h
    · exact h
    · split at h
      · rename_i h1
        rw [ih.expr h1]
        exact h
      · cases h
    · exact h
    · exact h
    · exact branch h
    · split at h
      · rename_i hc
        rw [if_pos hc]
        exact branch h
      · cases h
    · split at h
      · rename_i hc
        rw [if_pos hc]
        exact ih.andThen h
      · cases h
    · split at h
      · rename_i h1
        rw [ih.loop h1]
        exact ih.exec h
      · rename_i h1
        rw [ih.loop h]
        split
        · rename_i h2
          cases h2
          exact absurd h (h1 _ _)
        · rfl
    · split at h
      · rename_i h1
        rw [ih.exec h1]
        exact ih.exec h
      · rename_i h1
        rw [ih.exec h]
        split
        · rename_i h2
          cases h2
          exact absurd h (h1 _ _)
        · rfl
    · cases h

theorem monoAt (c : RunCtx ω) : ∀ n, MonoAt c n
  | 0 => by constructor <;> intros <;> simp only [evalE, evalA, callF, execT, andThen, loopW, reduceCtorEq] at *
  | n + 1 => ⟨mono_expr (monoAt c n), mono_args (monoAt c n), mono_call (monoAt c n), mono_exec (monoAt c n), mono_andThen (monoAt c n),
      mono_loop (monoAt c n)⟩

theorem run_step {n} {w : ω} {r} (h : runProgram c n w = some r) : runProgram c (n + 1) w = some r := by
  unfold runProgram at h ⊢
  split at h
  · rename_i h1
    rw [(monoAt c n).exec h1]
    exact h
  · rename_i h1
    rw [(monoAt c n).exec h1]
    exact h
  · cases h

/-- A program has at most one result. -/
theorem run_mono {n n'} {w : ω} {r} (h : runProgram c n w = some r) (hn : n ≤ n') : runProgram c n' w = some r := by
  induction hn with
  | refl => exact h
  | step _ ih => exact run_step ih

end
end Skull
