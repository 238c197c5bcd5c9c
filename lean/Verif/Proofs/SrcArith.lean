import Verif.Spec.Run
/-
An arithmetic that can do more gives the same results.
-/
namespace Skull
open Spec

section
variable {ω : Type} {c : RunCtx ω} {A : Arith}

/-- `A'` can do what `A` can do. -/
structure ArithLe (A A' : Arith) : Prop where
  un : ∀ {o ty x z}, A.un o ty x = some z → A'.un o ty x = some z
  bin : ∀ {o ty x y z}, A.bin o ty x y = some z → A'.bin o ty x y = some z

/-- With another arithmetic. -/
abbrev withA (c : RunCtx ω) (A : Arith) : RunCtx ω := ⟨A, c.ext, c.syms, c.prog⟩


structure LessAt (c : RunCtx ω) (A : Arith) (n : Nat) : Prop where
  expr : ∀ {e L S r}, evalE c n e L S = some r → evalE (withA c A) n e L S = some r
  args : ∀ {as L S r}, evalA c n as L S = some r → evalA (withA c A) n as L S = some r
  call : ∀ {id vs S r}, callF c n id vs S = some r → callF (withA c A) n id vs S = some r
  exec : ∀ {top ch t L S r}, execT c n top ch t L S = some r → execT (withA c A) n top ch t L S = some r
  andThen : ∀ {top child next L S r}, andThen c n top child next L S = some r → andThen (withA c A) n top child next L S = some r
  loop : ∀ {top e child L S r}, loopW c n top e child L S = some r → loopW (withA c A) n top e child L S = some r

theorem less_expr {n} (hA : ArithLe c.arith A) (ih : LessAt c A n) {e L S r} (h : evalE c (n + 1) e L S = some r) : evalE (withA c A) (n + 1) e L S = some r := by
  rw [evalE.eq_def] at h ⊢
  dsimp only at h ⊢
  cases e with
  | ident => exact h
  | const => exact h
  | call t args id ty =>
    dsimp only at h ⊢
    split at h
    · rename_i h1
      rw [ih.args h1]
      exact ih.call h
    · cases h
  | un o r ty k =>
    dsimp only at h ⊢
    split at h
    · rename_i h1
      rw [ih.expr h1]
      split at h
      · rename_i h2
        dsimp only
        rw [hA.un h2]
        exact h
      · cases h
    · cases h
  | bin o l r ty k =>
    dsimp only at h ⊢
    split at h
    · rename_i h1
      rw [ih.expr h1]
      dsimp only
      split at h
      · rename_i h2
        rw [ih.expr h2]
        split at h
        · rename_i h3
          dsimp only
          rw [hA.bin h3]
          exact h
        · cases h
      · cases h
    · cases h

theorem less_args {n} (ih : LessAt c A n) {as L S r} (h : evalA c (n + 1) as L S = some r) : evalA (withA c A) (n + 1) as L S = some r := by
  rw [evalA.eq_def] at h ⊢
  dsimp only at h ⊢
  cases as with
  | nil => exact h
  | unchecked => exact h
  | cons f e next =>
    dsimp only at h ⊢
    split at h
    · rename_i h1
      rw [ih.expr h1]
      dsimp only
      split at h
      · rename_i h2
        rw [ih.args h2]
        exact h
      · cases h
    · cases h

theorem less_call {n} (ih : LessAt c A n) {id vs S r} (h : callF c (n + 1) id vs S = some r) : callF (withA c A) (n + 1) id vs S = some r := by
  rw [callF] at h ⊢
  dsimp only [withA] at ⊢
  split at h
  · rename_i hd hs
    split at h
    · rename_i hl
      rw [if_pos hl]
      split at h
      · rename_i he
        rw [if_pos he]
        exact h
      · rename_i he
        rw [if_neg he]
        split at h
        · rename_i h1
          rw [ih.exec h1]
          exact h
        · cases h
    · cases h
  · cases h

theorem less_andThen {n} (ih : LessAt c A n) {top child next L S r} (h : andThen c (n + 1) top child next L S = some r) :
    andThen (withA c A) (n + 1) top child next L S = some r := by
  rw [andThen] at h ⊢
  split at h
  · rename_i h1
    rw [ih.exec h1]
    dsimp only
    split at h
    · exact ih.exec h
    · exact h
  · cases h

theorem less_loop {n} (ih : LessAt c A n) {top e child L S r} (h : loopW c (n + 1) top e child L S = some r) :
    loopW (withA c A) (n + 1) top e child L S = some r := by
  rw [loopW] at h ⊢
  split at h
  · rename_i h1
    rw [ih.expr h1]
    exact h
  · rename_i h1
    rw [ih.expr h1]
    dsimp only
    split at h
    · rename_i h2
      rw [ih.exec h2]
      dsimp only
      split at h
      all_goals first | exact ih.loop h | exact h
    · cases h
  · cases h

theorem less_exec {n} (ih : LessAt c A n) {top ch t L S r} (h : execT c (n + 1) top ch t L S = some r) :
    execT (withA c A) (n + 1) top ch t L S = some r := by
  have branch : ∀ {e : AExpr} {child next : ATree},
      (match evalE c n e L S with
        | some (.bool true, S) => andThen c n top child (afterChain next) L S
        | some (.bool false, S) => execT c n top true next L S
        | _ => none) = some r →
      (match evalE (withA c A) n e L S with
        | some (.bool true, S) => andThen (withA c A) n top child (afterChain next) L S
        | some (.bool false, S) => execT (withA c A) n top true next L S
        | _ => none) = some r := by
    intro e child next h
    split at h
    · rename_i h1
      rw [ih.expr h1]
      exact ih.andThen h
    · rename_i h1
      rw [ih.expr h1]
      exact ih.exec h
    · cases h
  rw [execT.eq_def] at h ⊢
  dsimp only at h ⊢
  split at h
  · exact h
  · cases h
  · rename_i ann stmt tok child next
    split at h
    · exact ih.exec h
    · exact ih.exec h
    · exact ih.exec h
    · exact ih.exec h
    · exact ih.exec h
    · split at h
      · rename_i h1
        rw [ih.expr h1]
        dsimp only
        split at h
        · rename_i ht
          rw [if_pos ht]
          exact ih.exec h
        · rename_i ht
          rw [if_neg ht]
          exact ih.exec h
      · cases h
    · split at h
      · rename_i h1
        rw [ih.expr h1]
        dsimp only
        split at h
        · rename_i ht
          rw [if_pos ht]
          exact ih.exec h
        · rename_i ht
          rw [if_neg ht]
          split at h
          · rename_i hg
            rw [if_pos hg]
            exact ih.exec h
          · cases h
      · cases h
    · split at h
      · split at h
        · rename_i h1
          rw [ih.expr h1]
          exact ih.exec h
        · cases h
      · cases h
    · exact h
    · split at h
      · rename_i h1
        rw [ih.expr h1]
        exact h
      · cases h
    · exact h
    · exact h
    · exact branch h
    · split at h
      · rename_i hc
        rw [if_pos hc]
        exact branch h
      · cases h
    · split at h
      · rename_i hc
        rw [if_pos hc]
        exact ih.andThen h
      · cases h
    · split at h
      · rename_i h1
        rw [ih.loop h1]
        exact ih.exec h
      · rename_i h1
        rw [ih.loop h]
        split
        · rename_i h2
          cases h2
          exact absurd h (h1 _ _)
        · rfl
    · split at h
      · rename_i h1
        rw [ih.exec h1]
        exact ih.exec h
      · rename_i h1
        rw [ih.exec h]
        split
        · rename_i h2
          cases h2
          exact absurd h (h1 _ _)
        · rfl
    · cases h

theorem lessAt (hA : ArithLe c.arith A) : ∀ n, LessAt c A n
  | 0 => by constructor <;> intros <;> simp only [evalE, evalA, callF, execT, andThen, loopW, reduceCtorEq] at *
  | n + 1 => ⟨less_expr hA (lessAt hA n), less_args (lessAt hA n), less_call (lessAt hA n), less_exec (lessAt hA n), less_andThen (lessAt hA n),
      less_loop (lessAt hA n)⟩

theorem run_less (hA : ArithLe c.arith A) {n} {w : ω} {r} (h : runProgram c n w = some r) : runProgram (withA c A) n w = some r := by
  unfold runProgram at h ⊢
  split at h
  · rename_i h1
    rw [(lessAt hA n).exec h1]
    exact h
  · rename_i h1
    rw [(lessAt hA n).exec h1]
    exact h
  · cases h

theorem safe_le {F : Floats} : ArithLe (safeArith F) (docArith F) := by
  constructor
  · intro o ty x z h
    simp only [safeArith] at h
    split at h
    · exact h
    · cases h
  · intro o ty x y z h
    simp only [safeArith] at h
    split at h
    · exact h
    · cases h

end
end Skull
