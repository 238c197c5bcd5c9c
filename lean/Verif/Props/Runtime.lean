import Verif.Proofs.Runtime
/-
C52 and C53: the run time functions of compiled programs, in the C text of the C back end and in the IR of the LLVM back end.
-/
namespace Skull

/-! ### C52: integer power -/

/-- C52 as stated, for the C text: the result is the power modulo 2^64. -/
def C52_full : Prop :=
  ∀ (b : Int) (e : Nat), inI64 b = true → (e : Int) < 2 ^ 63 → ∃ v, cIntPow b e = .done v ∧ (v - b ^ e) % 2 ^ 64 = 0

/-- C52 is false: `2 ^ 0` is computed as 2. -/
theorem C52_false : ¬ C52_full := by
  intro h
  obtain ⟨v, hv, h2⟩ := h 2 0 (by decide) (by decide)
  have : cIntPow 2 ((0 : Nat) : Int) = .done 2 := by decide
  rw [this] at hv
  injection hv with hv
  subst hv
  exact absurd h2 (by decide)

/-- C52 is also false for positive exponents: an overflow is undefined instead of wrapping. -/
theorem C52_false_overflow : inI64 2 = true ∧ cIntPow 2 63 = .ub := by decide +kernel

/-- C52 for positive exponents: the power if it is an `int64_t`, and otherwise (exactly then) signed overflow. -/
theorem C52_power_partial (b : Int) (e : Nat) (hb : -(2 ^ 63 : Int) ≤ b ∧ b < 2 ^ 63) (h1 : 1 ≤ e) (he : e < 2 ^ 63) :
    (-(2 ^ 63 : Int) ≤ b ^ e ∧ b ^ e < 2 ^ 63 → cIntPow b e = .done (b ^ e)) ∧
    (¬ (-(2 ^ 63 : Int) ≤ b ^ e ∧ b ^ e < 2 ^ 63) → cIntPow b e = .ub) := by
  have h := cIntPow_pos b e (by omega) h1 ((inI64_iff b).2 hb)
  constructor
  · intro hr
    rw [h, if_pos ((inI64_iff _).2 hr)]
  · intro hr
    rw [h, if_neg (fun hc => hr ((inI64_iff _).1 hc))]

/-- C52 for the other exponents: the base itself is returned, whatever the exponent. -/
theorem C52_nonpositive_partial (b e : Int) (he : e ≤ 0) : cIntPow b e = .done b := cIntPow_nonpos b e (by omega)

/-- C52: the function always stops. -/
theorem C52_terminates (b e : Int) (hb : -(2 ^ 63 : Int) ≤ b ∧ b < 2 ^ 63) (he : -(2 ^ 63 : Int) ≤ e ∧ e < 2 ^ 63) :
    cIntPow b e ≠ .timeout := by
  rcases Int.lt_or_le 0 e with h | h
  · obtain ⟨n, rfl⟩ := Int.eq_ofNat_of_zero_le (Int.le_of_lt h)
    have := C52_power_partial b n hb (by omega) (by omega)
    by_cases hr : -(2 ^ 63 : Int) ≤ b ^ n ∧ b ^ n < 2 ^ 63
    · rw [this.1 hr]; simp
    · rw [this.2 hr]; simp
  · rw [C52_nonpositive_partial b e h]; simp

/-- C52 for the LLVM back end: the function in shim.ll returns what the C text returns, and overflows when it overflows. -/
theorem C52_shim (b e : Int) (hb : -(2 ^ 63 : Int) ≤ b ∧ b < 2 ^ 63) (he : -(2 ^ 63 : Int) ≤ e ∧ e < 2 ^ 63) :
    ∃ fuel, shimCall shimIntPow fuel (.int b) (.int e) = runInt (cIntPow b e) :=
  ⟨_, shimIntPow_eq b e (C52_terminates b e hb he)⟩

example : cIntPow (-3) 3 = .done (-27) ∧ shimCall shimIntPow 20 (.int (-3)) (.int 3) = .done (.int (-27)) ∧
    cIntPow 7 0 = .done 7 := by decide +kernel

/-! ### C53: string comparison -/

/-- C53: for NUL terminated strings `s` and `t` the C text returns whether they are equal, whatever follows the terminators, also when
nothing does. -/
theorem C53_equality (s t afterS afterT : List UInt8) (hs : 0 ∉ s) (ht : 0 ∉ t) :
    cStrcmp (s ++ [0] ++ afterS) (t ++ [0] ++ afterT) = .done (decide (s = t)) := by
  simpa using cStrcmp_eq s t afterS afterT hs ht

/-- C53 for the LLVM back end. -/
theorem C53_shim (s t afterS afterT : List UInt8) (hs : 0 ∉ s) (ht : 0 ∉ t) :
    ∃ fuel, shimCall shimStrcmp fuel (.str false (s ++ [0] ++ afterS)) (.str true (t ++ [0] ++ afterT)) =
      .done (.int (if s = t then 1 else 0)) := by
  refine ⟨5 * (s ++ [0] ++ afterS).length + 9, ?_⟩
  · rw [shimStrcmp_eq, C53_equality s t afterS afterT hs ht, runBool]
    by_cases h : s = t <;> simp [h]

/-- C53: reading before a terminator would be noticed: without one the comparison is undefined. -/
example : cStrcmp [97, 98] [97, 98] = .ub ∧ cStrcmp [97, 0] [97, 0, 99] = .done true ∧ cStrcmp [97, 0] [97, 98, 0] = .done false ∧
    shimCall shimStrcmp 100 (.str false [97, 0]) (.str true [97, 0, 99]) = .done (.int 1) := by decide +kernel

end Skull
