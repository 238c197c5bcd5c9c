import Verif.Model.Runtime
/-
Lemmas on the run time functions.
-/
set_option linter.unusedSimpArgs false
namespace Skull

/-! ### Strings -/

theorem cStrcmp_eq (s t ra rb : List UInt8) (hs : 0 ∉ s) (ht : 0 ∉ t) :
    cStrcmp (s ++ 0 :: ra) (t ++ 0 :: rb) = .done (decide (s = t)) := by
  induction s generalizing t with
  | nil =>
    cases t with
    | nil => simp [cStrcmp, derefByte]
    | cons y t => simp only [List.mem_cons, not_or] at ht; simp [cStrcmp, derefByte, Ne.symm ht.1]
  | cons x s ih =>
    simp only [List.mem_cons, not_or] at hs
    cases t with
    | nil => simp [cStrcmp, derefByte, Ne.symm hs.1]
    | cons y t =>
      simp only [List.mem_cons, not_or] at ht
      by_cases hxy : x = y
      · subst hxy
        simp [cStrcmp, derefByte, Ne.symm hs.1, ih t hs.2 ht.2]
      · simp [cStrcmp, derefByte, Ne.symm hs.1, Ne.symm ht.1, hxy]

/-! ### Powers -/

theorem inI64_iff (v : Int) : inI64 v = true ↔ -(2 ^ 63 : Int) ≤ v ∧ v < (2 ^ 63 : Int) := by
  simp [inI64]

theorem not_inI64_pow (b : Int) (n m : Nat) (h : inI64 (b ^ n) = false) (hnm : n ≤ m) : inI64 (b ^ m) = false := by
  have h1 : 2 ^ 63 ≤ (b ^ n).natAbs := by
    have h' : ¬ (inI64 (b ^ n) = true) := by simp [h]
    rw [inI64_iff] at h'
    omega
  obtain ⟨k, rfl⟩ := Nat.exists_eq_add_of_le hnm
  cases k with
  | zero => exact h
  | succ k =>
    have hb : 2 ≤ b.natAbs := by
      rw [Int.natAbs_pow] at h1
      rcases Nat.lt_or_ge b.natAbs 2 with h2 | h2
      · have h3 : b.natAbs ^ n ≤ 1 ^ n := Nat.pow_le_pow_left (by omega) n
        rw [Nat.one_pow] at h3
        omega
      · exact h2
    have h4 : 2 ^ 64 ≤ (b ^ (n + (k + 1))).natAbs := by
      rw [Int.natAbs_pow, Nat.pow_add, Nat.pow_succ b.natAbs k]
      rw [Int.natAbs_pow] at h1
      have h5 : 0 < b.natAbs ^ k := Nat.pow_pos (by omega)
      have h6 : 1 * 2 ≤ b.natAbs ^ k * b.natAbs := Nat.mul_le_mul h5 hb
      have h7 := Nat.mul_le_mul h1 h6
      omega
    cases hc : inI64 (b ^ (n + (k + 1))) with
    | false => rfl
    | true =>
      rw [inI64_iff] at hc
      omega

theorem cIntPowLoop_eq (b : Int) (e : Nat) (he : (e : Int) < 2 ^ 63) (fuel i : Nat) (hi : 1 ≤ i) (hie : i ≤ e) (hf : e - i < fuel)
    (hr : inI64 (b ^ i) = true) :
    cIntPowLoop b e fuel i (b ^ i) = if inI64 (b ^ e) then .done (b ^ e) else .ub := by
  induction fuel generalizing i with
  | zero => omega
  | succ fuel ih =>
    rw [cIntPowLoop]
    by_cases hlt : i < e
    · rw [if_pos (by omega)]
      have hpow : b ^ i * b = b ^ (i + 1) := (Int.pow_succ b i).symm
      rw [hpow]
      by_cases hok : inI64 (b ^ (i + 1)) = true
      · rw [if_pos hok, if_pos (by rw [inI64_iff]; omega)]
        have := ih (i + 1) (by omega) (by omega) (by omega) hok
        simpa using this
      · have hno : inI64 (b ^ (i + 1)) = false := by simpa using hok
        rw [if_neg hok, if_neg]
        rw [not_inI64_pow b (i + 1) e hno (by omega)]
        simp
    · have : i = e := by omega
      subst this
      rw [if_neg (by omega), if_pos hr]

theorem cIntPow_pos (b : Int) (e : Nat) (he : (e : Int) < 2 ^ 63) (h1 : 1 ≤ e) (hb : inI64 b = true) :
    cIntPow b e = if inI64 (b ^ e) then .done (b ^ e) else .ub := by
  have h := cIntPowLoop_eq b e he (e + 1) 1 (Nat.le_refl _) h1 (by omega) (by rw [Int.pow_succ]; simpa using hb)
  rw [Int.pow_succ] at h
  simpa [cIntPow] using h

theorem cIntPow_nonpos (b e : Int) (h : e ≤ 1) : cIntPow b e = .done b := by
  rw [cIntPow, cIntPowLoop, if_neg (by omega)]

/-! ### The IR -/

/-- The registers that hold the addresses of the slots, and the slots' contents, in `_int_pow`. -/
structure PowState (s : ShimState) (b e r i : Int) : Prop where
  r3 : s.regs 3 = some (.slot 3)
  r4 : s.regs 4 = some (.slot 4)
  r5 : s.regs 5 = some (.slot 5)
  r6 : s.regs 6 = some (.slot 6)
  s3 : s.slots 3 = some (.int b)
  s4 : s.slots 4 = some (.int e)
  s5 : s.slots 5 = some (.int r)
  s6 : s.slots 6 = some (.int i)

theorem findPow8 : shimIntPow.find? (fun b => b.label == 8) =
    some ⟨8, [.load 9 6, .load 10 4, .icmpSlt 11 (.reg 9) (.reg 10)], .condBr 11 12 19⟩ := by decide
theorem findPow12 : shimIntPow.find? (fun b => b.label == 12) =
    some ⟨12, [.load 13 3, .load 14 5, .mulNsw 15 (.reg 14) (.reg 13), .store (.reg 15) 5], .br 16⟩ := by decide
theorem findPow16 : shimIntPow.find? (fun b => b.label == 16) =
    some ⟨16, [.load 17 6, .addNsw 18 (.reg 17) (.const 1), .store (.reg 18) 6], .br 8⟩ := by decide
theorem findPow19 : shimIntPow.find? (fun b => b.label == 19) = some ⟨19, [.load 20 5], .ret 20⟩ := by decide
theorem findPow2 : shimIntPow.find? (fun b => b.label == 2) =
    some ⟨2, [.alloca 3, .alloca 4, .alloca 5, .alloca 6, .store (.reg 0) 3, .store (.reg 1) 4, .load 7 3, .store (.reg 7) 5,
      .store (.const 1) 6], .br 8⟩ := by decide

/-- What the IR returns when the C text returns. -/
def runInt : Run Int → Run ShimVal
  | .done v => .done (.int v)
  | .ub => .ub
  | .timeout => .timeout

theorem powLoop_sim (b e : Int) (fuel : Nat) (i r : Int) (prev : Nat) (s : ShimState) (h : PowState s b e r i)
    (ht : cIntPowLoop b e fuel i r ≠ .timeout) :
    shimRun shimIntPow (3 * fuel + 2) prev 8 s = runInt (cIntPowLoop b e fuel i r) := by
  induction fuel generalizing i r prev s with
  | zero => exact absurd rfl ht
  | succ fuel ih =>
    obtain ⟨r3, r4, r5, r6, s3, s4, s5, s6⟩ := h
    rw [cIntPowLoop] at ht ⊢
    have e1 : 3 * (fuel + 1) + 2 = (3 * fuel + 4) + 1 := by omega
    have e2 : 3 * fuel + 4 = (3 * fuel + 3) + 1 := by omega
    rw [e1, shimRun, findPow8]
    by_cases hlt : i < e
    · rw [if_pos hlt] at ht ⊢
      simp only [shimBody, shimStep, ShimState.set, setAt, r3, r4, r5, r6, s3, s4, s5, s6, shimInts, shimOp, hlt, if_true, if_false,
        Nat.reduceEqDiff, ne_eq, not_true, not_false_eq_true, Int.reduceEq]
      rw [e2, shimRun, findPow12]
      simp only [shimBody, shimStep, ShimState.set, setAt, r3, r4, r5, r6, s3, s4, s5, s6, shimInts, shimOp, hlt, if_true, if_false,
        Nat.reduceEqDiff]
      by_cases h1 : inI64 (r * b) = true
      · simp only [h1, if_true] at ht ⊢
        simp only [shimBody, shimStep, ShimState.set, setAt, r3, r4, r5, r6, s3, s4, s5, s6, shimInts, shimOp, if_true, if_false,
          Nat.reduceEqDiff]
        rw [shimRun, findPow16]
        simp only [shimBody, shimStep, ShimState.set, setAt, r3, r4, r5, r6, s3, s4, s5, s6, shimInts, shimOp, if_true, if_false,
          Nat.reduceEqDiff]
        by_cases h2 : inI64 (i + 1) = true
        · simp only [h2, if_true] at ht ⊢
          simp only [shimBody, shimStep, ShimState.set, setAt, r3, r4, r5, r6, s3, s4, s5, s6, shimInts, shimOp, if_true, if_false,
            Nat.reduceEqDiff]
          apply ih _ _ _ _ _ ht
          constructor <;> simp [setAt, r3, r4, r5, r6, s3, s4]
        · simp only [h2] at ht ⊢
          simp [runInt]
      · simp only [h1] at ht ⊢
        simp [runInt]
    · rw [if_neg hlt] at ht ⊢
      simp only [shimBody, shimStep, ShimState.set, setAt, r3, r4, r5, r6, s3, s4, s5, s6, shimInts, shimOp, hlt, if_true, if_false,
        Nat.reduceEqDiff, ne_eq, not_true, not_false_eq_true, Int.reduceEq]
      rw [e2, shimRun, findPow19]
      simp only [shimBody, shimStep, ShimState.set, setAt, r3, r4, r5, r6, s3, s4, s5, s6, if_true, if_false,
        Nat.reduceEqDiff, runInt]

theorem shimIntPow_eq (b e : Int) (h : cIntPow b e ≠ .timeout) :
    shimCall shimIntPow (3 * (e.toNat + 1) + 3) (.int b) (.int e) = runInt (cIntPow b e) := by
  rw [shimCall, shimRun, findPow2]
  simp only [shimBody, shimStep, ShimState.set, setAt, shimOp, if_true, if_false, Nat.reduceEqDiff]
  apply powLoop_sim _ _ _ _ _ _ _ _ h
  constructor <;> simp [setAt]

/-- The registers that hold the addresses of the slots, and the slots' contents, in `_strcmp`. -/
structure CmpState (s : ShimState) (a b : List UInt8) : Prop where
  r3 : s.regs 3 = some (.slot 3)
  r4 : s.regs 4 = some (.slot 4)
  r5 : s.regs 5 = some (.slot 5)
  s4 : s.slots 4 = some (.str false a)
  s5 : s.slots 5 = some (.str true b)

theorem signedByte_inj (x y : UInt8) : signedByte x = signedByte y ↔ x = y := by
  constructor
  · intro h
    have hx := x.toNat_lt
    have hy := y.toNat_lt
    apply UInt8.toNat_inj.1
    unfold signedByte at h
    split at h <;> split at h <;> omega
  · rintro rfl; rfl

theorem signedByte_zero (x : UInt8) : signedByte x = 0 ↔ x = 0 := by
  have := signedByte_inj x 0
  simpa [signedByte] using this

/-- What the IR returns when the C text returns. -/
def runBool : Run Bool → Run ShimVal
  | .done v => .done (.int (if v then 1 else 0))
  | .ub => .ub
  | .timeout => .timeout

/-- Blocks 43: the result is in slot 3. -/
theorem cmp43 (fuel prev : Nat) (s : ShimState) (v : ShimVal) (h3 : s.regs 3 = some (.slot 3)) (hv : s.slots 3 = some v) :
    shimRun shimStrcmp (fuel + 1) prev 43 s = .done v := by
  rw [shimRun]
  simp [shimStrcmp, shimBody, shimStep, ShimState.set, setAt, h3, hv]

theorem cmp41_32 (fuel : Nat) (s : ShimState) (h3 : s.regs 3 = some (.slot 3)) :
    shimRun shimStrcmp (fuel + 2) 32 41 s = .done (.int 0) := by
  rw [show fuel + 2 = (fuel + 1) + 1 from rfl, shimRun]
  simp only [shimStrcmp, List.find?, Nat.reduceBEq, shimBody, shimStep, ShimState.set, setAt, h3, List.lookup, shimOp, if_true,
    if_false, Nat.reduceEqDiff, BEq.rfl]
  apply cmp43 <;> simp [setAt, h3]

theorem cmp41_36 (fuel : Nat) (s : ShimState) (v : ShimVal) (h3 : s.regs 3 = some (.slot 3)) (h40 : s.regs 40 = some v) :
    shimRun shimStrcmp (fuel + 2) 36 41 s = .done v := by
  rw [show fuel + 2 = (fuel + 1) + 1 from rfl, shimRun]
  simp only [shimStrcmp, List.find?, Nat.reduceBEq, shimBody, shimStep, ShimState.set, setAt, h3, h40, List.lookup, shimOp, if_true,
    if_false, Nat.reduceEqDiff, BEq.rfl]
  apply cmp43 <;> simp [setAt, h3]

/-- Blocks 32, 36, 41: `!*a && !*b`. -/
theorem cmp32 (fuel prev : Nat) (s : ShimState) (a b : List UInt8) (h : CmpState s a b) (x : UInt8) (ra : List UInt8)
    (ha : a = x :: ra) :
    shimRun shimStrcmp (fuel + 4) prev 32 s =
      if x ≠ 0 then .done (.int 0) else
        match derefByte b with
        | none => .ub
        | some y => .done (.int (if y = 0 then 1 else 0)) := by
  obtain ⟨r3, r4, r5, s4, s5⟩ := h
  subst ha
  rw [show fuel + 4 = (fuel + 3) + 1 from rfl, shimRun]
  simp only [shimStrcmp, List.find?, Nat.reduceBEq, shimBody, shimStep, ShimState.set, setAt, r4, r5, s4, s5, shimInts, shimOp, if_true,
    if_false, Nat.reduceEqDiff, BEq.rfl]
  by_cases hx : x = 0
  · subst hx
    simp only [signedByte_zero, ne_eq, not_true, if_false]
    rw [show fuel + 3 = (fuel + 2) + 1 from rfl]
    rw [shimRun]
    simp only [List.find?, Nat.reduceBEq, shimBody, shimStep, ShimState.set, setAt, r4, r5, s4, s5, shimInts, shimOp, if_true,
      if_false, Nat.reduceEqDiff, BEq.rfl]
    cases b with
    | nil => rfl
    | cons y rb =>
      simp only [derefByte, shimInts, shimOp, setAt, if_true, if_false, Nat.reduceEqDiff]
      rw [← shimStrcmp.eq_1]
      rw [cmp41_36 fuel _ _ (by simp [setAt, r3]) (by simp only [setAt, if_true]; rfl)]
      by_cases hy : y = 0
      · subst hy; simp [signedByte_zero]
      · simp [signedByte_zero, hy]
  · have : signedByte x ≠ 0 := fun h => hx ((signedByte_zero x).1 h)
    simp only [ne_eq, this, not_false_eq_true, if_true, hx, Int.reduceEq, Int.one_ne_zero]
    rw [← shimStrcmp.eq_1]
    rw [show fuel + 3 = (fuel + 1) + 2 from rfl]
    exact cmp41_32 (fuel + 1) _ (by simp [setAt, r3])

theorem cmp16_6 (fuel : Nat) (s : ShimState) :
    shimRun shimStrcmp (fuel + 1) 6 16 s = shimRun shimStrcmp fuel 16 32 (s.set 17 (.int 0)) := by
  rw [shimRun]
  simp [shimStrcmp, List.find?, shimBody, shimStep, ShimState.set, setAt, List.lookup, shimOp]

theorem cmp16_11 (fuel : Nat) (s : ShimState) (v : Int) (h : s.regs 15 = some (.int v)) :
    shimRun shimStrcmp (fuel + 1) 11 16 s = shimRun shimStrcmp fuel 16 (if v ≠ 0 then 18 else 32) (s.set 17 (.int v)) := by
  rw [shimRun]
  simp [shimStrcmp, List.find?, shimBody, shimStep, ShimState.set, setAt, List.lookup, shimOp, h]

theorem cmp27 (fuel prev : Nat) (s : ShimState) (x y : UInt8) (a b : List UInt8) (h : CmpState s (x :: a) (y :: b)) :
    ∃ s', CmpState s' a b ∧ shimRun shimStrcmp (fuel + 1) prev 27 s = shimRun shimStrcmp fuel 27 6 s' := by
  obtain ⟨r3, r4, r5, s4, s5⟩ := h
  rw [shimRun]
  simp only [shimStrcmp, List.find?, Nat.reduceBEq, shimBody, shimStep, ShimState.set, setAt, r4, r5, s4, s5, shimOp, if_true,
    if_false, Nat.reduceEqDiff, BEq.rfl]
  refine ⟨_, ?_, rfl⟩
  constructor <;> simp [setAt, r3, r4, r5]

theorem cmp26 (fuel prev : Nat) (s : ShimState) (h3 : s.regs 3 = some (.slot 3)) :
    shimRun shimStrcmp (fuel + 2) prev 26 s = .done (.int 0) := by
  rw [show fuel + 2 = (fuel + 1) + 1 from rfl, shimRun]
  simp only [shimStrcmp, List.find?, Nat.reduceBEq, shimBody, shimStep, ShimState.set, setAt, h3, shimOp, if_true,
    if_false, Nat.reduceEqDiff, BEq.rfl]
  apply cmp43 <;> simp [setAt, h3]

/-- Block 18: compare the two bytes. -/
theorem cmp18 (fuel prev : Nat) (s : ShimState) (x y : UInt8) (a b : List UInt8) (h : CmpState s (x :: a) (y :: b)) :
    ∃ s', CmpState s' (x :: a) (y :: b) ∧
      shimRun shimStrcmp (fuel + 1) prev 18 s = shimRun shimStrcmp fuel 18 (if x ≠ y then 26 else 27) s' := by
  obtain ⟨r3, r4, r5, s4, s5⟩ := h
  rw [shimRun]
  simp only [shimStrcmp, List.find?, Nat.reduceBEq, shimBody, shimStep, ShimState.set, setAt, r4, r5, s4, s5, shimOp, shimInts, if_true,
    if_false, Nat.reduceEqDiff, BEq.rfl]
  by_cases hxy : x = y
  · subst hxy
    simp only [ne_eq, not_true, if_false]
    refine ⟨_, ?_, rfl⟩
    constructor <;> simp [setAt, r3, r4, r5, s4, s5]
  · have : signedByte x ≠ signedByte y := fun h => hxy ((signedByte_inj x y).1 h)
    simp only [ne_eq, this, hxy, not_false_eq_true, if_true, Int.one_ne_zero]
    refine ⟨_, ?_, rfl⟩
    constructor <;> simp [setAt, r3, r4, r5, s4, s5]

/-- Block 11: read `*b`. -/
theorem cmp11 (fuel prev : Nat) (s : ShimState) (a b : List UInt8) (h : CmpState s a b) :
    match derefByte b with
    | none => shimRun shimStrcmp (fuel + 1) prev 11 s = .ub
    | some y => ∃ s', CmpState s' a b ∧ s'.regs 15 = some (.int (if y ≠ 0 then 1 else 0)) ∧
        shimRun shimStrcmp (fuel + 1) prev 11 s = shimRun shimStrcmp fuel 11 16 s' := by
  obtain ⟨r3, r4, r5, s4, s5⟩ := h
  rw [shimRun]
  cases b with
  | nil =>
    simp [derefByte, shimStrcmp, List.find?, shimBody, shimStep, ShimState.set, setAt, r4, r5, s4, s5]
  | cons y b =>
    simp only [derefByte, shimStrcmp, List.find?, Nat.reduceBEq, shimBody, shimStep, ShimState.set, setAt, r4, r5, s4, s5, shimOp, shimInts,
      if_true, if_false, Nat.reduceEqDiff, BEq.rfl]
    refine ⟨_, ?_, ?_, rfl⟩
    · constructor <;> simp [setAt, r3, r4, r5, s4, s5]
    · by_cases hy : y = 0
      · subst hy; simp [setAt, signedByte_zero]
      · simp [setAt, signedByte_zero, hy]

/-- Block 6: read `*a`. -/
theorem cmp6 (fuel prev : Nat) (s : ShimState) (a b : List UInt8) (h : CmpState s a b) :
    match derefByte a with
    | none => shimRun shimStrcmp (fuel + 1) prev 6 s = .ub
    | some x => ∃ s', CmpState s' a b ∧
        shimRun shimStrcmp (fuel + 1) prev 6 s = shimRun shimStrcmp fuel 6 (if x ≠ 0 then 11 else 16) s' := by
  obtain ⟨r3, r4, r5, s4, s5⟩ := h
  rw [shimRun]
  cases a with
  | nil =>
    simp [derefByte, shimStrcmp, List.find?, shimBody, shimStep, ShimState.set, setAt, r4, r5, s4, s5]
  | cons x a =>
    simp only [derefByte, shimStrcmp, List.find?, Nat.reduceBEq, shimBody, shimStep, ShimState.set, setAt, r4, r5, s4, s5, shimOp, shimInts,
      if_true, if_false, Nat.reduceEqDiff, BEq.rfl]
    by_cases hx : x = 0
    · subst hx
      simp only [signedByte_zero, ne_eq, not_true, if_false]
      refine ⟨_, ?_, rfl⟩
      constructor <;> simp [setAt, r3, r4, r5, s4, s5]
    · have : signedByte x ≠ 0 := fun h => hx ((signedByte_zero x).1 h)
      simp only [ne_eq, this, hx, not_false_eq_true, if_true, Int.one_ne_zero]
      refine ⟨_, ?_, rfl⟩
      constructor <;> simp [setAt, r3, r4, r5, s4, s5]

theorem CmpState.set17 {s : ShimState} {a b : List UInt8} (h : CmpState s a b) (v : ShimVal) : CmpState (s.set 17 v) a b := by
  obtain ⟨r3, r4, r5, s4, s5⟩ := h
  constructor <;> simp [ShimState.set, setAt, r3, r4, r5, s4, s5]

theorem cmpLoop_sim (a b : List UInt8) (prev : Nat) (s : ShimState) (h : CmpState s a b) :
    shimRun shimStrcmp (5 * a.length + 8) prev 6 s = runBool (cStrcmp a b) := by
  induction a generalizing b prev s with
  | nil => exact cmp6 _ _ _ _ _ h
  | cons x a ih =>
    have e1 : 5 * (x :: a).length + 8 = (5 * a.length + 12) + 1 := by simp only [List.length_cons]; omega
    rw [e1]
    obtain ⟨s1, h1, q1⟩ := cmp6 (5 * a.length + 12) prev s (x :: a) b h
    rw [q1, cStrcmp]
    by_cases hx : x = 0
    · subst hx
      simp only [ne_eq, not_true, if_false, if_true]
      rw [cmp16_6 (5 * a.length + 11), show 5 * a.length + 11 = (5 * a.length + 7) + 4 from rfl,
        cmp32 _ _ _ _ _ (h1.set17 _) 0 a rfl]
      simp only [ne_eq, not_true, if_false]
      cases derefByte b with
      | none => rfl
      | some y => by_cases hy : y = 0 <;> simp [runBool, hy]
    · simp only [ne_eq, hx, not_false_eq_true, if_true, if_false]
      have h11 := cmp11 (5 * a.length + 11) 6 s1 (x :: a) b h1
      cases hb : derefByte b with
      | none => rw [hb] at h11; rw [h11]; rfl
      | some y =>
        rw [hb] at h11
        obtain ⟨s2, h2, g2, q2⟩ := h11
        rw [q2]
        have q3 := cmp16_11 (5 * a.length + 10) s2 _ g2
        rw [q3]
        by_cases hy : y = 0
        · subst hy
          simp only [ne_eq, not_true, if_false, if_true]
          rw [show 5 * a.length + 10 = (5 * a.length + 6) + 4 from rfl, cmp32 _ _ _ _ _ (h2.set17 _) x a rfl]
          simp [hx, runBool]
        · obtain ⟨rb, rfl⟩ : ∃ rb, b = y :: rb := by
            cases b with
            | nil => cases hb
            | cons z rb => simp only [derefByte, Option.some.injEq] at hb; exact ⟨rb, by rw [hb]⟩
          simp only [ne_eq, hy, not_false_eq_true, if_true, if_false, Int.one_ne_zero]
          obtain ⟨s4, h4, q4⟩ := cmp18 (5 * a.length + 9) 16 _ x y a rb (h2.set17 _)
          rw [q4]
          by_cases hxy : x = y
          · subst hxy
            simp only [ne_eq, not_true, if_false, List.drop_succ_cons, List.drop_zero]
            obtain ⟨s5, h5, q5⟩ := cmp27 (5 * a.length + 8) 18 _ x x a rb h4
            rw [q5]
            exact ih rb 27 s5 h5
          · simp only [ne_eq, hxy, not_false_eq_true, if_true]
            rw [show 5 * a.length + 9 = (5 * a.length + 7) + 2 from rfl, cmp26 _ _ _ h4.r3]
            rfl

theorem shimStrcmp_eq (a b : List UInt8) :
    shimCall shimStrcmp (5 * a.length + 9) (.str false a) (.str true b) = runBool (cStrcmp a b) := by
  rw [shimCall, shimRun]
  simp only [shimStrcmp, List.find?, Nat.reduceBEq, shimBody, shimStep, ShimState.set, setAt, shimOp, if_true,
    if_false, Nat.reduceEqDiff, BEq.rfl]
  apply cmpLoop_sim
  constructor <;> simp [setAt]

end Skull
