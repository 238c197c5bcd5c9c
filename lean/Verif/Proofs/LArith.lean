import Verif.Spec.Machine
import Verif.Proofs.LStmt
import Verif.Proofs.Runtime
/-
What the code of operators computes.
-/
namespace Skull
open Spec

/-- Running `is` brings the results and the memory to others. -/
def Runs {ω : Type} (F : Floats) (ext : List Char → List Val → ω → Option (Val × ω)) (M : List LFunc) (f : Nat) (ps : List MVal)
    (is : List LInstr) (regs : Regs) (m : Mem ω) (regs' : Regs) (m' : Mem ω) : Prop :=
  ∀ rest v fin, IRun F ext M f rest regs' ps m' v fin → IRun F ext M f (is ++ rest) regs ps m v fin

section
variable {ω : Type} {F : Floats} {ext : List Char → List Val → ω → Option (Val × ω)} {M : List LFunc} {f : Nat} {ps : List MVal}

theorem Runs.nil {regs m} : Runs F ext M f ps [] regs m regs m := fun _ _ _ h => h

theorem Runs.append {is js regs m regs' m' regs'' m''} (h1 : Runs F ext M f ps is regs m regs' m')
    (h2 : Runs F ext M f ps js regs' m' regs'' m'') : Runs F ext M f ps (is ++ js) regs m regs'' m'' := by
  intro rest v fin h
  rw [List.append_assoc]
  exact h1 _ _ _ (h2 _ _ _ h)

theorem Runs.one {i regs m regs' m'} (h : step F ps regs m i = some (regs', m')) : Runs F ext M f ps [i] regs m regs' m' :=
  fun _ _ _ h' => .step h h'

theorem Runs.of_steps : ∀ {is : List LInstr} {regs m regs' m'}, steps F ps is regs m = some (regs', m') → Runs F ext M f ps is regs m regs' m'
  | [], _, _, _, _, h => by cases h; exact .nil
  | i :: is, regs, m, regs', m', h => by
    unfold steps at h
    split at h
    · rename_i h1
      exact Runs.append (is := [i]) (.one h1) (of_steps h)
    · cases h

theorem steps_append {m m' m'' : Mem ω} : ∀ {is js : List LInstr} {regs regs' regs''}, steps F ps is regs m = some (regs', m') →
    steps F ps js regs' m' = some (regs'', m'') → steps F ps (is ++ js) regs m = some (regs'', m'') := by
  intro is
  induction is generalizing m with
  | nil => intro js regs regs' regs'' h h'; cases h; exact h'
  | cons i is ih =>
    intro js regs regs' regs'' h h'
    unfold steps at h
    rw [List.cons_append]
    unfold steps
    split at h
    · rename_i h1
      exact ih h h'
    · cases h

theorem steps_one {i regs} {m : Mem ω} {regs' m'} (h : step F ps regs m i = some (regs', m')) : steps F ps [i] regs m = some (regs', m') := by
  unfold steps
  rw [h]
  rfl

end

/-- The result of an instruction numbered below `n`, or no such result. -/
def Below (n : Nat) (v : LVal) : Prop := ∀ r, v = .reg r → r < n

theorem Below.mono {n m v} (h : Below n v) (hm : n ≤ m) : Below m v := fun r hr => Nat.lt_of_lt_of_le (h r hr) hm

theorem operand_same {n : Nat} {regs regs' : Regs} {ps v} (hu : Below n v) (h : ∀ r, r < n → regs' r = regs r) :
    operand regs' ps v = operand regs ps v := by
  cases v <;> try rfl
  case reg r => exact h r (hu r rfl)

theorem operand_const {regs ps v x} (h : constVal v = some x) : operand regs ps v = some (.val x) := by
  cases v <;> simp_all [constVal, operand]

theorem const_of_operand {regs ps v x} (h : operand regs ps v = some (.val x)) (hc : v.isConstant = true) : constVal v = some x := by
  cases v <;> simp_all [constVal, operand, LVal.isConstant]

theorem Below.const {n v} (h : v.isConstant = true) : Below n v := by
  rintro r rfl
  cases h

theorem Regs.set_same {regs : Regs} {r v} : (regs.set r v) r = some v := if_pos rfl

theorem Regs.set_below {regs : Regs} {n v} : ∀ r, r < n → (regs.set n v) r = regs r := by
  intro r hr
  exact if_neg (by omega)

/-- What an operator on two values computes. -/
inductive MachOp (F : Floats) : Oper → Ty → Val → Val → Val → Prop
  | bin {o ty op x y z} : opFor o (some ty) = some op → machBin F op x y = some z → MachOp F o ty x y z
  | builtin {o ty b x y z} : opFor o (some ty) = none → builtinFor o (some ty) = some b → machBuiltin F b x y = some z → MachOp F o ty x y z
  | isnt {ty x y b} : MachOp F .is ty x y (.bool b) → MachOp F .isnt ty x y (.bool !b)

theorem pow_in_range (b : Int) : ∀ e : Nat, 1 ≤ e → inI64 (b ^ e) = true → inI64 b = true := by
  intro e he h
  rw [inI64_iff] at h ⊢
  have key : ∀ e : Nat, 1 ≤ e → b.natAbs ≤ (b ^ e).natAbs := by
    intro e he
    rw [Int.natAbs_pow]
    rcases Nat.eq_zero_or_pos b.natAbs with h0 | h0
    · rw [h0]; exact Nat.zero_le _
    · exact Nat.le_pow he
  have h2 := key e he
  by_cases hb : b = -2 ^ 63
  · subst hb; decide
  · have : (b ^ e).natAbs ≤ 2 ^ 63 := by omega
    have hlt : b.natAbs ≤ 2 ^ 63 := by omega
    rcases Nat.lt_or_ge b.natAbs (2 ^ 63) with h3 | h3
    · omega
    · -- `b = 2 ^ 63`: only its first power is this big, and it is out of range
      have hb' : b = 2 ^ 63 := by omega
      subst hb'
      have : (0 : Int) ≤ (2 ^ 63 : Int) ^ e := Int.pow_nonneg (by decide)
      omega

theorem safe_bin {F o ty x y z} (h : (safeArith F).bin o ty x y = some z) : MachOp F o ty x y z := by
  have h : (if safeBin o x y then docBin F o ty x y else none) = some z := h
  split at h
  rotate_left
  · cases h
  rename_i hs
  have isL : ∀ {b}, docIs F ty x y = some b → MachOp F .is ty x y (.bool b) := by
    intro b hb
    unfold docIs at hb
    split at hb
    · cases hb; exact .bin (op := .ieq) rfl rfl
    · cases hb; exact .bin (op := .foeq) rfl rfl
    · cases hb; exact .bin (op := .ieq) rfl rfl
    · cases hb; exact .bin (op := .ieq) rfl rfl
    · cases hb; exact .builtin (b := .strcmp) rfl rfl rfl
    · cases hb
  unfold docBin at h
  split at h
  case h_4 =>
    split at h
    · cases h
    · rename_i hb
      refine .bin (op := .sdiv) rfl ?_
      simp only [safeBin, beq_iff_eq] at hs
      simp only [machBin]
      rw [if_neg (by simp [hb, hs])]
      exact h
  case h_5 =>
    rename_i a b
    split at h
    · cases h
    · rename_i hb
      refine .bin (op := .srem) rfl ?_
      simp only [safeBin] at hs
      simp only [machBin]
      rw [if_neg]
      · unfold int64 at h
        split at h
        · exact h
        · cases h
      · rintro (h1 | h1)
        · exact hb h1
        · rw [h1] at hs; cases hs
  case h_6 =>
    rename_i a b
    split at h
    · cases h
    · refine .builtin (b := .intPow) rfl rfl ?_
      simp only [safeBin, Bool.and_eq_true, decide_eq_true_eq] at hs
      unfold int64 at h
      split at h
      · rename_i hr
        cases h
        obtain ⟨e, rfl⟩ := Int.eq_ofNat_of_zero_le (Int.le_trans (by decide) hs.1)
        simp only [Int.toNat_natCast] at hr ⊢
        have hr' := (inI64_iff _).2 hr
        have h1 : 1 ≤ e := by omega
        have := cIntPow_pos _ e hs.2 h1 (pow_in_range _ e h1 hr')
        rw [if_pos hr'] at this
        simp only [machBuiltin, this]
      · cases h
  case h_26 =>
    obtain ⟨b, hb, rfl⟩ := Option.map_eq_some_iff.1 h
    exact isL hb
  case h_27 =>
    obtain ⟨b, hb, rfl⟩ := Option.map_eq_some_iff.1 h
    exact .isnt (isL hb)
  case h_28 => cases h
  all_goals first | exact .bin rfl h | exact .builtin (b := .floatPow) rfl rfl h

theorem safe_neg {F ty x z} (h : (safeArith F).un .unaryNeg ty x = some z) :
    ∃ w, constVal (zeroFor (some ty)) = some w ∧ MachOp F .sub ty w x z := by
  have h : (if safeUn F .unaryNeg x then docUn F .unaryNeg ty x else none) = some z := h
  split at h
  · rename_i hs
    unfold docUn at h
    split at h
    · exact ⟨.int 0, rfl, .bin (op := .sub) rfl (by simpa [machBin] using h)⟩
    · rename_i a heq
      simp only [safeUn, beq_iff_eq] at hs
      rw [hs] at h
      exact ⟨.float 0, rfl, .bin (op := .fsub) rfl h⟩
    · cases ‹Oper.unaryNeg = Oper.not›
    · cases h
  · cases h

theorem safe_not {F ty x z} (h : (safeArith F).un .not ty x = some z) :
    ty = .prim .bool ∧ machBin F .xor x (.bool true) = some z := by
  have h : (if safeUn F .not x then docUn F .not ty x else none) = some z := h
  split at h
  · unfold docUn at h
    split at h
    · cases ‹Oper.not = Oper.unaryNeg›
    · cases ‹Oper.not = Oper.unaryNeg›
    · cases h; exact ⟨rfl, by simp [machBin]⟩
    · cases h
  · cases h

section
variable {ω : Type} {F : Floats} {ext : List Char → List Val → ω → Option (Val × ω)} {M : List LFunc} {f : Nat} {ps : List MVal}
  {cfg : LCfg}

/-- The code of an operation computes it. -/
theorem BinCode.steps (hf : FoldSound F cfg.fold) {op a b n is v k} (h : BinCode cfg op a b n is v k) {regs : Regs} {m : Mem ω} {x y z}
    (ha : operand regs ps a = some (.val x)) (hb : operand regs ps b = some (.val y)) (hz : machBin F op x y = some z) :
    ∃ regs', Spec.steps F ps is regs m = some (regs', m) ∧ operand regs' ps v = some (.val z) ∧ Below k v ∧ ∀ r, r < n → regs' r = regs r := by
  cases h with
  | fold h =>
    obtain ⟨h1, h2, h3, h4⟩ := hf _ _ _ _ h
    exact ⟨regs, rfl, operand_const (h4 x y z (const_of_operand ha h1) (const_of_operand hb h2) hz), .const h3, fun _ _ => rfl⟩
  | instr h =>
    refine ⟨regs.set n (.val z), steps_one ?_, Regs.set_same, ?_, Regs.set_below⟩
    · simp only [step, ha, hb, hz]
    · rintro r h; cases h; omega

/-- The code of an operator computes it. -/
theorem OpCode.steps (hf : FoldSound F cfg.fold) {o ty a b n is v k} (h : OpCode cfg o (some ty) a b n is v k) : ∀ {regs : Regs} {m : Mem ω} {x y z},
    operand regs ps a = some (.val x) → operand regs ps b = some (.val y) → MachOp F o ty x y z →
    ∃ regs', Spec.steps F ps is regs m = some (regs', m) ∧ operand regs' ps v = some (.val z) ∧ Below k v ∧ ∀ r, r < n → regs' r = regs r := by
  generalize hty : some ty = ty' at h
  induction h with
  | bin h1 h2 =>
    subst hty
    intro regs m x y z ha hb hz
    cases hz with
    | bin h3 h4 =>
      rw [h1] at h3
      cases h3
      exact h2.steps hf ha hb h4
    | builtin h3 => rw [h1] at h3; cases h3
    | isnt h3 => cases h1
  | @builtin o ty' a b n g h1 =>
    subst hty
    intro regs m x y z ha hb hz
    cases hz with
    | bin h3 h4 =>
      exfalso
      unfold builtinFor at h1
      split at h1 <;> first | cases h1; done | skip
      all_goals (rename_i heq; cases heq; cases h3)
    | builtin h3 h4 h5 =>
      rw [h1] at h4
      cases h4
      refine ⟨regs.set n (.val z), steps_one ?_, Regs.set_same, ?_, Regs.set_below⟩
      · simp only [step, ha, hb, h5]
      · rintro r h; cases h; omega
    | isnt h3 => cases h1
  | isnt h1 h2 ih =>
    subst hty
    intro regs m x y z ha hb hz
    cases hz with
    | bin h3 => cases h3
    | builtin _ h3 => cases h3
    | isnt h3 =>
      rename_i b
      obtain ⟨regs₁, r1, o1, u1, s1⟩ := ih rfl (m := m) ha hb h3
      obtain ⟨regs₂, r2, o2, u2, s2⟩ := h2.steps (m := m) hf o1 (operand_const (v := .bool true) rfl)
        (z := .bool !b) (by simp [machBin])
      refine ⟨regs₂, steps_append r1 r2, o2, u2, fun r hr => ?_⟩
      rw [s2 r (Nat.lt_of_lt_of_le hr h1.straight.le), s1 r hr]

theorem BinCode.run (hf : FoldSound F cfg.fold) {op a b n is v k} (h : BinCode cfg op a b n is v k) {regs : Regs} {m : Mem ω} {x y z}
    (ha : operand regs ps a = some (.val x)) (hb : operand regs ps b = some (.val y)) (hz : machBin F op x y = some z) :
    ∃ regs', Runs F ext M f ps is regs m regs' m ∧ operand regs' ps v = some (.val z) ∧ Below k v ∧ ∀ r, r < n → regs' r = regs r := by
  obtain ⟨regs', h1, h2⟩ := h.steps (m := m) hf ha hb hz
  exact ⟨regs', .of_steps h1, h2⟩

theorem OpCode.run (hf : FoldSound F cfg.fold) {o ty a b n is v k} (h : OpCode cfg o (some ty) a b n is v k) {regs : Regs} {m : Mem ω} {x y z}
    (ha : operand regs ps a = some (.val x)) (hb : operand regs ps b = some (.val y)) (hz : MachOp F o ty x y z) :
    ∃ regs', Runs F ext M f ps is regs m regs' m ∧ operand regs' ps v = some (.val z) ∧ Below k v ∧ ∀ r, r < n → regs' r = regs r := by
  obtain ⟨regs', h1, h2⟩ := h.steps (m := m) hf ha hb hz
  exact ⟨regs', .of_steps h1, h2⟩

end
end Skull
