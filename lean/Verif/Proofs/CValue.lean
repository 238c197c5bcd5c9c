import Verif.Spec.CValue
import Verif.Spec.Checked
import Verif.Proofs.LArith
import Verif.Proofs.CString
import Verif.Proofs.LiteralStr
/-
The value of the C form of an expression is the value of the expression.
-/
namespace Skull
open Spec Spec.C

/-- Standing for the value of an expression: integers are `long`, unless the expression is narrow. -/
def StandsFor (n : Bool) (v : Val) (c : CVal) : Prop :=
  Stands v c ∧ ∀ i, v = .int i → c = .int .long i ∨ (n = true ∧ c = .int .int i)

theorem fit_long {i : Int} (h : -(2 ^ 63 : Int) ≤ i ∧ i < 2 ^ 63) : ITy.fit .long i = some (.int .long i) := if_pos h

theorem fit_int {i : Int} (h : isInt32 i = true) : ITy.fit .int i = some (.int .int i) := by
  unfold isInt32 at h
  simp only [Bool.and_eq_true, decide_eq_true_eq] at h
  exact if_pos h

theorem int64_some {i : Int} {v : Val} (h : int64 i = some v) : v = .int i ∧ -(2 ^ 63 : Int) ≤ i ∧ i < 2 ^ 63 := by
  unfold int64 at h
  split at h
  · rename_i hr; cases h; exact ⟨rfl, hr⟩
  · cases h

theorem stands_int {n : Bool} {i : Int} {t : ITy} (h : t = .long ∨ (n = true ∧ t = .int)) : StandsFor n (.int i) (.int t i) := by
  rcases h with rfl | ⟨rfl, rfl⟩
  · exact ⟨.inr rfl, fun j hj => by cases hj; exact .inl rfl⟩
  · exact ⟨.inl rfl, fun j hj => by cases hj; exact .inr ⟨rfl, rfl⟩⟩

/-- The types of two operands and of what operators give. -/
theorem ints {n m : Bool} {a b : Int} {x y : CVal} (hx : StandsFor n (.int a) x) (hy : StandsFor m (.int b) y) :
    ∃ s t, x = .int s a ∧ y = .int t b ∧ (s = .long ∨ (n = true ∧ s = .int)) ∧ (t = .long ∨ (m = true ∧ t = .int)) ∧
      (∀ v, (s.common t).conv v = v) ∧ (s.common t = .long ∨ ((n && m) = true ∧ s.common t = .int)) := by
  rcases hx.2 a rfl with rfl | ⟨rfl, rfl⟩ <;> rcases hy.2 b rfl with rfl | ⟨rfl, rfl⟩
  · exact ⟨_, _, rfl, rfl, .inl rfl, .inl rfl, fun _ => rfl, .inl rfl⟩
  · exact ⟨_, _, rfl, rfl, .inl rfl, .inr ⟨rfl, rfl⟩, fun _ => rfl, .inl rfl⟩
  · exact ⟨_, _, rfl, rfl, .inr ⟨rfl, rfl⟩, .inl rfl, fun _ => rfl, .inl rfl⟩
  · exact ⟨_, _, rfl, rfl, .inr ⟨rfl, rfl⟩, .inr ⟨rfl, rfl⟩, fun _ => rfl, .inr ⟨rfl, rfl⟩⟩

/-- Arithmetic in one of the two types. -/
theorem fits {n m : Bool} {u : ITy} {i : Int} (hu : u = .long ∨ ((n && m) = true ∧ u = .int)) (h64 : -(2 ^ 63 : Int) ≤ i ∧ i < 2 ^ 63)
    (h32 : (!(n && m) || isInt32 i) = true) : u.fit i = some (.int u i) := by
  rcases hu with rfl | ⟨h, rfl⟩
  · exact fit_long h64
  · rw [h] at h32
    exact fit_int (by simpa using h32)

/-- Whether the C text of an operation can have the type `int`. -/
def narrowOp (n m : Bool) : Oper → Bool
  | .add | .sub | .mult | .div | .mod => n && m
  | .lshift | .rshift => n
  | _ => false

theorem stands_truth {n : Bool} {b : Bool} : StandsFor n (.bool b) (.truth b) := ⟨.inr rfl, fun _ h => by cases h⟩

theorem stands_dbl {n : Bool} {b : Nat} : StandsFor n (.float b) (.dbl b) := ⟨rfl, fun _ h => by cases h⟩

theorem bools {n m : Bool} {a b : Bool} {x y : CVal} (hx : StandsFor n (.bool a) x) (hy : StandsFor m (.bool b) y) :
    ∃ s t, x = .int s (if a then 1 else 0) ∧ y = .int t (if b then 1 else 0) ∧ (s.common t) = .int := by
  rcases hx.1 with rfl | rfl <;> rcases hy.1 with rfl | rfl <;> exact ⟨_, _, rfl, rfl, rfl⟩

theorem runes {n m : Bool} {a b : Nat} {x y : CVal} (hx : StandsFor n (.rune a) x) (hy : StandsFor m (.rune b) y) :
    ∃ s t, x = .int s a ∧ y = .int t b ∧ (s.common t).conv a = a ∧ (s.common t).conv b = b := by
  obtain ⟨hx, ha⟩ := hx.1
  obtain ⟨hy, hb⟩ := hy.1
  have h1 : ITy.conv .uint a = a := Int.emod_eq_of_lt (by omega) (by omega)
  have h2 : ITy.conv .uint b = b := Int.emod_eq_of_lt (by omega) (by omega)
  rcases hx with rfl | rfl <;> rcases hy with rfl | rfl
  · exact ⟨_, _, rfl, rfl, rfl, rfl⟩
  · exact ⟨_, _, rfl, rfl, h1, h2⟩
  · exact ⟨_, _, rfl, rfl, h1, h2⟩
  · exact ⟨_, _, rfl, rfl, h1, h2⟩

theorem floats {n m : Bool} {a b : Nat} {x y : CVal} (hx : StandsFor n (.float a) x) (hy : StandsFor m (.float b) y) :
    x = .dbl a ∧ y = .dbl b := ⟨hx.1, hy.1⟩

theorem is_value {F ty x y b n m cx cy} (hz : docIs F ty x y = some b) (hty : ty ≠ .prim .str) (hx : StandsFor n x cx)
    (hy : StandsFor m y cy) : binVal F ['=', '='] cx cy = some (.truth b) ∧ binVal F ['!', '='] cx cy = some (.truth !b) := by
  unfold docIs at hz
  split at hz
  · cases hz
    obtain ⟨s, t, rfl, rfl, _, _, hc, _⟩ := ints hx hy
    simp [binVal, intVal, hc]
  · cases hz
    obtain ⟨rfl, rfl⟩ := floats hx hy
    simp [binVal, dblVal]
  · cases hz
    rename_i a b
    obtain ⟨s, t, rfl, rfl, hc⟩ := bools hx hy
    cases a <;> cases b <;> simp [binVal, intVal, hc, ITy.conv]
  · cases hz
    obtain ⟨s, t, rfl, rfl, h1, h2⟩ := runes hx hy
    rename_i a b
    have : ((a : Int) = b) ↔ a = b := by omega
    simp only [binVal, intVal, h1, h2]
    have h3 : decide ((a : Int) = b) = decide (a = b) := decide_eq_decide.2 this
    simp [h3]
  · exact absurd rfl hty
  · cases hz

theorem bin_value {F o p ty x y z n m cx cy} (hz : docBin F o ty x y = some z) (hop : (o, p) ∈ operOf) (ha : o ≠ .and) (ho : o ≠ .or)
    (hty : o = .is ∨ o = .isnt → ty ≠ .prim .str) (hs : safeBinC n m o x y = true) (hx : StandsFor n x cx) (hy : StandsFor m y cy) :
    ∃ cz, binVal F p.toList cx cy = some cz ∧ StandsFor (narrowOp n m o) z cz := by
  simp only [operOf, List.mem_cons, Prod.mk.injEq, List.not_mem_nil, or_false] at hop
  unfold docBin at hz
  split at hz
  case h_1 | h_2 | h_3 =>
    obtain ⟨s, t, rfl, rfl, _, _, hc, hu⟩ := ints hx hy
    obtain ⟨rfl, h64⟩ := int64_some hz
    simp only [safeBinC] at hs
    have hf := fits hu h64 hs
    obtain rfl : p = _ := by simpa using hop
    refine ⟨_, ?_, stands_int hu⟩
    simp only [binVal, intVal, hc]
    simpa using hf
  case h_4 =>
    split at hz
    · cases hz
    · rename_i hb
      obtain ⟨s, t, rfl, rfl, _, _, hc, hu⟩ := ints hx hy
      obtain ⟨rfl, h64⟩ := int64_some hz
      simp only [safeBinC] at hs
      have hf := fits hu h64 hs
      obtain rfl : p = _ := by simpa using hop
      refine ⟨_, ?_, stands_int hu⟩
      simp only [binVal, intVal, hc]
      simpa [hb] using hf
  case h_5 =>
    split at hz
    · cases hz
    · rename_i hb
      obtain ⟨s, t, rfl, rfl, _, _, hc, hu⟩ := ints hx hy
      obtain ⟨rfl, h64⟩ := int64_some hz
      simp only [safeBinC, Bool.and_eq_true] at hs
      obtain ⟨hs1, hs2⟩ := hs
      obtain ⟨w, hw⟩ := Option.isSome_iff_exists.1 hs1
      have hw := (int64_some hw).2
      have hq := fits hu hw (by
        cases hnm : (n && m)
        · rfl
        · rw [hnm] at hs2; simpa using (by simpa using hs2 : _ ∧ _).1)
      have hf := fits hu h64 (by
        cases hnm : (n && m)
        · rfl
        · rw [hnm] at hs2; simpa using (by simpa using hs2 : _ ∧ _).2)
      obtain rfl : p = _ := by simpa using hop
      refine ⟨_, ?_, stands_int hu⟩
      simp only [binVal, intVal, hc]
      simpa [hb, hq] using hf
  case h_6 => simp at hop
  case h_7 =>
    split at hz
    · rename_i a b hb
      cases hz
      obtain ⟨s, t, rfl, rfl, hn, _, _, _⟩ := ints hx hy
      simp only [safeBinC, Bool.and_eq_true, decide_eq_true_eq] at hs
      obtain ⟨h0, hs⟩ := hs
      obtain rfl : p = _ := by simpa using hop
      have hpos : 0 ≤ a * 2 ^ b.toNat := Int.mul_nonneg h0 (Int.pow_nonneg (by decide))
      rcases hn with rfl | ⟨rfl, rfl⟩
      · have hlt : a * 2 ^ b.toNat < 2 ^ 63 := by
          cases n
          · simpa using hs
          · simp only [if_true, Bool.and_eq_true, decide_eq_true_eq, isInt32] at hs
            omega
        refine ⟨_, ?_, stands_int (.inl rfl)⟩
        have : wrap64 (a * 2 ^ b.toNat) = a * 2 ^ b.toNat := by unfold wrap64; omega
        simp [binVal, intVal, ITy.promote, ITy.bits, hb, h0, this]
        exact fit_long (by omega)
      · simp only [if_true, Bool.and_eq_true, decide_eq_true_eq] at hs
        have h32 := fit_int hs.2
        have hr := hs.2
        simp only [isInt32, Bool.and_eq_true, decide_eq_true_eq] at hr
        refine ⟨_, ?_, stands_int (.inr ⟨rfl, rfl⟩)⟩
        have : wrap64 (a * 2 ^ b.toNat) = a * 2 ^ b.toNat := by unfold wrap64; omega
        simp [binVal, intVal, ITy.promote, ITy.bits, hb, hs.1, h0, this]
        exact h32
    · cases hz
  case h_8 =>
    split at hz
    · rename_i a b hb
      cases hz
      obtain ⟨s, t, rfl, rfl, hn, _, _, _⟩ := ints hx hy
      simp only [safeBinC, Bool.and_eq_true, decide_eq_true_eq] at hs
      obtain ⟨⟨h0, h63⟩, hs⟩ := hs
      obtain rfl : p = _ := by simpa using hop
      have hle : a / 2 ^ b.toNat ≤ a := Int.ediv_le_self _ h0
      have hge : 0 ≤ a / 2 ^ b.toNat := Int.ediv_nonneg h0 (Int.pow_nonneg (by decide))
      have hm : a % 2 ^ 64 = a := Int.emod_eq_of_lt h0 (by omega)
      have : wrap64 (a % 2 ^ 64 / 2 ^ b.toNat) = a / 2 ^ b.toNat := by rw [hm]; unfold wrap64; omega
      rw [this]
      rcases hn with rfl | ⟨rfl, rfl⟩
      · exact ⟨.int .long (a / 2 ^ b.toNat), by simp [binVal, intVal, ITy.promote, ITy.bits, hb], stands_int (.inl rfl)⟩
      · exact ⟨.int .int (a / 2 ^ b.toNat), by simp_all [binVal, intVal, ITy.promote, ITy.bits], stands_int (.inr ⟨rfl, rfl⟩)⟩
    · cases hz
  case h_9 | h_10 | h_11 | h_12 =>
    cases hz
    obtain ⟨s, t, rfl, rfl, _, _, hc, hu⟩ := ints hx hy
    obtain rfl : p = _ := by simpa using hop
    refine ⟨_, ?_, stands_truth⟩
    simp [binVal, intVal, hc]
  case h_13 | h_14 | h_15 | h_16 =>
    cases hz
    obtain ⟨rfl, rfl⟩ := floats hx hy
    obtain rfl : p = _ := by simpa using hop
    refine ⟨_, ?_, stands_dbl⟩
    simp [binVal, dblVal]
  case h_17 => cases hs
  case h_18 => simp at hop
  case h_19 | h_20 | h_21 | h_22 =>
    cases hz
    obtain ⟨rfl, rfl⟩ := floats hx hy
    obtain rfl : p = _ := by simpa using hop
    refine ⟨_, ?_, stands_truth⟩
    simp [binVal, dblVal]
  case h_23 => exact absurd rfl ha
  case h_24 => exact absurd rfl ho
  case h_25 =>
    cases hz
    rename_i a b
    obtain ⟨s, t, rfl, rfl, hc⟩ := bools hx hy
    obtain rfl : p = _ := by simpa using hop
    refine ⟨_, ?_, stands_truth⟩
    cases a <;> cases b <;> simp [binVal, intVal, hc, ITy.conv] <;> decide
  case h_26 =>
    obtain ⟨b, hb, rfl⟩ := Option.map_eq_some_iff.1 hz
    obtain rfl : p = _ := by simpa using hop
    exact ⟨_, (is_value hb (hty (.inl rfl)) hx hy).1, stands_truth⟩
  case h_27 =>
    obtain ⟨b, hb, rfl⟩ := Option.map_eq_some_iff.1 hz
    obtain rfl : p = _ := by simpa using hop
    exact ⟨_, (is_value hb (hty (.inr rfl)) hx hy).2, stands_truth⟩
  case h_28 => cases hz

/- ### Constants -/

theorem chars_denotes {t : List Char} {s : List Nat} (h : C.Denotes t s) : ∀ n, t.length ≤ n → value.chars n t = some s := by
  induction h with
  | nil => intro n _; cases n <;> rfl
  | @cons t c r cs h1 h2 ih =>
    intro n hn
    have hl : r.length < t.length := by
      rcases strChar_len h1 with ⟨c, rfl, _⟩ | h
      · simp
      · omega
    match t, n with
    | [], _ => simp at hl
    | _ :: _, 0 => simp at hn
    | a :: t, n + 1 =>
      unfold value.chars
      rw [h1]
      simp only
      rw [ih n (by omega)]
      rfl

theorem digit_not_L : isDigit 'L' = false := by decide

theorem dec_value {dbl n text} (h : DecConst n text) : ∃ t, numVal dbl text = some (.int t n) ∧ (t = .long ∨ (n < 2 ^ 31 ∧ t = .int)) := by
  obtain ⟨digits, suffix, rfl, hs, hne, hd, h0, rfl, hlt⟩ := h
  have hall : digits.all isDigit = true := List.all_eq_true.2 hd
  have hc : digits ≠ [] ∧ digits.all isDigit = true ∧ (digits.head? = some '0' → digits = ['0']) := ⟨hne, hall, h0⟩
  rcases hs with rfl | rfl
  · rw [List.append_nil]
    simp only [numVal]
    rw [if_pos hc]
    simp only [hlt, if_true]
    split
    · exact ⟨_, rfl, .inr ⟨by assumption, rfl⟩⟩
    · exact ⟨_, rfl, .inl rfl⟩
  · have : (digits ++ ['L']).all isDigit = false := by simp [digit_not_L]
    refine ⟨.long, ?_, .inl rfl⟩
    simp only [numVal, this, Bool.false_eq_true, false_and, and_false, if_false, List.getLast?_append, List.getLast?_singleton,
      Option.some_or, if_true, List.dropLast_concat]
    rw [if_pos hc]
    simp only [hlt, if_true]

theorem hex_value {dbl r text} (h : HexConst r text) (hr : r < 2 ^ 31) : numVal dbl text = some (.int .int r) := by
  obtain ⟨digits, rfl, hne, hd, rfl⟩ := h
  have hall : digits.all isHexDigit = true := List.all_eq_true.2 hd
  have h1 : ('0' :: 'x' :: digits).all isDigit = false := by
    simp only [List.all_cons]
    have : isDigit 'x' = false := by decide
    simp [this]
  have h2 : ('0' :: 'x' :: digits).getLast? ≠ some 'L' := by
    intro h
    have : digits.getLast? = some 'L' := by
      cases digits with
      | nil => exact absurd rfl hne
      | cons a l => simpa [List.getLast?_cons_cons] using h
    have := hd _ (List.mem_of_getLast? this)
    exact absurd this (by decide)
  simp only [numVal, h1, Bool.false_eq_true, false_and, and_false, if_false, h2, ne_eq, hne, not_false_eq_true, hall, and_self,
    if_true, hr]

theorem const_value {fmtA E tok v c} (h : ReadsConst fmtA v c) (hw : ConstOk tok v) (hF : FloatTexts fmtA E (.const tok v)) :
    ∃ x, value E c = some x ∧ StandsFor (narrow (.const tok v)) (.ofConst v) x := by
  cases h with
  | @int n text h =>
    obtain ⟨t, h1, h2⟩ := dec_value (dbl := E.dbl) h
    refine ⟨_, by simp only [value, h1], stands_int (h2.imp id fun h2 => ⟨?_, h2.2⟩)⟩
    simp only [narrow, Bool.and_eq_true, decide_eq_true_eq]
    omega
  | @neg n text h =>
    obtain ⟨t, h1, h2⟩ := dec_value (dbl := E.dbl) h
    obtain ⟨_, _, _, _, _, _, _, _, hlt⟩ := h
    simp only [value, h1]
    rcases h2 with rfl | ⟨h2, rfl⟩
    · refine ⟨.int .long (-n), ?_, stands_int (.inl rfl)⟩
      simp only [unVal, if_true, ITy.promote]
      exact fit_long (by omega)
    · refine ⟨.int .int (-n), ?_, stands_int (.inr ⟨?_, rfl⟩)⟩
      · simp only [unVal, if_true, ITy.promote]
        exact fit_int (by simp only [isInt32, Bool.and_eq_true, decide_eq_true_eq]; omega)
      · simp only [narrow, Bool.and_eq_true, decide_eq_true_eq]
        omega
  | zero => exact ⟨_, by simp only [value]; exact (hF 0 (by simp [AExpr.values])).1 rfl, stands_dbl⟩
  | @float bits h =>
    rcases (hF bits (by simp [AExpr.values])).2 with ⟨_, h1⟩ | ⟨t, _, h1, _⟩
    · exact ⟨_, by simp only [value]; exact h1, stands_dbl⟩
    · exact absurd h1 (h t)
  | @negFloat bits text h =>
    rcases (hF bits (by simp [AExpr.values])).2 with ⟨h1, _⟩ | ⟨t, b, h1, h2, rfl⟩
    · exact absurd h (h1 _)
    · rw [h] at h1
      cases h1
      exact ⟨_, by simp only [value, h2, unVal, if_true], stands_dbl⟩
  | true => exact ⟨.int .int 1, by rfl, .inr rfl, fun _ h => by cases h⟩
  | false => exact ⟨.int .int 0, by rfl, .inr rfl, fun _ h => by cases h⟩
  | @rune r text h =>
    have hr : r < 2 ^ 31 := by
      have : isScalar r = true := hw
      rcases (isScalar_iff r).1 this with h | ⟨h1, h2⟩ <;> omega
    exact ⟨_, by simp only [value]; exact hex_value h hr, ⟨.inl rfl, by omega⟩, fun _ h => by cases h⟩
  | @str s text h =>
    exact ⟨_, by simp only [value, chars_denotes h _ (Nat.le_refl _)]; rfl, rfl, fun _ h => by cases h⟩

/- ### Expressions -/

theorem un_value {F o p ty x z n cx} (hz : docUn F o ty x = some z) (hop : (o, p) ∈ prefixOf)
    (hs : ∀ a, o = .unaryNeg → x = .int a → (!n || isInt32 (-a)) = true) (hx : StandsFor n x cx) :
    ∃ cz, unVal F p.toList cx = some cz ∧ StandsFor (n && o = .unaryNeg) z cz := by
  simp only [prefixOf, List.mem_cons, Prod.mk.injEq, List.not_mem_nil, or_false] at hop
  unfold docUn at hz
  split at hz
  · rename_i a
    obtain ⟨rfl, h64⟩ := int64_some hz
    obtain rfl : p = _ := by simpa using hop
    have hs := hs a rfl rfl
    rcases hx.2 a rfl with rfl | ⟨rfl, rfl⟩
    · refine ⟨.int .long (-a), ?_, stands_int (.inl rfl)⟩
      simp [unVal, ITy.promote]
      exact fit_long h64
    · refine ⟨.int .int (-a), ?_, stands_int (.inr ⟨rfl, rfl⟩)⟩
      simp [unVal, ITy.promote]
      exact fit_int (by simpa using hs)
  · cases hz
    obtain rfl : p = _ := by simpa using hop
    cases hx.1
    exact ⟨_, by simp [unVal], stands_dbl⟩
  · rename_i a
    cases hz
    obtain rfl : p = _ := by simpa using hop
    rcases hx.1 with rfl | rfl
    · exact ⟨.truth !a, by cases a <;> simp [unVal], stands_truth⟩
    · exact ⟨.truth !a, by cases a <;> simp [unVal], stands_truth⟩
  · cases hz

theorem nonzero_bool {n b x} (h : StandsFor n (.bool b) x) : x.nonzero = some b := by
  rcases h.1 with rfl | rfl <;> cases b <;> rfl

theorem narrow_bin {o l r ty k} : narrow (.bin o l r ty k) = narrowOp (narrow l) (narrow r) o := by
  cases o <;> rfl

theorem narrow_un {o r ty k} : narrow (.un o r ty k) = (narrow r && decide (o = .unaryNeg)) := by
  cases o <;> simp [narrow]

theorem doc_pow_int {F x y v} (h : docBin F .pow (.prim .int) x y = some v) : ∃ a b, x = .int a ∧ y = .int b ∧ int64 (a ^ b.toNat) = some v := by
  cases x <;> cases y <;> simp only [docBin] at h <;> first | (cases h; done) | skip
  split at h
  · cases h
  · exact ⟨_, _, rfl, rfl, h⟩

theorem doc_pow_float {F x y v} (h : docBin F .pow (.prim .float) x y = some v) :
    ∃ a b, x = .float a ∧ y = .float b ∧ v = .float (F.pow a b) := by
  cases x <;> cases y <;> simp only [docBin] at h <;> first | (cases h; done) | skip
  cases h
  exact ⟨_, _, rfl, rfl, rfl⟩

theorem doc_is_str {F x y b} (h : docIs F (.prim .str) x y = some b) : ∃ s t, x = .str s ∧ y = .str t ∧ b = decide (s = t) := by
  cases x <;> cases y <;> simp only [docIs] at h <;> first | (cases h; done) | skip
  cases h
  exact ⟨_, _, rfl, rfl, rfl⟩

/-- The value of the C form of an expression. -/
theorem reads_value {syms fmtA ρ E e c} (h : Reads syms fmtA e c) : WtE syms e → Agree syms ρ E e → FloatTexts fmtA E e →
    safeC E.floats ρ e = true → ∀ {v}, valueE (docArith E.floats) ρ e = some v → ∃ x, value E c = some x ∧ StandsFor (narrow e) v x := by
  induction h using Reads.rec (motive_2 := fun _ _ _ => True) with
  | paren _ ih => exact fun h1 h2 h3 h4 v h5 => by simp only [value]; exact ih h1 h2 h3 h4 h5
  | @ident tok id ty k sym hs =>
    intro hw ha _ _ v hv
    have := ha id (by simp [Spec.AExpr.idents]) sym v hs hv
    cases v with
    | int i => exact ⟨_, this, stands_int (.inl rfl)⟩
    | bool b => exact ⟨_, this, .inl rfl, fun _ h => by cases h⟩
    | rune r => exact ⟨_, this.1, ⟨.inr rfl, this.2⟩, fun _ h => by cases h⟩
    | float b => exact ⟨_, this, stands_dbl⟩
    | str s => exact ⟨_, this, rfl, fun _ h => by cases h⟩
    | unit => exact this.elim
  | const h =>
    intro hw _ hF _ v hv
    cases hv
    cases hw with
    | const hk => exact const_value h hk hF
  | call => intro _ _ _ _ v hv; cases hv
  | @un o p r c ty k hop h ih =>
    intro hw ha hF hs v hv
    simp only [valueE] at hv
    split at hv
    · rename_i x hx
      simp only [safeC, Bool.and_eq_true] at hs
      have hwr : WtE syms r := by cases hw <;> assumption
      obtain ⟨cx, h1, h2⟩ := ih hwr ha hF hs.1 hx
      have hs' := hs.2
      rw [hx] at hs'
      obtain ⟨cz, h3, h4⟩ := un_value hv hop (fun a ho hxa => by subst ho hxa; exact hs') h2
      refine ⟨cz, by simp only [value, h1, h3], ?_⟩
      rw [narrow_un]
      exact h4
    · cases hv
  | @bin o p l r cl cr ty k hop hstr hl hr ihl ihr =>
    intro hw ha hF hs v hv
    simp only [valueE] at hv
    split at hv
    · rename_i x y hx hy
      simp only [safeC, Bool.and_eq_true] at hs
      have hs' := hs.2
      rw [hx, hy] at hs'
      cases hw with
      | bin w1 w2 w3 w4 w5 =>
        have ha1 : Agree syms ρ E l := fun id hid => ha id (by simp [Spec.AExpr.idents, hid])
        have ha2 : Agree syms ρ E r := fun id hid => ha id (by simp [Spec.AExpr.idents, hid])
        have hF1 : FloatTexts fmtA E l := fun bits hb => hF bits (by simp [AExpr.values, hb])
        have hF2 : FloatTexts fmtA E r := fun bits hb => hF bits (by simp [AExpr.values, hb])
        obtain ⟨cx, h1, h2⟩ := ihl w1 ha1 hF1 hs.1.1 hx
        obtain ⟨cy, h3, h4⟩ := ihr w2 ha2 hF2 hs.1.2 hy
        rw [narrow_bin]
        by_cases hand : o = .and ∨ o = .or
        · have hb : ∃ a b, x = .bool a ∧ y = .bool b ∧ (o = .and ∧ v = .bool (a && b) ∨ o = .or ∧ v = .bool (a || b)) := by
            have hv : docBin E.floats o r.type x y = some v := hv
            unfold docBin at hv
            split at hv <;> simp_all
          obtain ⟨a, b, rfl, rfl, hb⟩ := hb
          have n1 := nonzero_bool h2
          have n2 := nonzero_bool h4
          simp only [operOf, List.mem_cons, Prod.mk.injEq, List.not_mem_nil, or_false] at hop
          rcases hb with ⟨rfl, rfl⟩ | ⟨rfl, rfl⟩
          · obtain rfl : p = _ := by simpa using hop
            refine ⟨.truth (a && b), ?_, stands_truth⟩
            simp only [value, h1, h3, n1, n2]
            cases a <;> simp
          · obtain rfl : p = _ := by simpa using hop
            refine ⟨.truth (a || b), ?_, stands_truth⟩
            simp only [value, h1, h3, n1, n2]
            cases a <;> simp
        · rw [not_or] at hand
          obtain ⟨cz, h5, h6⟩ := bin_value hv hop hand.1 hand.2 (fun ho => by rw [← w3]; exact hstr ho) hs' h2 h4
          refine ⟨cz, ?_, h6⟩
          have np : p.toList ≠ ['&', '&'] ∧ p.toList ≠ ['|', '|'] := by
            simp only [operOf, List.mem_cons, Prod.mk.injEq, List.not_mem_nil, or_false] at hop
            rcases hop with ⟨rfl, rfl⟩ | ⟨rfl, rfl⟩ | ⟨rfl, rfl⟩ | ⟨rfl, rfl⟩ | ⟨rfl, rfl⟩ | ⟨rfl, rfl⟩ | ⟨rfl, rfl⟩ | ⟨rfl, rfl⟩ | ⟨rfl, rfl⟩ |
              ⟨rfl, rfl⟩ | ⟨rfl, rfl⟩ | ⟨rfl, rfl⟩ | ⟨rfl, rfl⟩ | ⟨rfl, rfl⟩ | ⟨rfl, rfl⟩ | ⟨rfl, rfl⟩ <;>
              first | exact ⟨by decide, by decide⟩ | exact absurd rfl hand.1 | exact absurd rfl hand.2
          simp only [value, h1, h3, if_neg np.1, if_neg np.2, h5]
    · cases hv
  | @strIs l r cl cr ty k ht hl hr ihl ihr =>
    intro hw ha hF hs v hv
    simp only [valueE] at hv
    split at hv
    · rename_i x y hx hy
      simp only [safeC, Bool.and_eq_true] at hs
      have hs' := hs.2
      rw [hx, hy] at hs'
      cases hw with
      | bin w1 w2 w3 w4 w5 =>
        have ha1 : Agree syms ρ E l := fun id hid => ha id (by simp [Spec.AExpr.idents, hid])
        have ha2 : Agree syms ρ E r := fun id hid => ha id (by simp [Spec.AExpr.idents, hid])
        have hF1 : FloatTexts fmtA E l := fun bits hb => hF bits (by simp [AExpr.values, hb])
        have hF2 : FloatTexts fmtA E r := fun bits hb => hF bits (by simp [AExpr.values, hb])
        obtain ⟨cx, h1, h2⟩ := ihl w1 ha1 hF1 hs.1.1 hx
        obtain ⟨cy, h3, h4⟩ := ihr w2 ha2 hF2 hs.1.2 hy
        rw [← w3, ht] at hv
        obtain ⟨b, hb, rfl⟩ := Option.map_eq_some_iff.1 (show (docIs E.floats (.prim .str) x y).map _ = some v from hv)
        obtain ⟨a, b, rfl, rfl, rfl⟩ := doc_is_str hb
        cases h2.1
        cases h4.1
        refine ⟨.int .bool (if a = b then 1 else 0), ?_, .inl ?_, fun _ h => by cases h⟩
        · simp only [value, h1, h3, runTime, if_true]
        · by_cases hab : a = b <;> simp [hab]
    · cases hv
  | @strIsnt l r cl cr ty k ht hl hr ihl ihr =>
    intro hw ha hF hs v hv
    simp only [valueE] at hv
    split at hv
    · rename_i x y hx hy
      simp only [safeC, Bool.and_eq_true] at hs
      have hs' := hs.2
      rw [hx, hy] at hs'
      cases hw with
      | bin w1 w2 w3 w4 w5 =>
        have ha1 : Agree syms ρ E l := fun id hid => ha id (by simp [Spec.AExpr.idents, hid])
        have ha2 : Agree syms ρ E r := fun id hid => ha id (by simp [Spec.AExpr.idents, hid])
        have hF1 : FloatTexts fmtA E l := fun bits hb => hF bits (by simp [AExpr.values, hb])
        have hF2 : FloatTexts fmtA E r := fun bits hb => hF bits (by simp [AExpr.values, hb])
        obtain ⟨cx, h1, h2⟩ := ihl w1 ha1 hF1 hs.1.1 hx
        obtain ⟨cy, h3, h4⟩ := ihr w2 ha2 hF2 hs.1.2 hy
        rw [← w3, ht] at hv
        obtain ⟨b, hb, rfl⟩ := Option.map_eq_some_iff.1 (show (docIs E.floats (.prim .str) x y).map _ = some v from hv)
        obtain ⟨a, b, rfl, rfl, rfl⟩ := doc_is_str hb
        cases h2.1
        cases h4.1
        refine ⟨.truth !(a = b), ?_, stands_truth⟩
        simp only [value, h1, h3, runTime, if_true, unVal]
        by_cases hab : a = b <;> simp [hab]
    · cases hv
  | @intPow l r cl cr k hl hr ihl ihr =>
    intro hw ha hF hs v hv
    simp only [valueE] at hv
    split at hv
    · rename_i x y hx hy
      simp only [safeC, Bool.and_eq_true] at hs
      have hs' := hs.2
      rw [hx, hy] at hs'
      cases hw with
      | bin w1 w2 w3 w4 w5 =>
        have ha1 : Agree syms ρ E l := fun id hid => ha id (by simp [Spec.AExpr.idents, hid])
        have ha2 : Agree syms ρ E r := fun id hid => ha id (by simp [Spec.AExpr.idents, hid])
        have hF1 : FloatTexts fmtA E l := fun bits hb => hF bits (by simp [AExpr.values, hb])
        have hF2 : FloatTexts fmtA E r := fun bits hb => hF bits (by simp [AExpr.values, hb])
        obtain ⟨cx, h1, h2⟩ := ihl w1 ha1 hF1 hs.1.1 hx
        obtain ⟨cy, h3, h4⟩ := ihr w2 ha2 hF2 hs.1.2 hy
        have ht : r.type = .prim .int := by
          unfold binType at w4
          split at w4 <;> simp_all [Int', Float', Bool']
        rw [ht] at hv
        have hv : docBin E.floats .pow (.prim .int) x y = some v := hv
        obtain ⟨a, b, rfl, rfl, hi⟩ := doc_pow_int hv
        obtain ⟨rfl, hr⟩ := int64_some hi
        simp only [safeBinC, Bool.and_eq_true, decide_eq_true_eq] at hs'
        obtain ⟨e, rfl⟩ := Int.eq_ofNat_of_zero_le (Int.le_trans (by decide) hs'.1)
        simp only [Int.toNat_natCast] at hr ⊢
        have hr' := (inI64_iff _).2 hr
        have he : 1 ≤ e := by omega
        have hp := cIntPow_pos _ e hs'.2 he (pow_in_range _ e he hr')
        rw [if_pos hr'] at hp
        obtain ⟨s, t, rfl, rfl, _⟩ := ints h2 h4
        exact ⟨.int .long (a ^ e), by simp only [value, h1, h3, runTime, if_true, hp], stands_int (.inl rfl)⟩
    · cases hv
  | @floatPow l r cl cr k hl hr ihl ihr =>
    intro hw ha hF hs v hv
    simp only [valueE] at hv
    split at hv
    · rename_i x y hx hy
      simp only [safeC, Bool.and_eq_true] at hs
      have hs' := hs.2
      rw [hx, hy] at hs'
      cases hw with
      | bin w1 w2 w3 w4 w5 =>
        have ha1 : Agree syms ρ E l := fun id hid => ha id (by simp [Spec.AExpr.idents, hid])
        have ha2 : Agree syms ρ E r := fun id hid => ha id (by simp [Spec.AExpr.idents, hid])
        have hF1 : FloatTexts fmtA E l := fun bits hb => hF bits (by simp [AExpr.values, hb])
        have hF2 : FloatTexts fmtA E r := fun bits hb => hF bits (by simp [AExpr.values, hb])
        obtain ⟨cx, h1, h2⟩ := ihl w1 ha1 hF1 hs.1.1 hx
        obtain ⟨cy, h3, h4⟩ := ihr w2 ha2 hF2 hs.1.2 hy
        have ht : r.type = .prim .float := by
          unfold binType at w4
          split at w4 <;> simp_all [Int', Float', Bool']
        rw [ht] at hv
        have hv : docBin E.floats .pow (.prim .float) x y = some v := hv
        obtain ⟨a, b, rfl, rfl, rfl⟩ := doc_pow_float hv
        obtain ⟨rfl, rfl⟩ := floats h2 h4
        exact ⟨.dbl (E.floats.pow a b), by simp only [value, h1, h3, runTime, if_true], stands_dbl⟩
    · cases hv
  | nil => trivial
  | cons => trivial

end Skull
