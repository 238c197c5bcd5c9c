import Verif.Model.Literal
import Verif.Spec.Values
import Verif.Spec.Lexical
import Verif.Proofs.ClassifyWord
/-
Lemmas about the evaluation of literals.
-/
namespace Skull
open Skull.Spec

set_option linter.unusedSimpArgs false

/-! ### Integers -/

theorem digitVal_le (c : Char) : ∀ b1 b2 d, digitVal b1 c = some d → d < b2 → digitVal b2 c = some d := by
  intro b1 b2 d h hd
  unfold digitVal at h ⊢
  simp only at h ⊢
  split at h
  · split at h
    · simp only [Option.some.injEq] at h
      subst h
      simp_all
    · simp at h
  · simp at h

theorem le_code (a c : Char) : a ≤ c ↔ a.toNat ≤ c.toNat := by
  rw [Char.le_def, UInt32.le_iff_toNat_le]; rfl

/-- The digit tests by character codes. -/
theorem digitVal_code (b : Nat) (c : Char) : digitVal b c =
    (if 48 ≤ c.toNat ∧ c.toNat ≤ 57 then (if c.toNat - 48 < b then some (c.toNat - 48) else none)
     else if 97 ≤ c.toNat ∧ c.toNat ≤ 122 then (if c.toNat - 97 + 10 < b then some (c.toNat - 97 + 10) else none)
     else if 65 ≤ c.toNat ∧ c.toNat ≤ 90 then (if c.toNat - 65 + 10 < b then some (c.toNat - 65 + 10) else none)
     else none) := by
  unfold digitVal
  simp only [le_code, Bool.and_eq_true, decide_eq_true_eq,
    show '0'.toNat = 48 from rfl, show '9'.toNat = 57 from rfl, show 'a'.toNat = 97 from rfl,
    show 'z'.toNat = 122 from rfl, show 'A'.toNat = 65 from rfl, show 'Z'.toNat = 90 from rfl]
  by_cases h1 : 48 ≤ c.toNat ∧ c.toNat ≤ 57
  · rw [if_pos h1, if_pos h1]
  · rw [if_neg h1, if_neg h1]
    by_cases h2 : 97 ≤ c.toNat ∧ c.toNat ≤ 122
    · rw [if_pos h2, if_pos h2]
    · rw [if_neg h2, if_neg h2]
      by_cases h3 : 65 ≤ c.toNat ∧ c.toNat ≤ 90
      · rw [if_pos h3, if_pos h3]
      · rw [if_neg h3, if_neg h3]

theorem digitValue_code (c : Char) : digitValue c =
    (if 97 ≤ c.toNat ∧ c.toNat ≤ 102 then c.toNat - 97 + 10
     else if 65 ≤ c.toNat ∧ c.toNat ≤ 70 then c.toNat - 65 + 10 else c.toNat - 48) := by
  unfold digitValue
  simp only [le_code, show '0'.toNat = 48 from rfl, show 'a'.toNat = 97 from rfl,
    show 'f'.toNat = 102 from rfl, show 'A'.toNat = 65 from rfl, show 'F'.toNat = 70 from rfl]

theorem hexDigit_code (c : Char) : HexDigit c ↔ (48 ≤ c.toNat ∧ c.toNat ≤ 57) ∨ (97 ≤ c.toNat ∧ c.toNat ≤ 102) ∨
    (65 ≤ c.toNat ∧ c.toNat ≤ 70) := by
  unfold HexDigit Digit
  simp only [le_code, show '0'.toNat = 48 from rfl, show '9'.toNat = 57 from rfl, show 'a'.toNat = 97 from rfl,
    show 'f'.toNat = 102 from rfl, show 'A'.toNat = 65 from rfl, show 'F'.toNat = 70 from rfl]

theorem digit_code (c : Char) : Digit c ↔ (48 ≤ c.toNat ∧ c.toNat ≤ 57) := by
  unfold Digit
  simp only [le_code, show '0'.toNat = 48 from rfl, show '9'.toNat = 57 from rfl]

theorem octDigit_code (c : Char) : OctDigit c ↔ (48 ≤ c.toNat ∧ c.toNat ≤ 55) := by
  unfold OctDigit
  simp only [le_code, show '0'.toNat = 48 from rfl, show '7'.toNat = 55 from rfl]

theorem digitVal_hex (c : Char) (h : HexDigit c) : digitVal 16 c = some (digitValue c) ∧ digitValue c < 16 := by
  rw [hexDigit_code] at h
  rw [digitVal_code, digitValue_code]
  generalize c.toNat = n at h
  refine ⟨?_, ?_⟩ <;> (repeat' split) <;> first | rfl | (simp only [Option.some.injEq]; omega) | omega

theorem digit_value_lt (c : Char) (h : Digit c) : digitValue c < 10 := by
  rw [digit_code] at h
  rw [digitValue_code, if_neg (by omega), if_neg (by omega)]
  omega

theorem digitVal_dec (c : Char) (h : Digit c) : digitVal 10 c = some (digitValue c) :=
  digitVal_le c 16 10 _ (digitVal_hex c (.inl h)).1 (digit_value_lt c h)

theorem oct_digit (c : Char) (h : OctDigit c) : Digit c ∧ digitValue c < 8 := by
  rw [octDigit_code] at h
  rw [digit_code, digitValue_code, if_neg (by omega), if_neg (by omega)]
  omega

theorem digitVal_oct (c : Char) (h : OctDigit c) : digitVal 8 c = some (digitValue c) :=
  digitVal_le c 16 8 _ (digitVal_hex c (.inl (oct_digit c h).1)).1 (oct_digit c h).2

theorem digitVal_bin (c : Char) (h : BinDigit c) : digitVal 2 c = some (digitValue c) := by
  rcases h with rfl | rfl <;> decide

/-- Groups of digits of a base understood by `strtoll`. -/
structure BaseOk (base : Nat) (p : Char → Prop) : Prop where
  val : ∀ c, p c → digitVal base c = some (digitValue c)
  hexd : ∀ c, p c → HexDigit c
  pre : ∀ c, p c → ¬ (base = 16 ∧ (c = 'x' ∨ c = 'X')) ∧ ¬ (base = 2 ∧ (c = 'b' ∨ c = 'B'))

theorem baseDec : BaseOk 10 Digit := ⟨digitVal_dec, fun _ h => .inl h, by simp⟩
theorem baseHex : BaseOk 16 HexDigit := ⟨fun c h => (digitVal_hex c h).1, fun _ h => h, by
  intro c h
  refine ⟨?_, by simp⟩
  rintro ⟨_, rfl | rfl⟩ <;> exact absurd h (by unfold HexDigit Digit; decide)⟩
theorem baseOct : BaseOk 8 OctDigit := ⟨digitVal_oct, fun c h => .inl (oct_digit c h).1, by simp⟩
theorem baseBin : BaseOk 2 BinDigit := ⟨digitVal_bin, by
  intro c h; rcases h with rfl | rfl <;> (unfold HexDigit Digit; decide), by
  intro c h
  rcases h with rfl | rfl <;> simp⟩

theorem hex_not_us {c} (h : HexDigit c) : c ≠ '_' := by rintro rfl; exact hexdigit_us h

theorem strip_cons {stop c} (s : List Char) (h1 : some c ≠ stop) (h2 : c ≠ '_') :
    stripUnderscore stop (c :: s) = (stripUnderscore stop s).map (c :: ·) := by
  cases s <;> simp [stripUnderscore, h1, h2]

theorem strip_us {stop} (d : Char) (s : List Char) (h1 : some '_' ≠ stop) :
    stripUnderscore stop ('_' :: d :: s) = (stripUnderscore stop s).map (d :: ·) := by
  simp [stripUnderscore, h1]

/-- Stripping works group by group. -/
theorem strip_groups' {stop} {p : Char → Prop} (hp : ∀ c, p c → HexDigit c) (hs : ∀ c, HexDigit c ∨ c = '_' → some c ≠ stop)
    {s : List Char} (tail : List Char) (h : Groups p s) :
    stripUnderscore stop (s ++ tail) = (stripUnderscore stop tail).map (s.filter (· ≠ '_') ++ ·) := by
  induction h with
  | one hc =>
    have := hex_not_us (hp _ hc)
    rw [List.cons_append, strip_cons _ (hs _ (.inl (hp _ hc))) this]
    simp [this]
  | cons hc _ ih =>
    have := hex_not_us (hp _ hc)
    rw [List.cons_append, strip_cons _ (hs _ (.inl (hp _ hc))) this, ih]
    cases stripUnderscore stop tail <;> simp [this]
  | @sep c s hc hg ih =>
    have hc' := hex_not_us (hp _ hc)
    obtain ⟨d, t, rfl, hd⟩ := groups_head hg
    have hd' := hex_not_us (hp _ hd)
    rw [List.cons_append, strip_cons _ (hs _ (.inl (hp _ hd))) hd'] at ih
    rw [List.cons_append, strip_cons _ (hs _ (.inl (hp _ hc))) hc', List.cons_append, List.cons_append,
      strip_us _ _ (hs _ (.inr rfl)), ih]
    cases stripUnderscore stop tail <;> simp [hc', hd']

theorem strip_groups {p : Char → Prop} (hp : ∀ c, p c → HexDigit c) {s : List Char} (tail : List Char) (h : Groups p s) :
    stripUnderscore none (s ++ tail) = (stripUnderscore none tail).map (s.filter (· ≠ '_') ++ ·) :=
  strip_groups' hp (by simp) tail h

/-- A text that does not go on with a digit. -/
def Stops (s : List Char) : Prop := s = [] ∨ ∃ c t, s = c :: t ∧ (Blank c ∨ Delim c)

theorem digitVal_end (base : Nat) (c : Char) (h : Blank c ∨ Delim c) : digitVal base c = none := by
  simp only [Blank, Delim, List.mem_cons, List.not_mem_nil, or_false] at h
  rcases h with (rfl | rfl | rfl) | (rfl | rfl | rfl | rfl | rfl | rfl | rfl | rfl) <;> rfl

theorem readDigits_eq {base : Nat} {p : Char → Prop} (hb : BaseOk base p) (ds rest : List Char) (hd : ∀ c ∈ ds, p c)
    (hr : Stops rest) : ∀ acc, readDigits base acc (ds ++ rest) = ds.foldl (fun n c => n * base + digitValue c) acc := by
  induction ds with
  | nil =>
    intro acc
    rcases hr with rfl | ⟨c, t, rfl, hc⟩
    · rfl
    · simp [readDigits, digitVal_end base c hc]
  | cons c ds ih =>
    intro acc
    simp only [List.cons_append, readDigits, hb.val c (hd c (by simp)), List.foldl_cons]
    exact ih (fun c hc => hd c (by simp [hc])) _

theorem blank_not_prefix (c : Char) (h : Blank c ∨ Delim c) : c ≠ 'x' ∧ c ≠ 'X' ∧ c ≠ 'b' ∧ c ≠ 'B' ∧ c ≠ 'o' ∧ c ≠ '_' := by
  simp only [Blank, Delim, List.mem_cons, List.not_mem_nil, or_false] at h
  rcases h with (rfl | rfl | rfl) | (rfl | rfl | rfl | rfl | rfl | rfl | rfl | rfl) <;> decide

theorem skipPrefix_eq {base : Nat} {p : Char → Prop} (hb : BaseOk base p) (ds rest : List Char) (hd : ∀ c ∈ ds, p c)
    (hne : ds ≠ []) (hr : Stops rest) : skipPrefix base (ds ++ rest) = ds ++ rest := by
  match ds, hne with
  | c :: ds, _ =>
    match hx : ds ++ rest with
    | [] => simp [hx, skipPrefix]
    | [x] => simp [hx, skipPrefix]
    | x :: d :: t =>
      simp only [List.cons_append, hx, skipPrefix]
      have hxp : ¬ (base = 16 ∧ (x = 'x' ∨ x = 'X')) ∧ ¬ (base = 2 ∧ (x = 'b' ∨ x = 'B')) := by
        cases ds with
        | nil =>
          rcases hr with rfl | ⟨e, u, rfl, he⟩
          · simp at hx
          · simp at hx
            have := blank_not_prefix e he
            rw [← hx.1]
            simp [this]
        | cons e ds =>
          simp at hx
          rw [← hx.1]
          exact hb.pre e (hd e (by simp))
      split
      · next h =>
        simp only [Bool.and_eq_true, Bool.or_eq_true, decide_eq_true_eq] at h
        exfalso
        rcases h.1.2 with h | h
        · exact hxp.1 h
        · exact hxp.2 h
      · rfl

theorem hex_not_space {c} (h : HexDigit c) : cIsSpace c = false ∧ c ≠ '-' ∧ c ≠ '+' := by
  have hv : 48 ≤ c.toNat := by
    rw [hexDigit_code] at h
    omega
  refine ⟨?_, ?_, ?_⟩
  · simp only [cIsSpace, Bool.or_eq_false_iff, decide_eq_false_iff_not]
    refine ⟨⟨⟨⟨⟨?_, ?_⟩, ?_⟩, ?_⟩, ?_⟩, ?_⟩ <;> first | (rintro rfl; revert hv; decide) | omega
  all_goals (rintro rfl; revert hv; decide)

/-- `strtoll` on digits followed by something else. -/
theorem strtoll_pos {base : Nat} {p : Char → Prop} (hb : BaseOk base p) (ds rest : List Char) (hd : ∀ c ∈ ds, p c)
    (hne : ds ≠ []) (hr : Stops rest) :
    strtoll (ds ++ rest) base =
      (if ((ds.foldl (fun n c => n * base + digitValue c) 0 : Nat) : Int) > llongMax then (llongMax, true)
       else ((ds.foldl (fun n c => n * base + digitValue c) 0 : Nat), false)) := by
  have h1 := readDigits_eq hb ds rest hd hr 0
  have h2 := skipPrefix_eq hb ds rest hd hne hr
  match ds, hne with
  | c :: ds, _ =>
    have hc := hex_not_space (hb.hexd c (hd c (by simp)))
    simp only [strtoll, List.cons_append, List.dropWhile_cons, hc.1, hc.2.1, hc.2.2, Bool.false_eq_true, if_false]
    rw [List.cons_append] at h1 h2
    rw [h2, h1]
    generalize List.foldl _ 0 (c :: ds) = n
    have : ¬ ((n : Int) < llongMin) := by unfold llongMin; omega
    simp [this]

theorem strtoll_neg (ds : List Char) (hd : ∀ c ∈ ds, Digit c) (hne : ds ≠ []) :
    strtoll ('-' :: ds) 10 =
      (if -((ds.foldl (fun n c => n * 10 + digitValue c) 0 : Nat) : Int) < llongMin then (llongMin, true)
       else (-((ds.foldl (fun n c => n * 10 + digitValue c) 0 : Nat) : Int), false)) := by
  have h1 := readDigits_eq baseDec ds [] hd (.inl rfl) 0
  have h2 := skipPrefix_eq baseDec ds [] hd hne (.inl rfl)
  simp only [List.append_nil] at h1 h2
  have hsp : cIsSpace '-' = false := by decide
  simp only [strtoll, List.dropWhile_cons, hsp, Bool.false_eq_true, if_false, if_true, h2, h1]
  generalize List.foldl _ 0 ds = n
  have : ¬ (-(n : Int) > llongMax) := by unfold llongMax; omega
  simp [this]

theorem filter_digits {p s} (hp : ∀ c, p c → HexDigit c) (h : Groups p s) :
    (∀ c ∈ s.filter (· ≠ '_'), p c) ∧ s.filter (· ≠ '_') ≠ [] := by
  constructor
  · intro c hc
    simp only [List.mem_filter, decide_eq_true_eq] at hc
    rcases groups_mem' h c hc.1 with h | h
    · exact h
    · exact absurd h hc.2
  · obtain ⟨c, t, rfl, hc⟩ := groups_head h
    have := hex_not_us (hp _ hc)
    simp [this]

/-- The end of `eval_integer`. -/
def finishInteger (r : Int × Bool) : Ev Int :=
  if (r.1 = llongMax || r.1 = llongMin) && r.2 then .overflow else .ok r.1

theorem evalInteger_eq (text after : List Char) (l k : Nat) :
    evalInteger (word text after l k) =
      match stripUnderscore none ((integerStart (text ++ after)).1.take text.length) with
      | none => .ub
      | some num => finishInteger (strtoll num (integerStart (text ++ after)).2) := by
  rfl

theorem finish_pos (n : Nat) : finishInteger (if (n : Int) > llongMax then (llongMax, true) else ((n : Int), false)) =
    if FitsInt64 n then .ok (n : Int) else .overflow := by
  by_cases h : (n : Int) > llongMax
  · have h2 : ¬ FitsInt64 n := by unfold FitsInt64; unfold llongMax at h; omega
    rw [if_pos h, if_neg h2]; rfl
  · have h2 : FitsInt64 n := by unfold FitsInt64; unfold llongMax at h; omega
    rw [if_neg h, if_pos h2]; simp [finishInteger]

theorem finish_neg (n : Nat) : finishInteger (if -(n : Int) < llongMin then (llongMin, true) else (-(n : Int), false)) =
    if FitsInt64 (-(n : Int)) then .ok (-(n : Int)) else .overflow := by
  by_cases h : -(n : Int) < llongMin
  · have h2 : ¬ FitsInt64 (-(n : Int)) := by unfold FitsInt64; unfold llongMin at h; omega
    rw [if_pos h, if_neg h2]; rfl
  · have h2 : FitsInt64 (-(n : Int)) := by unfold FitsInt64; unfold llongMin at h; omega
    rw [if_neg h, if_pos h2]; simp [finishInteger]

/-- What `strip_underscore_num` makes of the two characters behind a literal with a base prefix. -/
theorem strip_after {after : List Char} (h : Stops after) :
    (stripUnderscore none (after.take 2) = none ∧ after[1]? = some '_') ∨
    (after[1]? ≠ some '_' ∧ ∃ r, stripUnderscore none (after.take 2) = some r ∧ Stops r) := by
  rcases h with rfl | ⟨c, t, rfl, hc⟩
  · right; exact ⟨by simp, [], rfl, .inl rfl⟩
  · have hu := (blank_not_prefix c hc).2.2.2.2.2
    match t with
    | [] =>
      right
      refine ⟨by simp, [c], ?_, .inr ⟨c, [], rfl, hc⟩⟩
      rw [show List.take 2 [c] = [c] from rfl, strip_cons _ (by simp) hu]; rfl
    | d :: t =>
      by_cases hd : d = '_'
      · left
        subst hd
        refine ⟨?_, rfl⟩
        rw [show List.take 2 (c :: '_' :: t) = [c, '_'] from rfl, strip_cons _ (by simp) hu]; rfl
      · right
        refine ⟨by simpa using hd, [c, d], ?_, .inr ⟨c, [d], rfl, hc⟩⟩
        rw [show List.take 2 (c :: d :: t) = [c, d] from rfl, strip_cons _ (by simp) hu, strip_cons _ (by simp) hd]; rfl

/-- A literal with a base prefix. -/
theorem evalInteger_prefixed {base : Nat} {p : Char → Prop} (hb : BaseOk base p) (x : Char) (s after : List Char) (l k : Nat)
    (hx : ∀ u, integerStart ('0' :: x :: u) = (u, base)) (hs : Groups p s) (ha : Stops after) :
    evalInteger (word ('0' :: x :: s) after l k) =
      if after[1]? = some '_' then .ub
      else if FitsInt64 (numeral base s) then .ok (numeral base s) else .overflow := by
  rw [evalInteger_eq]
  simp only [List.cons_append, hx]
  rw [show ('0' :: x :: s).length = s.length + 2 from rfl, List.take_append, List.take_of_length_le (by omega : s.length ≤ s.length + 2),
    show s.length + 2 - s.length = 2 by omega, strip_groups hb.hexd _ hs]
  rcases strip_after ha with ⟨h1, h2⟩ | ⟨h1, r, h2, h3⟩
  · rw [h1, if_pos h2]; rfl
  · rw [h2, if_neg h1]
    have hf := filter_digits hb.hexd hs
    simp only [Option.map_some]
    rw [strtoll_pos hb _ _ hf.1 hf.2 h3]
    exact finish_pos _

theorem integerStart_dec (s after : List Char) (h : Groups Digit s) (h0 : ¬ ∃ t, s = '0' :: '_' :: t) (ha : Stops after) :
    integerStart (s ++ after) = (s ++ after, 10) := by
  obtain ⟨c, t, rfl, hc⟩ := groups_head h
  cases hx : t ++ after with
  | nil => simp only [List.cons_append, hx]; rfl
  | cons m u =>
    simp only [List.cons_append, hx, integerStart]
    by_cases h0' : c = '0'
    · have hm : m ≠ 'b' ∧ m ≠ 'o' ∧ m ≠ 'x' := by
        cases t with
        | nil =>
          simp only [List.nil_append] at hx
          subst hx
          rcases ha with h | ⟨e, v, h, he⟩
          · simp at h
          · simp only [List.cons.injEq] at h
            rw [h.1]
            have := blank_not_prefix e he
            exact ⟨this.2.2.1, this.2.2.2.2.1, this.1⟩
        | cons d t =>
          simp only [List.cons_append, List.cons.injEq] at hx
          rw [← hx.1]
          rcases groups_mem h d (by simp) with hd | hd
          · refine ⟨?_, ?_, ?_⟩ <;> (rintro rfl; exact absurd hd (by unfold Digit; decide))
          · subst hd; exact absurd ⟨t, by rw [h0']⟩ h0
      simp [hm]
    · simp [h0']

theorem evalInteger_dec (s after : List Char) (l k : Nat) (h : Groups Digit s) (h0 : ¬ ∃ t, s = '0' :: '_' :: t) (ha : Stops after) :
    evalInteger (word s after l k) = if FitsInt64 (numeral 10 s) then .ok (numeral 10 s) else .overflow := by
  rw [evalInteger_eq, integerStart_dec s after h h0 ha]
  simp only [List.take_left]
  have := strip_groups baseDec.hexd [] h
  rw [List.append_nil] at this
  rw [this]
  have hf := filter_digits baseDec.hexd h
  simp only [stripUnderscore, Option.map_some]
  rw [strtoll_pos baseDec _ _ hf.1 hf.2 (.inl rfl)]
  exact finish_pos _

theorem evalInteger_neg (s after : List Char) (l k : Nat) (h : Groups Digit s) :
    evalInteger (word ('-' :: s) after l k) =
      if FitsInt64 (-(numeral 10 s : Int)) then .ok (-(numeral 10 s : Int)) else .overflow := by
  have hi : integerStart ('-' :: s ++ after) = ('-' :: s ++ after, 10) := by
    rw [List.cons_append]
    cases s ++ after with
    | nil => rfl
    | cons m u => simp [integerStart]
  rw [evalInteger_eq, hi]
  simp only [List.take_left]
  have := strip_groups baseDec.hexd [] h
  rw [List.append_nil] at this
  rw [strip_cons _ (by simp) (by decide), this]
  have hf := filter_digits baseDec.hexd h
  simp only [stripUnderscore, Option.map_some, List.append_nil]
  rw [strtoll_neg _ hf.1 hf.2]
  exact finish_neg _

end Skull
