import Verif.Model.Classify
import Verif.Spec.Words
/-
Lemmas about classification.
-/
namespace Skull
open Skull.Spec

theorem c32scmp_eq (a b : List Char) : c32scmp a b = true ↔ a = b := by
  induction a generalizing b with
  | nil => cases b <;> simp [c32scmp]
  | cons x xs ih =>
    cases b with
    | nil => simp [c32scmp]
    | cons y ys =>
      by_cases h : x = y
      · simp [c32scmp, h, ih]
      · simp [c32scmp, h]

theorem c32sncmp_eq (a b after : List Char) (h : a.length = b.length) : c32sncmp a (b ++ after) a.length = decide (a = b) := by
  induction a generalizing b with
  | nil =>
    cases b with
    | nil => simp [c32sncmp]
    | cons => simp at h
  | cons x xs ih =>
    cases b with
    | nil => simp at h
    | cons y ys =>
      simp only [List.length_cons, Nat.add_right_cancel_iff] at h
      by_cases hx : x = y
      · simp [c32sncmp, hx, ih ys h]
      · simp [c32sncmp, hx]

theorem tokenCmp_word (w text after : List Char) (l k : Nat) :
    tokenCmp w (word text after l k) = some (decide (w = text)) := by
  unfold tokenCmp word
  by_cases h : w.length = text.length
  · simp only [h, if_true]
    rw [← h, c32sncmp_eq _ _ _ h]
  · simp only [h, if_false, Option.some.injEq, Bool.false_eq, decide_eq_false_iff_not]
    rintro rfl
    exact h rfl

theorem tryWords_word (tab : List (List Char × TokType)) (text after : List Char) (l k : Nat) :
    tryWords tab (word text after l k) = some (tab.lookup text) := by
  induction tab with
  | nil => rfl
  | cons p rest ih =>
    obtain ⟨w, ty⟩ := p
    simp only [tryWords, tokenCmp_word, List.lookup]
    by_cases h : w = text
    · simp [h]
    · have h2 : ¬ text = w := fun e => h e.symm
      have h3 : (text == w) = false := by simp [h2]
      simp [h, ih, h3]

theorem tokenToString_word (text after : List Char) (l k : Nat) :
    tokenToString (word text after l k) = some text := by
  simp [tokenToString, word]

/-! ### The recognisers -/

theorem isdigit_iff (c : Char) : c32isdigit c = true ↔ Digit c := by
  simp [c32isdigit, Digit]

theorem isxdigit_iff (c : Char) : c32isxdigit c = true ↔ HexDigit c := by
  simp [c32isxdigit, HexDigit, Digit, or_assoc]

theorem isalnum_iff (c : Char) : c32isalnum c = true ↔ Letter c ∨ Digit c := by
  simp [c32isalnum, c32isdigit, Letter, Digit]
  grind

theorem groups_ne_nil {p s} (h : Groups p s) : s ≠ [] := by cases h <;> simp

theorem groups_head {p s} (h : Groups p s) : ∃ c t, s = c :: t ∧ p c := by
  cases h <;> exact ⟨_, _, rfl, by assumption⟩

/-- The loop accepts exactly when what remains can be completed from its state. -/
theorem intLoop_iff (cond : Char → Bool) (p : Char → Prop) (hp : ∀ c, cond c = true ↔ p c) (hu : ¬ p '_')
    (s : List Char) :
    (∀ prev, (∃ c, p c ∧ prev = some c) →
      ((∃ c, intLoop cond s false prev = some (some c) ∧ c ≠ '_') ↔
        s = [] ∨ Groups p s ∨ ∃ t, s = '_' :: t ∧ Groups p t)) ∧
    (∀ prev, prev = some '_' →
      ((∃ c, intLoop cond s true prev = some (some c) ∧ c ≠ '_') ↔ Groups p s)) := by
  induction s with
  | nil =>
    constructor
    · rintro prev ⟨c, hc, rfl⟩
      simp only [intLoop]
      simp
      rintro rfl; exact hu hc
    · rintro prev rfl
      simp [intLoop]
      intro h; exact groups_ne_nil h rfl
  | cons d s ih =>
    have hcond : ∀ c, cond c = false ↔ ¬ p c := by
      intro c; rw [← hp c]; simp
    have step : ∀ was, (was = true → d ≠ '_') → p d → ∀ prev,
        ((∃ c, intLoop cond (d :: s) was prev = some (some c) ∧ c ≠ '_') ↔
          s = [] ∨ Groups p s ∨ ∃ t, s = '_' :: t ∧ Groups p t) := by
      intro was hw hd prev
      have hne : d ≠ '_' := by rintro rfl; exact hu hd
      have := (hp d).2 hd
      simp only [intLoop, hne, decide_false, Bool.and_false, this, Bool.not_true, Bool.false_and]
      exact ih.1 _ ⟨d, hd, rfl⟩
    have gd : p d → (Groups p (d :: s) ↔ s = [] ∨ Groups p s ∨ ∃ t, s = '_' :: t ∧ Groups p t) := by
      intro hd
      constructor
      · intro h
        cases h with
        | one => exact .inl rfl
        | cons _ h => exact .inr (.inl h)
        | sep _ h => exact .inr (.inr ⟨_, rfl, h⟩)
      · rintro (rfl | h | ⟨t, rfl, h⟩)
        · exact .one hd
        · exact .cons hd h
        · exact .sep hd h
    have ngd : ¬ p d → ¬ Groups p (d :: s) := by
      intro hd h
      cases h <;> exact hd (by assumption)
    constructor
    · intro prev _
      by_cases hd : p d
      · rw [step false (by simp) hd, ← gd hd]
        have hne : d ≠ '_' := by rintro rfl; exact hu hd
        simp [hne]
      · by_cases hu' : d = '_'
        · subst hu'
          simp only [intLoop, Bool.false_and, Bool.false_eq_true, if_false, decide_true, ne_eq, not_true,
            decide_false, Bool.and_false]
          rw [ih.2 _ rfl]
          have := ngd hd
          simp [this]
        · have := (hcond d).2 hd
          simp [intLoop, hu', this, ngd hd]
    · rintro prev rfl
      by_cases hd : p d
      · have hne : d ≠ '_' := by rintro rfl; exact hu hd
        rw [step true (fun _ => hne) hd, gd hd]
      · by_cases hu' : d = '_'
        · subst hu'
          simp [intLoop, ngd hd]
        · have := (hcond d).2 hd
          simp [intLoop, hu', this, ngd hd]

theorem intLoop_some (cond : Char → Bool) (s : List Char) :
    ∀ was prev, (prev = none → s ≠ []) → intLoop cond s was prev ≠ some none := by
  induction s with
  | nil => intro was prev h; cases prev <;> simp [intLoop] at *
  | cons c s ih =>
    intro was prev _
    simp only [intLoop]
    split
    · simp
    · split
      · simp
      · exact ih _ _ (by simp)

theorem exhaustStrInt_iff (cond : Char → Bool) (p : Char → Prop) (hp : ∀ c, cond c = true ↔ p c) (hu : ¬ p '_')
    (s : List Char) (prev : Option Char) (hs : s ≠ []) :
    ∃ b, exhaustStrInt cond s prev = some b ∧ (b = true ↔ Groups p s) := by
  cases s with
  | nil => exact absurd rfl hs
  | cons d s =>
    simp only [exhaustStrInt, List.head?_cons, Option.some.injEq]
    by_cases hd : d = '_'
    · subst hd
      refine ⟨false, by simp, by simp, ?_⟩
      intro h
      cases h <;> exact absurd (by assumption) hu
    · simp only [hd, if_false]
      have h1 := intLoop_some cond (d :: s) false prev (by simp)
      have h2 : (∃ c, intLoop cond (d :: s) false prev = some (some c) ∧ c ≠ '_') ↔ Groups p (d :: s) := by
        by_cases hpd : p d
        · have := ((intLoop_iff cond p hp hu (d :: s)).1 (some d) ⟨d, hpd, rfl⟩)
          have e : intLoop cond (d :: s) false prev = intLoop cond (d :: s) false (some d) := by simp [intLoop]
          rw [e, this]
          simp [hd]
        · have : cond d = false := by rw [← Bool.not_eq_true, hp]; exact hpd
          simp only [intLoop, Bool.false_and, Bool.false_eq_true, if_false, this, hd, ne_eq, not_false_eq_true, decide_true,
            Bool.not_false, Bool.and_true, if_true]
          simp
          intro h
          cases h <;> exact hpd (by assumption)
      match hl : intLoop cond (d :: s) false prev with
      | none =>
        rw [hl] at h2
        exact ⟨false, rfl, by rw [← h2]; simp⟩
      | some none => exact absurd hl h1
      | some (some c) =>
        rw [hl] at h2
        refine ⟨_, rfl, ?_⟩
        rw [← h2]; simp

theorem digit_us : ¬ Digit '_' := by unfold Digit; decide
theorem hexdigit_us : ¬ HexDigit '_' := by unfold HexDigit Digit; decide

theorem groups_not_minus {t} : ¬ Groups Digit ('-' :: t) := by
  intro h
  obtain ⟨c, t, h, hd⟩ := groups_head h
  simp only [List.cons.injEq] at h
  rw [← h.1] at hd
  exact absurd hd (by unfold Digit; decide)

theorem isDecimalInteger_iff (s : List Char) :
    ∃ b, isDecimalInteger s = some b ∧ (b = true ↔ Groups Digit s ∨ ∃ t, s = '-' :: t ∧ Groups Digit t) := by
  cases s with
  | nil => exact ⟨false, rfl, by simp; intro h; exact groups_ne_nil h rfl⟩
  | cons c t =>
    by_cases hc : c = '-'
    · subst hc
      simp only [isDecimalInteger, skipMinus, if_true]
      by_cases ht : t = []
      · exact ⟨false, by simp [ht], by subst ht; simp [groups_not_minus]; intro h; exact groups_ne_nil h rfl⟩
      · obtain ⟨b, h1, h2⟩ := exhaustStrInt_iff c32isdigit Digit isdigit_iff digit_us t (some '-') ht
        exact ⟨b, by simp [ht, h1], by rw [h2]; simp [groups_not_minus]⟩
    · have e : isDecimalInteger (c :: t) = exhaustStrInt c32isdigit (c :: t) none := by
        simp [isDecimalInteger, skipMinus, hc]
      obtain ⟨b, h1, h2⟩ := exhaustStrInt_iff c32isdigit Digit isdigit_iff digit_us (c :: t) none (by simp)
      refine ⟨b, by rw [e, h1], ?_⟩
      rw [h2]
      simp [hc]

/-- `is_constant_integer_str` accepts the integer literals that do not start with `0_`. -/
theorem isConstantInteger_iff (s : List Char) :
    ∃ b, isConstantInteger s = some b ∧ (b = true ↔ IntLit s ∧ ¬ ∃ t, s = '0' :: '_' :: t) := by
  unfold isConstantInteger
  obtain ⟨b, hb1, hb2⟩ := isDecimalInteger_iff s
  -- when the prefix branch is not taken
  have fall : (∀ c m d t, s = c :: m :: d :: t → ¬ (c = '0' ∧ ¬ Digit m)) →
      (b = true ↔ IntLit s ∧ ¬ ∃ t, s = '0' :: '_' :: t) := by
    intro hno
    rw [hb2]
    constructor
    · rintro (h | ⟨t, rfl, h⟩)
      · refine ⟨.dec h, ?_⟩
        rintro ⟨t, rfl⟩
        cases t with
        | nil =>
          cases h with
          | cons _ h => cases h <;> exact digit_us (by assumption)
          | sep _ h => exact groups_ne_nil h rfl
        | cons d t => exact hno _ _ _ _ rfl ⟨rfl, digit_us⟩
      · exact ⟨.neg h, by simp⟩
    · rintro ⟨h, _⟩
      have bad : ∀ (p : Char → Prop) m t, s = '0' :: m :: t → ¬ Digit m → Groups p t → False := by
        intro p m t hs hm h
        obtain ⟨c, t', rfl, _⟩ := groups_head h
        exact hno _ _ _ _ hs ⟨rfl, hm⟩
      cases h with
      | dec h => exact .inl h
      | neg h => exact .inr ⟨_, rfl, h⟩
      | hex h => exact (bad _ _ _ rfl (by unfold Digit; decide) h).elim
      | bin h => exact (bad _ _ _ rfl (by unfold Digit; decide) h).elim
      | oct h => exact (bad _ _ _ rfl (by unfold Digit; decide) h).elim
  split
  · next c m d t =>
    by_cases hc : c = '0' ∧ ¬ Digit m
    · obtain ⟨rfl, hm⟩ := hc
      have hm' : c32isdigit m = false := by rw [← Bool.not_eq_true, isdigit_iff]; exact hm
      simp only [decide_true, hm', Bool.not_false, Bool.and_self, if_true]
      -- which rules can apply
      have rules : (IntLit ('0' :: m :: d :: t) ∧ ¬ ∃ t', '0' :: m :: d :: t = '0' :: '_' :: t') ↔
          (m = 'x' ∧ Groups HexDigit (d :: t)) ∨ (m = 'b' ∧ Groups BinDigit (d :: t)) ∨
          (m = 'o' ∧ Groups OctDigit (d :: t)) := by
        constructor
        · rintro ⟨h, hu⟩
          cases h with
          | dec h =>
            cases h with
            | cons _ h => obtain ⟨c, _, h, hd⟩ := groups_head h; simp at h; rw [h.1] at hm; exact absurd hd hm
            | sep _ h => exact absurd ⟨_, rfl⟩ hu
          | hex h => exact .inl ⟨rfl, h⟩
          | bin h => exact .inr (.inl ⟨rfl, h⟩)
          | oct h => exact .inr (.inr ⟨rfl, h⟩)
        · rintro (⟨rfl, h⟩ | ⟨rfl, h⟩ | ⟨rfl, h⟩)
          · exact ⟨.hex h, by simp⟩
          · exact ⟨.bin h, by simp⟩
          · exact ⟨.oct h, by simp⟩
      rw [rules]
      by_cases hx : m = 'x'
      · subst hx
        obtain ⟨b, h1, h2⟩ := exhaustStrInt_iff c32isxdigit HexDigit isxdigit_iff hexdigit_us (d :: t) (some 'x') (by simp)
        exact ⟨b, by simp [h1], by rw [h2]; simp⟩
      · by_cases hbb : m = 'b'
        · subst hbb
          obtain ⟨b, h1, h2⟩ := exhaustStrInt_iff (fun c => c = '0' || c = '1') BinDigit (by simp [BinDigit])
            (by simp [BinDigit]) (d :: t) (some 'b') (by simp)
          exact ⟨b, by simpa using h1, by rw [h2]; simp⟩
        · by_cases ho : m = 'o'
          · subst ho
            obtain ⟨b, h1, h2⟩ := exhaustStrInt_iff (fun c => '0' ≤ c && c ≤ '7') OctDigit (by simp [OctDigit])
              (by unfold OctDigit; decide) (d :: t) (some 'o') (by simp)
            exact ⟨b, by simpa using h1, by rw [h2]; simp⟩
          · exact ⟨false, by simp [hx, hbb, ho], by simp [hx, hbb, ho]⟩
    · have : (decide (c = '0') && !c32isdigit m) = false := by
        rw [← Bool.not_eq_true]
        intro h
        simp only [Bool.and_eq_true, decide_eq_true_eq, Bool.not_eq_true'] at h
        apply hc
        refine ⟨h.1, ?_⟩
        rw [← isdigit_iff, h.2]; simp
      simp only [this, Bool.false_eq_true, if_false]
      refine ⟨b, hb1, fall ?_⟩
      intro c' m' d' t' h
      simp only [List.cons.injEq] at h
      obtain ⟨rfl, rfl, rfl, rfl⟩ := h
      exact hc
  · next hno =>
    exact ⟨b, hb1, fall (fun c m d t h => absurd h (hno c m d t))⟩

/-! ### Floats -/

theorem floatLoop_eq (s : List Char) : ∀ was prev, floatLoop s was prev =
    (intLoop c32isdigit (s.takeWhile (· ≠ '.')) was prev).map (fun l => (s.dropWhile (· ≠ '.'), l)) := by
  induction s with
  | nil => simp [floatLoop, intLoop]
  | cons c s ih =>
    intro was prev
    by_cases hc : c = '.'
    · subst hc; simp [floatLoop, intLoop]
    · simp only [floatLoop, hc, if_false, ne_eq, not_false_eq_true, decide_true, List.takeWhile_cons, List.dropWhile_cons,
        if_true, intLoop]
      by_cases h1 : (was && decide (c = '_')) = true
      · simp [h1]
      · by_cases h2 : (!c32isdigit c && decide (c ≠ '_')) = true
        · have h2' := h2
          simp at h2'
          simp [h2']
        · rw [if_neg h1]
          rw [if_neg (by simpa using ⟨by simpa using h1, by simpa using h2⟩)]
          rw [if_neg (by simpa using h2), ih]

theorem digits_iff (s : List Char) : exhaustStr c32isdigit s = true ↔ ∀ c ∈ s, Digit c := by
  induction s with
  | nil => simp [exhaustStr]
  | cons c s ih =>
    simp only [exhaustStr, List.mem_cons, forall_eq_or_imp, ← isdigit_iff]
    cases h : c32isdigit c
    · simp
    · simp only [Bool.not_true, Bool.false_eq_true, if_false, true_and]
      rw [ih]; simp [isdigit_iff]

theorem digit_ne {c} (h : Digit c) : c ≠ '_' ∧ c ≠ '.' ∧ c ≠ '-' := by
  refine ⟨?_, ?_, ?_⟩ <;> (rintro rfl; exact absurd h (by unfold Digit; decide))

theorem groups_mem {s} (h : Groups Digit s) : ∀ c ∈ s, Digit c ∨ c = '_' := by
  induction h with
  | one hc => simp [hc]
  | cons hc _ ih => simpa [hc] using ih
  | sep hc _ ih => simpa [hc] using ih

theorem takeWhile_split (a b : List Char) (h : ∀ c ∈ a, c ≠ '.') :
    (a ++ '.' :: b).takeWhile (· ≠ '.') = a ∧ (a ++ '.' :: b).dropWhile (· ≠ '.') = '.' :: b := by
  induction a with
  | nil => simp
  | cons c a ih =>
    have := ih (fun d hd => h d (by simp [hd]))
    have hc := h c (by simp)
    simp [hc]
    simpa using this

/-- The numeric part of `is_constant_float_str`, after the sign. -/
theorem decimal_iff (s : List Char) (prev : Option Char) (hp : s = [] → prev ≠ none) :
    ∃ b, isDecimalFloat s prev = some b ∧ (b = true ↔ Decimal s) := by
  unfold isDecimalFloat
  by_cases hh : s.head? = some '.' ∨ s.head? = some '_'
  · refine ⟨false, by simp [hh], by simp, ?_⟩
    rintro ⟨w, f, rfl, hw, _⟩
    obtain ⟨c, t, rfl, hc⟩ := groups_head hw
    have := digit_ne hc
    simp at hh
    grind
  · have hh' : (decide (s.head? = some '.') || decide (s.head? = some '_')) = false := by
      simpa using hh
    simp only [hh', Bool.false_eq_true, if_false, floatLoop_eq]
    by_cases hs : s = []
    · subst hs
      refine ⟨false, ?_, by simp; rintro ⟨w, f, h, _⟩; simp at h⟩
      cases hpv : prev with
      | none => exact absurd hpv (hp rfl)
      | some p => simp [intLoop]
    · have hw : s.takeWhile (· ≠ '.') ≠ [] := by
        cases s with
        | nil => simp at hs
        | cons c t =>
          have : c ≠ '.' := by rintro rfl; simp at hh
          simp [this]
      have hex := exhaustStrInt_iff c32isdigit Digit isdigit_iff digit_us (s.takeWhile (· ≠ '.')) prev hw
      obtain ⟨b, hb1, hb2⟩ := hex
      have hhd : (s.takeWhile (· ≠ '.')).head? ≠ some '_' := by
        cases s with
        | nil => simp at hs
        | cons c t =>
          simp only [List.takeWhile_cons]
          split
          · simp at hh; simpa using hh.2
          · simp
      have hdec : Decimal s ↔ Groups Digit (s.takeWhile (· ≠ '.')) ∧
          ∃ d t, s.dropWhile (· ≠ '.') = '.' :: d :: t ∧ ∀ c ∈ d :: t, Digit c := by
        constructor
        · rintro ⟨w, f, rfl, hw, hf, hd⟩
          have := takeWhile_split w f (fun c hc => by
            rcases groups_mem hw c hc with h | h
            · exact (digit_ne h).2.1
            · rw [h]; decide)
          rw [this.1, this.2]
          refine ⟨hw, ?_⟩
          cases f with
          | nil => exact absurd rfl hf
          | cons d t => exact ⟨d, t, rfl, hd⟩
        · rintro ⟨hw, d, t, h1, h2⟩
          refine ⟨_, d :: t, ?_, hw, by simp, h2⟩
          rw [← h1]; exact (List.takeWhile_append_dropWhile).symm
      rw [hdec]
      simp only [exhaustStrInt, hhd, if_false] at hb1
      match hl : intLoop c32isdigit (s.takeWhile (· ≠ '.')) false prev with
      | none =>
        rw [hl] at hb1
        simp only [Option.some.injEq] at hb1
        subst hb1
        refine ⟨false, by simp, ?_⟩
        rw [← hb2]; simp
      | some none => rw [hl] at hb1; simp at hb1
      | some (some p) =>
        rw [hl] at hb1
        simp only [Option.some.injEq] at hb1
        simp only [Option.map_some]
        by_cases hpu : p = '_'
        · subst hpu
          refine ⟨false, by simp, ?_⟩
          rw [← hb2, ← hb1]; simp
        · simp only [hpu, if_false]
          have hg : Groups Digit (s.takeWhile (· ≠ '.')) := by rw [← hb2, ← hb1]; simpa using hpu
          match hr : s.dropWhile (· ≠ '.') with
          | [] => exact ⟨false, rfl, by simp⟩
          | [x] => exact ⟨false, rfl, by simp⟩
          | x :: d :: t =>
            have hx : x = '.' := by
              have := List.head?_dropWhile_not (fun c : Char => decide (c ≠ '.')) s
              rw [hr] at this
              simpa using this
            refine ⟨_, rfl, ?_⟩
            rw [digits_iff]
            subst hx
            constructor
            · intro h; exact ⟨hg, d, t, rfl, h⟩
            · rintro ⟨_, d', t', h, h2⟩
              simp only [List.cons.injEq, true_and] at h
              rw [h.1, h.2]; exact h2

/-- `is_constant_float_str` accepts exactly the float literals. -/
theorem isConstantFloat_iff (s : List Char) (hs : s ≠ []) :
    ∃ b, isConstantFloat s = some b ∧ (b = true ↔ FloatLit s) := by
  have hnodec : ∀ c t, ¬ Digit c → ¬ Decimal (c :: t) := by
    rintro c t hc ⟨w, f, h, hw, _⟩
    obtain ⟨d, u, rfl, hd⟩ := groups_head hw
    simp at h
    rw [h.1] at hc; exact hc hd
  unfold isConstantFloat
  by_cases h1 : c32scmp "NaN".toList s = true
  · refine ⟨true, by simp only [h1, if_true], ?_⟩
    rw [c32scmp_eq] at h1
    rw [← h1]
    exact ⟨fun _ => .nan, fun _ => rfl⟩
  · simp only [h1]
    have h1' : s ≠ "NaN".toList := fun e => h1 ((c32scmp_eq _ _).2 e.symm)
    cases s with
    | nil => exact absurd rfl hs
    | cons c t =>
      by_cases hc : c = '-'
      · subst hc
        simp only [Bool.false_eq_true, if_false, skipMinus, if_true]
        by_cases h2 : c32scmp "Infinity".toList t = true
        · refine ⟨true, by simp only [h2, if_true], ?_⟩
          rw [c32scmp_eq] at h2
          rw [← h2]
          exact ⟨fun _ => .negInf, fun _ => rfl⟩
        · obtain ⟨b, hb1, hb2⟩ := decimal_iff t (some '-') (by simp)
          refine ⟨b, by rw [if_neg h2, hb1], ?_⟩
          have h2' : t ≠ "Infinity".toList := fun e => h2 ((c32scmp_eq _ _).2 e.symm)
          rw [hb2]
          constructor
          · exact .neg
          · intro h
            generalize hu : '-' :: t = u at h
            cases h with
            | nan => simp at hu
            | inf => simp at hu
            | negInf => exact absurd (by simpa using hu) h2'
            | pos h => rw [← hu] at h; exact absurd h (hnodec _ _ (by unfold Digit; decide))
            | neg h => simp at hu; rwa [hu]
      · simp only [Bool.false_eq_true, if_false, skipMinus, hc]
        by_cases h2 : c32scmp "Infinity".toList (c :: t) = true
        · refine ⟨true, by simp only [h2, if_true], ?_⟩
          rw [c32scmp_eq] at h2
          rw [← h2]
          exact ⟨fun _ => .inf, fun _ => rfl⟩
        · obtain ⟨b, hb1, hb2⟩ := decimal_iff (c :: t) none (by simp)
          refine ⟨b, by rw [if_neg h2, hb1], ?_⟩
          have h2' : c :: t ≠ "Infinity".toList := fun e => h2 ((c32scmp_eq _ _).2 e.symm)
          rw [hb2]
          constructor
          · exact .pos
          · intro h
            generalize hu : c :: t = u at h
            cases h with
            | nan => exact absurd hu h1'
            | inf => exact absurd hu h2'
            | negInf => simp at hu; exact absurd hu.1 hc
            | pos h => exact h
            | neg h => simp at hu; exact absurd hu.1 hc

end Skull
