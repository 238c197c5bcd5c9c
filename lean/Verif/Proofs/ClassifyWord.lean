import Verif.Proofs.Classify
/-
Classification of word tokens as a function of their text.
-/
namespace Skull
open Skull.Spec

/-- All words with a type of their own. -/
def opTable : List (List Char × TokType) :=
  [(['='], .operEqual), (['+'], .operPlus), (['-'], .operDash), (['*'], .operStar), (['/'], .operDiv),
   (['<'], .operLessThan), (['>'], .operGtrThan), (['^'], .operPow)] ++ tryTable

/-- The type and length of a word. -/
def wordType (s : List Char) : TokType × Nat :=
  match opTable.lookup s with
  | some ty => (ty, s.length)
  | none =>
    if isConstantInteger s = some true then (.intConst, s.length)
    else if isConstantFloat s = some true then (.floatConst, s.length)
    else if isConstantBool s then (.boolConst, s.length)
    else if isConstantRune s then (.runeConst, s.length)
    else if isConstantStr s then (.strConst, s.length)
    else if isValidIdentifier s then
      if s.getLast? = some ':' then
        if c32schr '.' s then (.unknown, s.length)
        else if isReservedStr s.dropLast || isTypeStr s.dropLast then (.unknown, s.length)
        else (.newIdentifier, s.length - 1)
      else (if c32schr '.' s then .dotIdentifier else .identifier, s.length)
    else (.unknown, s.length)

theorem lookup_append (a b : List (List Char × TokType)) (s : List Char) :
    (a ++ b).lookup s = (a.lookup s).or (b.lookup s) := by
  induction a with
  | nil => rfl
  | cons p a ih =>
    obtain ⟨w, ty⟩ := p
    simp only [List.cons_append, List.lookup]
    split <;> simp [ih]

theorem singleOper_lookup (c : Char) :
    List.lookup [c] [(['='], TokType.operEqual), (['+'], .operPlus), (['-'], .operDash), (['*'], .operStar), (['/'], .operDiv),
     (['<'], .operLessThan), (['>'], .operGtrThan), (['^'], .operPow)] = singleOper c := by
  unfold singleOper
  have e : ∀ d : Char, ([c] == [d]) = decide (c = d) := by
    intro d
    by_cases h : c = d
    · subst h; simp
    · simp [h]
  simp only [List.lookup, e]
  by_cases h1 : c = '='
  · subst h1; rfl
  by_cases h2 : c = '+'
  · subst h2; rfl
  by_cases h3 : c = '-'
  · subst h3; rfl
  by_cases h4 : c = '*'
  · subst h4; rfl
  by_cases h5 : c = '/'
  · subst h5; rfl
  by_cases h6 : c = '<'
  · subst h6; rfl
  by_cases h7 : c = '>'
  · subst h7; rfl
  by_cases h8 : c = '^'
  · subst h8; rfl
  simp [h1, h2, h3, h4, h5, h6, h7, h8]

theorem single_none (s : List Char) (h : s.length ≠ 1) :
    List.lookup s [(['='], TokType.operEqual), (['+'], .operPlus), (['-'], .operDash), (['*'], .operStar), (['/'], .operDiv),
     (['<'], .operLessThan), (['>'], .operGtrThan), (['^'], .operPow)] = none := by
  have e : ∀ d : Char, (s == [d]) = false := by
    intro d
    rw [beq_eq_false_iff_ne]
    rintro rfl
    exact h rfl
  simp [List.lookup, e]

theorem classify_word (text after : List Char) (l k : Nat) (hne : text ≠ []) :
    classifyToken (word text after l k) =
      some { word text after l k with ty := (wordType text).1, len := (wordType text).2 } := by
  have hint := isConstantInteger_iff text
  have hflt := isConstantFloat_iff text hne
  obtain ⟨bi, hi, _⟩ := hint
  obtain ⟨bf, hf, _⟩ := hflt
  -- the rest of the chain, once no operator or keyword matched
  have chain : opTable.lookup text = none →
      (match isConstantInteger text with
        | none => none
        | some true => some { word text after l k with ty := .intConst }
        | some false =>
          match isConstantFloat text with
          | none => none
          | some true => some { word text after l k with ty := .floatConst }
          | some false =>
            if isConstantBool text then some { word text after l k with ty := .boolConst }
            else if isConstantRune text then some { word text after l k with ty := .runeConst }
            else if isConstantStr text then some { word text after l k with ty := .strConst }
            else if isValidIdentifier text then
              some (classifyIdentifier (word text after l k) (text ++ after) text)
            else some (word text after l k)) =
      some { word text after l k with ty := (wordType text).1, len := (wordType text).2 } := by
    intro hl
    unfold wordType
    simp only [hl, hi, hf]
    cases bi
    · cases bf
      · simp only [Option.some.injEq, Bool.false_eq_true, if_false]
        split
        · rfl
        · split
          · rfl
          · split
            · rfl
            · split
              · congr 1
                unfold classifyIdentifier
                have hidx : (text ++ after)[(word text after l k).len - 1]? = text.getLast? := by
                  have : text.length - 1 < text.length := by
                    have := List.length_pos_iff.2 hne; omega
                  simp only [word]
                  rw [List.getElem?_append_left this, List.getLast?_eq_getElem?]
                have htake : text.take ((word text after l k).len - 1) = text.dropLast := by
                  simp [word, List.dropLast_eq_take]
                simp only [hidx, htake]
                split
                · split
                  · rfl
                  · split
                    · rfl
                    · rfl
                · rfl
              · rfl
      · rfl
    · rfl
  have hlk : opTable.lookup text = (List.lookup text [(['='], TokType.operEqual), (['+'], .operPlus), (['-'], .operDash),
      (['*'], .operStar), (['/'], .operDiv), (['<'], .operLessThan), (['>'], .operGtrThan), (['^'], .operPow)]).or
      (tryTable.lookup text) := lookup_append _ _ _
  unfold classifyToken
  have hty : (word text after l k).ty = .unknown := rfl
  have hbg : (word text after l k).begin = some (text ++ after) := rfl
  have hln : (word text after l k).len = text.length := rfl
  simp only [hty, ne_eq, not_true, if_false, hbg, hln, tokenToString_word, tryWords_word]
  by_cases h1 : text.length = 1
  · obtain ⟨c, rfl⟩ := List.length_eq_one_iff.1 h1
    simp only [List.length_cons, List.length_nil, Nat.zero_add, if_true, List.cons_append, List.nil_append]
    rw [singleOper_lookup] at hlk
    cases hs : singleOper c with
    | some ty =>
      rw [hs] at hlk
      simp only [wordType, hlk, Option.some_or]
      rfl
    | none =>
      rw [hs] at hlk
      simp only [Option.none_or] at hlk
      simp only
      cases ht : tryTable.lookup [c] with
      | some ty =>
        rw [ht] at hlk
        simp only [wordType, hlk]
        rfl
      | none =>
        rw [ht] at hlk
        exact chain hlk
  · rw [single_none text h1, Option.none_or] at hlk
    simp only [h1, if_false]
    cases ht : tryTable.lookup text with
    | some ty =>
      rw [ht] at hlk
      simp only [wordType, hlk]
    | none =>
      rw [ht] at hlk
      exact chain hlk

/-! ### Disjointness -/

theorem lookup_mem (tab : List (List Char × TokType)) (s : List Char) (ty : TokType) (h : tab.lookup s = some ty) :
    (s, ty) ∈ tab := by
  induction tab with
  | nil => simp [List.lookup] at h
  | cons p tab ih =>
    obtain ⟨w, t⟩ := p
    simp only [List.lookup] at h
    split at h
    · next hw =>
      simp only [Option.some.injEq] at h
      simp only [beq_iff_eq] at hw
      simp [hw, h]
    · exact List.mem_cons_of_mem _ (ih h)

theorem opTable_all : ∀ p ∈ opTable, isConstantInteger p.1 = some false ∧ isConstantFloat p.1 = some false ∧
    isConstantBool p.1 = false ∧ isConstantRune p.1 = false ∧ isConstantStr p.1 = false ∧
    (isValidIdentifier p.1 = true → isReservedStr p.1 = true) ∧ p.1.getLast? ≠ some ':' ∧ '.' ∉ p.1 ∧
    p.2 ≠ .intConst ∧ p.2 ≠ .floatConst ∧ p.2 ≠ .boolConst ∧ p.2 ≠ .runeConst ∧ p.2 ≠ .strConst ∧
    p.2 ≠ .identifier ∧ p.2 ≠ .newIdentifier ∧ p.2 ≠ .dotIdentifier ∧ p.2 ≠ .unknown := by
  decide +kernel

theorem opTable_none_of (s : List Char) (h : isConstantInteger s = some true ∨ isConstantFloat s = some true ∨
    isConstantBool s = true ∨ isConstantRune s = true ∨ isConstantStr s = true ∨
    (isValidIdentifier s = true ∧ isReservedStr s = false) ∨ s.getLast? = some ':' ∨ '.' ∈ s) : opTable.lookup s = none := by
  cases hl : opTable.lookup s with
  | none => rfl
  | some ty =>
    have := opTable_all _ (lookup_mem _ _ _ hl)
    simp only at this
    grind

/-- First character of a number. -/
theorem intLit_head {s} (h : IntLit s) : ∃ c t, s = c :: t ∧ (Digit c ∨ c = '-') := by
  cases h with
  | dec h => obtain ⟨c, t, rfl, hc⟩ := groups_head h; exact ⟨c, t, rfl, .inl hc⟩
  | neg h => exact ⟨_, _, rfl, .inr rfl⟩
  | hex h => exact ⟨_, _, rfl, .inl (by unfold Digit; decide)⟩
  | bin h => exact ⟨_, _, rfl, .inl (by unfold Digit; decide)⟩
  | oct h => exact ⟨_, _, rfl, .inl (by unfold Digit; decide)⟩

theorem decimal_head {s} (h : Decimal s) : ∃ c t, s = c :: t ∧ Digit c := by
  obtain ⟨w, f, rfl, hw, _⟩ := h
  obtain ⟨c, t, rfl, hc⟩ := groups_head hw
  exact ⟨c, _, rfl, hc⟩

theorem groups_mem' {p s} (h : Groups p s) : ∀ c ∈ s, p c ∨ c = '_' := by
  induction h with
  | one hc => simp [hc]
  | cons hc _ ih => simpa [hc] using ih
  | sep hc _ ih => simpa [hc] using ih

theorem intLit_no_dot {s} (h : IntLit s) : '.' ∉ s := by
  have key : ∀ {p : Char → Prop} {t}, Groups p t → ¬ p '.' → '.' ∉ t := by
    intro p t hg hp hm
    rcases groups_mem' hg _ hm with h | h
    · exact hp h
    · exact absurd h (by decide)
  cases h with
  | dec h => exact key h (by unfold Digit; decide)
  | neg h => have := key h (by unfold Digit; decide); simp [this]
  | hex h => have := key h (by unfold HexDigit Digit; decide); simp [this]
  | bin h => have := key h (by unfold BinDigit; decide); simp [this]
  | oct h => have := key h (by unfold OctDigit; decide); simp [this]

theorem decimal_dot {s} (h : Decimal s) : '.' ∈ s := by
  obtain ⟨w, f, rfl, _⟩ := h
  simp

theorem isInt_of (s : List Char) : isConstantInteger s = some true ↔ IntLit s ∧ ¬ ∃ t, s = '0' :: '_' :: t := by
  obtain ⟨b, h1, h2⟩ := isConstantInteger_iff s
  rw [← h2, h1]; simp

theorem isFloat_of (s : List Char) (hs : s ≠ []) : isConstantFloat s = some true ↔ FloatLit s := by
  obtain ⟨b, h1, h2⟩ := isConstantFloat_iff s hs
  rw [← h2, h1]; simp

theorem float_not_int {s} (h : FloatLit s) : isConstantInteger s ≠ some true := by
  intro hi
  have hi := ((isInt_of s).1 hi).1
  cases h with
  | nan => obtain ⟨c, t, h, hc⟩ := intLit_head hi; simp at h; rw [← h.1] at hc; exact absurd hc (by unfold Digit; decide)
  | inf => obtain ⟨c, t, h, hc⟩ := intLit_head hi; simp at h; rw [← h.1] at hc; exact absurd hc (by unfold Digit; decide)
  | negInf =>
    generalize hs : "-Infinity".toList = s at hi
    have hs : '-' :: "Infinity".toList = s := hs
    cases hi with
    | dec h => rw [← hs] at h; exact groups_not_minus h
    | neg h =>
      simp only [List.cons.injEq, true_and] at hs
      obtain ⟨c, t, h, hc⟩ := groups_head h
      rw [← hs] at h; simp at h; rw [← h.1] at hc; exact absurd hc (by unfold Digit; decide)
    | hex h => simp at hs
    | bin h => simp at hs
    | oct h => simp at hs
  | pos h => exact intLit_no_dot hi (decimal_dot h)
  | neg h => exact intLit_no_dot hi (List.mem_cons_of_mem _ (decimal_dot h))

theorem floatLit_head {s} (h : FloatLit s) : ∃ c t, s = c :: t ∧ (Digit c ∨ c = '-' ∨ c = 'N' ∨ c = 'I') := by
  cases h with
  | nan => exact ⟨'N', "aN".toList, rfl, by simp⟩
  | inf => exact ⟨'I', "nfinity".toList, rfl, by simp⟩
  | negInf => exact ⟨'-', "Infinity".toList, rfl, by simp⟩
  | pos h => obtain ⟨c, t, rfl, hc⟩ := decimal_head h; exact ⟨c, t, rfl, .inl hc⟩
  | neg h => exact ⟨_, _, rfl, .inr (.inl rfl)⟩

/-- A letter, by character codes. -/
theorem letter_iff (c : Char) :
    (decide (c < 'A') || (decide ('Z' < c) && decide (c < 'a')) || decide ('z' < c)) = false ↔ Letter c := by
  simp only [Letter, Char.lt_def, Char.le_def, UInt32.lt_iff_toNat_lt, UInt32.le_iff_toNat_le,
    Bool.or_eq_false_iff, Bool.and_eq_false_iff, decide_eq_false_iff_not]
  have e1 : 'A'.val.toNat = 65 := rfl
  have e2 : 'Z'.val.toNat = 90 := rfl
  have e3 : 'a'.val.toNat = 97 := rfl
  have e4 : 'z'.val.toNat = 122 := rfl
  omega

theorem letter_not {c} (h : Letter c) : ¬ Digit c ∧ c ≠ '-' ∧ c ≠ '\'' ∧ c ≠ '"' ∧ c ≠ '.' ∧ c ≠ ':' ∧ c ≠ '_' := by
  refine ⟨?_, ?_, ?_, ?_, ?_, ?_, ?_⟩
  · simp only [Letter, Digit, Char.le_def, UInt32.le_iff_toNat_le] at *
    have e1 : 'A'.val.toNat = 65 := rfl
    have e2 : '9'.val.toNat = 57 := rfl
    have e3 : 'a'.val.toNat = 97 := rfl
    omega
  all_goals (rintro rfl; exact absurd h (by unfold Letter; decide))

/-- Characters of names. -/
def NameChar (c : Char) : Prop := Letter c ∨ Digit c ∨ c = '_'

theorem nameChar_not {c} (h : NameChar c) : c ≠ '.' ∧ c ≠ ':' := by
  rcases h with h | h | h
  · have := letter_not h; exact ⟨this.2.2.2.2.1, this.2.2.2.2.2.1⟩
  · constructor <;> (rintro rfl; exact absurd h (by unfold Digit; decide))
  · rw [h]; decide

theorem identLoop_iff (s : List Char) : identLoop s = true ↔
    ∃ body, (∀ c ∈ body, NameChar c ∨ c = '.') ∧
      ((s = body ∧ body.getLast? ≠ some '.') ∨ s = body ++ [':']) := by
  induction s with
  | nil => simp [identLoop]; exact ⟨[], by simp⟩
  | cons c s ih =>
    simp only [identLoop]
    by_cases h1 : c = ':'
    · subst h1
      simp only [if_true, decide_eq_true_eq]
      constructor
      · rintro rfl; exact ⟨[], by simp, .inr rfl⟩
      · rintro ⟨body, hb, ⟨h, _⟩ | h⟩
        · have := hb ':' (by rw [← h]; simp)
          rcases this with h | h
          · exact absurd rfl (nameChar_not h).2
          · exact absurd h (by decide)
        · cases body with
          | nil => simpa using h
          | cons d body =>
            simp only [List.cons_append, List.cons.injEq] at h
            have := hb d (by simp)
            rw [← h.1] at this
            rcases this with h | h
            · exact absurd rfl (nameChar_not h).2
            · exact absurd h (by decide)
    · simp only [h1, if_false]
      -- one character in front
      have front : (NameChar c ∨ (c = '.' ∧ s ≠ [])) → ((∃ body, (∀ d ∈ body, NameChar d ∨ d = '.') ∧
            ((s = body ∧ body.getLast? ≠ some '.') ∨ s = body ++ [':'])) ↔
          ∃ body, (∀ d ∈ body, NameChar d ∨ d = '.') ∧
            ((c :: s = body ∧ body.getLast? ≠ some '.') ∨ c :: s = body ++ [':'])) := by
        intro hc
        have hc' : NameChar c ∨ c = '.' := hc.imp id And.left
        constructor
        · rintro ⟨body, hb, h⟩
          refine ⟨c :: body, ?_, ?_⟩
          · intro d hd
            rcases List.mem_cons.1 hd with rfl | hd
            · exact hc'
            · exact hb d hd
          · rcases h with ⟨rfl, hl⟩ | rfl
            · left
              refine ⟨rfl, ?_⟩
              cases s with
              | nil =>
                rcases hc with hc | hc
                · simpa using (nameChar_not hc).1
                · exact absurd rfl hc.2
              | cons d s => simpa using hl
            · right; rfl
        · rintro ⟨body, hb, h⟩
          cases body with
          | nil =>
            rcases h with ⟨h, _⟩ | h
            · simp at h
            · simp at h; exact absurd h.1 h1
          | cons d body =>
            refine ⟨body, fun e he => hb e (by simp [he]), ?_⟩
            rcases h with ⟨h, hl⟩ | h
            · simp only [List.cons.injEq] at h
              left
              refine ⟨h.2, ?_⟩
              cases body with
              | nil => simp
              | cons e body => simpa using hl
            · simp only [List.cons_append, List.cons.injEq] at h
              right; exact h.2
      by_cases h2 : c = '.'
      · subst h2
        simp only [if_true]
        by_cases hs : s = []
        · subst hs
          simp only [if_true]
          constructor
          · simp
          · rintro ⟨body, hb, ⟨h, hl⟩ | h⟩
            · rw [← h] at hl; simp at hl
            · cases body <;> simp at h
        · simp only [hs, if_false]
          rw [ih]
          exact front (.inr ⟨rfl, hs⟩)
      · simp only [h2, if_false]
        by_cases h3 : NameChar c
        · have : (decide (c ≠ '_') && !c32isalnum c) = false := by
            rw [← Bool.not_eq_true]
            simp only [Bool.and_eq_true, decide_eq_true_eq, Bool.not_eq_true', not_and, Bool.not_eq_false]
            intro hu
            rw [isalnum_iff]
            rcases h3 with h | h | h
            · exact .inl h
            · exact .inr h
            · exact absurd h hu
          rw [this]
          simp only [Bool.false_eq_true, if_false]
          rw [ih]
          exact front (.inl h3)
        · have : (decide (c ≠ '_') && !c32isalnum c) = true := by
            simp only [Bool.and_eq_true, decide_eq_true_eq, Bool.not_eq_true']
            refine ⟨fun h => h3 (.inr (.inr h)), ?_⟩
            rw [← Bool.not_eq_true, isalnum_iff]
            rintro (h | h)
            · exact h3 (.inl h)
            · exact h3 (.inr (.inl h))
          rw [this]
          simp only [if_true]
          constructor
          · simp
          · rintro ⟨body, hb, h⟩
            exfalso
            cases body with
            | nil =>
              rcases h with ⟨h, _⟩ | h
              · simp at h
              · simp at h; exact h1 h.1
            | cons d body =>
              have hd := hb d (by simp)
              have : c = d := by rcases h with ⟨h, _⟩ | h <;> simp at h <;> exact h.1
              rw [← this] at hd
              rcases hd with hd | hd
              · exact h3 hd
              · exact h2 hd

theorem schr_iff (s : List Char) : c32schr '.' s = true ↔ '.' ∈ s := by
  induction s with
  | nil => simp [c32schr]
  | cons c s ih =>
    simp only [c32schr]
    by_cases h : c = '.'
    · simp [h]
    · have h' : ¬ '.' = c := fun e => h e.symm
      simp [h, ih, h']

theorem reserved_iff (s : List Char) : isReservedStr s = true ↔ s ∈ reserved.map String.toList := by
  have : reserved.map String.toList = reservedTable := by decide +kernel
  rw [this]
  simp only [isReservedStr, List.any_eq_true, c32scmp_eq]
  constructor
  · rintro ⟨w, h, rfl⟩; exact h
  · intro h; exact ⟨s, h, rfl⟩

theorem typeName_iff (s : List Char) : isTypeStr s = true ↔ s ∈ typeNames.map String.toList := by
  have : typeNames.map String.toList = builtinTypeNames := by decide +kernel
  rw [this]
  simp only [isTypeStr, List.any_eq_true, beq_iff_eq]
  constructor
  · rintro ⟨w, h, rfl⟩; exact h
  · intro h; exact ⟨s, h, rfl⟩

/-- A word that starts with a letter and is not reserved is a candidate for an identifier. -/
theorem letter_word {s} (c : Char) (t : List Char) (hs : s = c :: t) (hc : Letter c) (hr : isReservedStr s = false) :
    isConstantInteger s ≠ some true ∧ isConstantFloat s ≠ some true ∧ isConstantBool s = false ∧
    isConstantRune s = false ∧ isConstantStr s = false := by
  have hn := letter_not hc
  refine ⟨?_, ?_, ?_, ?_, ?_⟩
  · intro h
    obtain ⟨d, u, h, hd⟩ := intLit_head ((isInt_of s).1 h).1
    rw [hs] at h; simp at h
    rw [← h.1] at hd
    rcases hd with hd | hd
    · exact hn.1 hd
    · exact hn.2.1 hd
  · intro h
    rw [isFloat_of s (by simp [hs])] at h
    have hr' : s ∉ reserved.map String.toList := by rw [← reserved_iff, hr]; simp
    cases h with
    | nan => exact hr' (by decide +kernel)
    | inf => exact hr' (by decide +kernel)
    | negInf =>
      have : '-' = c := by
        have h : '-' :: "Infinity".toList = c :: t := hs
        simp only [List.cons.injEq] at h; exact h.1
      exact hn.2.1 this.symm
    | pos h =>
      obtain ⟨d, u, h, hd⟩ := decimal_head h
      rw [hs] at h; simp at h
      rw [← h.1] at hd; exact hn.1 hd
    | neg h => simp at hs; exact hn.2.1 hs.1.symm
  · rw [← Bool.not_eq_true]
    intro h
    simp only [isConstantBool, Bool.or_eq_true, c32scmp_eq] at h
    have hr' : s ∉ reserved.map String.toList := by rw [← reserved_iff, hr]; simp
    rcases h with h | h <;> rw [← h] at hr' <;> exact hr' (by decide +kernel)
  · have : s.head? ≠ some '\'' := by rw [hs]; simpa using hn.2.2.1
    simp [isConstantRune, this]
  · have : s.head? ≠ some '"' := by rw [hs]; simpa using hn.2.2.2.1
    simp [isConstantStr, this]

theorem isValidIdentifier_cons (c : Char) (t : List Char) :
    isValidIdentifier (c :: t) = true ↔ Letter c ∧ identLoop t = true := by
  simp only [isValidIdentifier]
  by_cases h : Letter c
  · have := (letter_iff c).2 h
    rw [if_neg (by rw [this]; simp)]
    simp [h]
  · have h2 : (decide (c < 'A') || (decide ('Z' < c) && decide (c < 'a')) || decide ('z' < c)) = true := by
      rw [← Bool.not_eq_false]; intro e; exact h ((letter_iff c).1 e)
    rw [if_pos h2]
    simp [h]

end Skull
