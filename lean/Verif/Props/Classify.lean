import Verif.Proofs.ClassifyWord
/-
C07-C10: what each word means.
-/
namespace Skull
open Skull.Spec

/-- The type of a word token after classification (`none`: undefined behaviour). -/
def typeOf (text after : List Char) (line col : Nat) : Option TokType :=
  (classifyToken (word text after line col)).map (·.ty)

theorem typeOf_eq (text after : List Char) (l k : Nat) (h : text ≠ []) :
    typeOf text after l k = some (wordType text).1 := by
  simp [typeOf, classify_word text after l k h]

/-! ## C07 Integer literals are recognised exactly -/

/-- Full statement of C07. -/
def C07_full : Prop := ∀ (text after : List Char) (line col : Nat), text ≠ [] →
  (typeOf text after line col = some .intConst ↔ IntLit text)

/-- C07 is false: `0_1` is made of digit groups joined by an underscore and is not recognised. -/
theorem C07_false : ¬ C07_full := by
  intro h
  have h1 := (h "0_1".toList [] 1 1 (by decide)).2
    (.dec (s := "0_1".toList) (.sep (by unfold Digit; decide) (.one (by unfold Digit; decide))))
  exact absurd h1 (by decide +kernel)

/-- What holds: the recognised integers are exactly the integer literals that do not start with `0_`. -/
theorem C07_integers_partial (text after : List Char) (line col : Nat) (hne : text ≠ []) :
    typeOf text after line col = some .intConst ↔ IntLit text ∧ ¬ ∃ t, text = '0' :: '_' :: t := by
  rw [typeOf_eq _ _ _ _ hne, ← isInt_of]
  constructor
  · intro h
    simp only [Option.some.injEq, wordType] at h
    split at h
    · next hl => exact absurd h (opTable_all _ (lookup_mem _ _ _ hl)).2.2.2.2.2.2.2.2.1
    · split at h
      · assumption
      · grind
  · intro h
    have hl := opTable_none_of text (.inl h)
    simp [wordType, hl, h]

example : typeOf "0xFF_0a".toList "\n".toList 1 1 = some .intConst := by decide +kernel
example : typeOf "-1_000".toList ")".toList 1 1 = some .intConst := by decide +kernel
example : typeOf "1__0".toList [] 1 1 = some .unknown := by decide +kernel
example : typeOf "0x".toList [] 1 1 = some .unknown := by decide +kernel

/-! ## C08 Float literals are recognised exactly -/

theorem C08_floats (text after : List Char) (line col : Nat) (hne : text ≠ []) :
    typeOf text after line col = some .floatConst ↔ FloatLit text := by
  rw [typeOf_eq _ _ _ _ hne, ← isFloat_of text hne]
  constructor
  · intro h
    simp only [Option.some.injEq, wordType] at h
    split at h
    · next hl => exact absurd h (opTable_all _ (lookup_mem _ _ _ hl)).2.2.2.2.2.2.2.2.2.1
    · grind
  · intro h
    have hl := opTable_none_of text (.inr (.inl h))
    have hi := float_not_int ((isFloat_of text hne).1 h)
    simp [wordType, hl, h, hi]

example : typeOf "-1_2.50".toList [] 1 1 = some .floatConst := by decide +kernel
example : typeOf "1.".toList [] 1 1 = some .unknown := by decide +kernel
example : typeOf "-NaN".toList [] 1 1 = some .unknown := by decide +kernel

/-! ## C09 Identifiers are recognised exactly -/

theorem name_iff {s} : Name s ↔ ∃ c t, s = c :: t ∧ Letter c ∧ ∀ d ∈ t, NameChar d := Iff.rfl

/-- Names that are not reserved are identifiers, and nothing else is. -/
theorem C09_identifiers (text after : List Char) (line col : Nat) (hne : text ≠ []) :
    typeOf text after line col = some .identifier ↔ Name text ∧ text ∉ reserved.map String.toList := by
  rw [typeOf_eq _ _ _ _ hne, ← reserved_iff]
  constructor
  · intro h
    simp only [Option.some.injEq, wordType] at h
    cases hl : opTable.lookup text with
    | some ty =>
      have := opTable_all _ (lookup_mem _ _ _ hl)
      simp only at this
      simp only [hl] at h
      grind
    | none =>
      simp only [hl] at h
      have hv : isValidIdentifier text = true := by grind
      have hb : isConstantBool text = false := by grind
      have hf : isConstantFloat text ≠ some true := by grind
      have hlast : text.getLast? ≠ some ':' := by grind
      have hdot : '.' ∉ text := by
        rw [← schr_iff]; grind
      match text, hne with
      | c :: t, _ =>
        rw [isValidIdentifier_cons, identLoop_iff] at hv
        obtain ⟨hc, body, hb2, hbody⟩ := hv
        refine ⟨⟨c, t, rfl, hc, ?_⟩, ?_⟩
        · rcases hbody with ⟨rfl, _⟩ | rfl
          · intro d hd
            rcases hb2 d hd with h | h
            · exact h
            · exact absurd (by rw [← h]; simp [hd]) hdot
          · exfalso; apply hlast; rw [← List.cons_append, List.getLast?_concat]
        · rw [reserved_iff]
          intro hr
          have key : ∀ w ∈ reserved.map String.toList, opTable.lookup w ≠ none ∨ isConstantBool w = true ∨
              isConstantFloat w = some true := by decide +kernel
          rcases key _ hr with h | h | h
          · exact h hl
          · rw [hb] at h; cases h
          · exact hf h
  · rintro ⟨⟨c, t, rfl, hc, ht⟩, hr⟩
    have hr' : isReservedStr (c :: t) = false := by simpa using hr
    have hv : isValidIdentifier (c :: t) = true := by
      rw [isValidIdentifier_cons, identLoop_iff]
      refine ⟨hc, t, fun d hd => .inl (ht d hd), .inl ⟨rfl, ?_⟩⟩
      intro hl
      exact (nameChar_not (ht '.' (List.mem_of_getLast? hl))).1 rfl
    have hl := opTable_none_of (c :: t) (.inr (.inr (.inr (.inr (.inr (.inl ⟨hv, hr'⟩))))))
    obtain ⟨h1, h2, h3, h4, h5⟩ := letter_word c t rfl hc hr'
    have hall : ∀ d ∈ c :: t, NameChar d := by
      intro d hd
      rcases List.mem_cons.1 hd with rfl | hd
      · exact .inl hc
      · exact ht d hd
    have hlast : (c :: t).getLast? ≠ some ':' := by
      intro h
      exact (nameChar_not (hall ':' (List.mem_of_getLast? h))).2 rfl
    have hdot : c32schr '.' (c :: t) = false := by
      rw [← Bool.not_eq_true, schr_iff]
      intro h
      exact (nameChar_not (hall '.' h)).1 rfl
    simp only [wordType, hl, h1, h2, h3, h4, h5, hv, hlast, hdot, if_false, if_true, Bool.false_eq_true]

/-- Dotted names are dotted identifiers, and nothing else is. -/
theorem C09_dotted (text after : List Char) (line col : Nat) (hne : text ≠ []) :
    typeOf text after line col = some .dotIdentifier ↔ DottedName text := by
  rw [typeOf_eq _ _ _ _ hne]
  constructor
  · intro h
    simp only [Option.some.injEq, wordType] at h
    cases hl : opTable.lookup text with
    | some ty =>
      have := opTable_all _ (lookup_mem _ _ _ hl)
      simp only at this
      simp only [hl] at h
      grind
    | none =>
      simp only [hl] at h
      have hv : isValidIdentifier text = true := by grind
      have hlast : text.getLast? ≠ some ':' := by grind
      have hdot : '.' ∈ text := by
        rw [← schr_iff]; grind
      match text, hne with
      | c :: t, _ =>
        rw [isValidIdentifier_cons, identLoop_iff] at hv
        obtain ⟨hc, body, hb2, hbody⟩ := hv
        rcases hbody with ⟨rfl, hd⟩ | rfl
        · have hdt : '.' ∈ t := by
            rcases List.mem_cons.1 hdot with h | h
            · exact absurd h.symm (letter_not hc).2.2.2.2.1
            · exact h
          refine ⟨c, t, rfl, hc, ?_, hdt, ?_⟩
          · intro d hd
            rcases hb2 d hd with (h | h | h) | h
            · exact .inl h
            · exact .inr (.inl h)
            · exact .inr (.inr (.inl h))
            · exact .inr (.inr (.inr h))
          · cases t with
            | nil => simp at hdt
            | cons e t => simpa using hd
        · exfalso; apply hlast; rw [← List.cons_append, List.getLast?_concat]
  · rintro ⟨c, t, rfl, hc, ht, hdt, hlast⟩
    have ht' : ∀ d ∈ t, NameChar d ∨ d = '.' := by
      intro d hd
      rcases ht d hd with h | h | h | h
      · exact .inl (.inl h)
      · exact .inl (.inr (.inl h))
      · exact .inl (.inr (.inr h))
      · exact .inr h
    have hr' : isReservedStr (c :: t) = false := by
      rw [← Bool.not_eq_true, reserved_iff]
      intro h
      have key : ∀ w ∈ reserved.map String.toList, '.' ∉ w := by decide +kernel
      exact key _ h (by simp [hdt])
    have hv : isValidIdentifier (c :: t) = true := by
      rw [isValidIdentifier_cons, identLoop_iff]
      refine ⟨hc, t, ht', .inl ⟨rfl, ?_⟩⟩
      cases t with
      | nil => simp
      | cons e t => simpa using hlast
    have hl := opTable_none_of (c :: t) (.inr (.inr (.inr (.inr (.inr (.inl ⟨hv, hr'⟩))))))
    obtain ⟨h1, h2, h3, h4, h5⟩ := letter_word c t rfl hc hr'
    have hcol : (c :: t).getLast? ≠ some ':' := by
      intro h
      rcases List.mem_cons.1 (List.mem_of_getLast? h) with h | h
      · exact (letter_not hc).2.2.2.2.2.1 h.symm
      · rcases ht' ':' h with h | h
        · exact (nameChar_not h).2 rfl
        · exact absurd h (by decide)
    have hdot : c32schr '.' (c :: t) = true := by rw [schr_iff]; simp [hdt]
    simp only [wordType, hl, h1, h2, h3, h4, h5, hv, hcol, hdot, if_false, if_true, Bool.false_eq_true]

/-- `name:` declares `name` exactly when `name` is a name that is not reserved and no built in type; the colon is not part
of the token afterwards. -/
theorem C09_declarations (text after : List Char) (line col : Nat) (hne : text ≠ []) :
    (typeOf text after line col = some .newIdentifier ↔
      ∃ name, text = name ++ [':'] ∧ Name name ∧ name ∉ reserved.map String.toList ∧ name ∉ typeNames.map String.toList) ∧
    ∀ t, classifyToken (word text after line col) = some t → t.ty = .newIdentifier →
      t.len = text.length - 1 ∧ t.begin = some (text ++ after) := by
  constructor
  · rw [typeOf_eq _ _ _ _ hne]
    constructor
    · intro h
      simp only [Option.some.injEq, wordType] at h
      cases hl : opTable.lookup text with
      | some ty =>
        have := opTable_all _ (lookup_mem _ _ _ hl)
        simp only at this
        simp only [hl] at h
        grind
      | none =>
        simp only [hl] at h
        have hv : isValidIdentifier text = true := by grind
        have hlast : text.getLast? = some ':' := by grind
        have hdot : '.' ∉ text := by
          rw [← schr_iff]; grind
        have hres : isReservedStr text.dropLast = false ∧ isTypeStr text.dropLast = false := by grind
        match text, hne with
        | c :: t, _ =>
          rw [isValidIdentifier_cons, identLoop_iff] at hv
          obtain ⟨hc, body, hb2, hbody⟩ := hv
          rcases hbody with ⟨rfl, hd⟩ | rfl
          · exfalso
            rcases List.mem_cons.1 (List.mem_of_getLast? hlast) with h | h
            · exact (letter_not hc).2.2.2.2.2.1 h.symm
            · rcases hb2 ':' h with h | h
              · exact (nameChar_not h).2 rfl
              · exact absurd h (by decide)
          · refine ⟨c :: body, rfl, ⟨c, body, rfl, hc, ?_⟩, ?_, ?_⟩
            · intro d hd
              rcases hb2 d hd with h | h
              · exact h
              · exact absurd (by rw [← h]; simp [hd]) hdot
            · have e : (c :: (body ++ [':'])).dropLast = c :: body := by
                rw [← List.cons_append, List.dropLast_concat]
              rw [e] at hres
              rw [← reserved_iff, hres.1]; simp
            · have e : (c :: (body ++ [':'])).dropLast = c :: body := by
                rw [← List.cons_append, List.dropLast_concat]
              rw [e] at hres
              rw [← typeName_iff, hres.2]; simp
    · rintro ⟨name, rfl, ⟨c, t, rfl, hc, ht⟩, hr, hty⟩
      have hr' : isReservedStr (c :: t ++ [':']) = false := by
        rw [← Bool.not_eq_true, reserved_iff]
        intro h
        have key : ∀ w ∈ reserved.map String.toList, w.getLast? ≠ some ':' := by decide +kernel
        exact key _ h (by rw [List.getLast?_concat])
      have hv : isValidIdentifier (c :: t ++ [':']) = true := by
        rw [List.cons_append, isValidIdentifier_cons, identLoop_iff]
        exact ⟨hc, t, fun d hd => .inl (ht d hd), .inr rfl⟩
      have hl := opTable_none_of (c :: t ++ [':']) (.inr (.inr (.inr (.inr (.inr (.inl ⟨hv, hr'⟩))))))
      obtain ⟨h1, h2, h3, h4, h5⟩ := letter_word c (t ++ [':']) rfl hc hr'
      have hcol : (c :: t ++ [':']).getLast? = some ':' := by
        rw [List.getLast?_concat]
      have hdot : c32schr '.' (c :: t ++ [':']) = false := by
        rw [← Bool.not_eq_true, schr_iff]
        intro h
        simp only [List.mem_append, List.mem_cons, List.not_mem_nil, or_false] at h
        rcases h with (h | h) | h
        · exact (letter_not hc).2.2.2.2.1 h.symm
        · exact (nameChar_not (ht '.' h)).1 rfl
        · exact absurd h (by decide)
      have hdl : (c :: t ++ [':']).dropLast = c :: t := List.dropLast_concat
      have hr2 : isReservedStr (c :: t) = false := by rw [← Bool.not_eq_true, reserved_iff]; exact hr
      have hty2 : isTypeStr (c :: t) = false := by rw [← Bool.not_eq_true, typeName_iff]; exact hty
      rw [List.cons_append] at hl hv hcol hdot hdl ⊢
      simp only [wordType, hl, h1, h2, h3, h4, h5, hv, hcol, hdot, hdl, hr2, hty2, if_false, if_true, Bool.false_eq_true,
        Bool.or_self]
  · intro t h hty
    rw [classify_word _ _ _ _ hne] at h
    simp only [Option.some.injEq] at h
    subst h
    refine ⟨?_, rfl⟩
    simp only at hty ⊢
    unfold wordType at hty ⊢
    cases hl : opTable.lookup text with
    | some ty =>
      have := opTable_all _ (lookup_mem _ _ _ hl)
      simp only at this
      simp only [hl] at hty
      grind
    | none =>
      simp only [hl] at hty ⊢
      grind

example : typeOf "a_1".toList ":".toList 1 1 = some .identifier := by decide +kernel
example : typeOf "ns.x".toList [] 1 1 = some .dotIdentifier := by decide +kernel
example : typeOf "x:".toList " Int".toList 1 1 = some .newIdentifier := by decide +kernel
example : typeOf "mod:".toList [] 1 1 = some .unknown := by decide +kernel
example : typeOf "Int:".toList [] 1 1 = some .unknown := by decide +kernel

/-! ## C10 Every word has exactly one meaning and keywords cannot be captured -/

/-- The result of classification depends on the text of the token only: not on what follows it nor on where it is. -/
theorem C10_text_only (text after after' : List Char) (l k l' k' : Nat) (hne : text ≠ []) :
    ∃ ty len, classifyToken (word text after l k) = some { word text after l k with ty := ty, len := len } ∧
      classifyToken (word text after' l' k') = some { word text after' l' k' with ty := ty, len := len } :=
  ⟨_, _, classify_word text after l k hne, classify_word text after' l' k' hne⟩

/-- Every reserved word and operator has its own type. -/
theorem C10_words (w : String) (ty : TokType) (h : (w, ty) ∈ words) (after : List Char) (l k : Nat) :
    classifyToken (word w.toList after l k) = some { word w.toList after l k with ty := ty } := by
  have key : ∀ p ∈ words, wordType p.1.toList = (p.2, p.1.toList.length) ∧ p.1.toList ≠ [] := by decide +kernel
  have := key _ h
  rw [classify_word _ _ _ _ this.2, this.1]
  rfl

/-- No other word has the type of a keyword or operator. -/
theorem C10_words_only (text after : List Char) (l k : Nat) (ty : TokType) (hne : text ≠ [])
    (hty : typeOf text after l k = some ty)
    (hkw : ty ∉ [.unknown, .identifier, .newIdentifier, .dotIdentifier, .intConst, .floatConst, .runeConst, .strConst]) :
    ∃ w, (w, ty) ∈ words ∧ w.toList = text := by
  rw [typeOf_eq _ _ _ _ hne] at hty
  simp only [Option.some.injEq, wordType] at hty
  cases hl : opTable.lookup text with
  | some t =>
    simp only [hl] at hty
    subst hty
    have key : ∀ p ∈ opTable, ∃ q ∈ words, q.1.toList = p.1 ∧ q.2 = p.2 := by decide +kernel
    obtain ⟨⟨w, t'⟩, h1, h2, h3⟩ := key _ (lookup_mem _ _ _ hl)
    simp only at h2 h3
    exact ⟨w, h3 ▸ h1, h2⟩
  | none =>
    simp only [hl] at hty
    simp only [List.mem_cons, List.not_mem_nil, or_false, not_or] at hkw
    have hb : isConstantBool text = true ∧ ty = .boolConst := by grind
    simp only [isConstantBool, Bool.or_eq_true, c32scmp_eq] at hb
    rcases hb with ⟨hb | hb, rfl⟩
    · exact ⟨"true", by decide +kernel, hb⟩
    · exact ⟨"false", by decide +kernel, hb⟩

/-- Classification never has undefined behaviour on a token with text. -/
theorem C10_defined (text after : List Char) (l k : Nat) (hne : text ≠ []) :
    ∃ t, classifyToken (word text after l k) = some t := ⟨_, classify_word text after l k hne⟩

/-- The placeholder token of a blank source has no text, and classifying it dereferences a null pointer. -/
theorem C10_blank_source_ub : (match tokenize false "  ".toList with
    | some (.ok ts) => some (classifyTokens ts)
    | _ => none) = some none := by decide +kernel

example : typeOf "iff".toList [] 1 1 = some .identifier := by decide +kernel
example : typeOf "if".toList "f".toList 1 1 = some .kwIf := by decide +kernel

end Skull
