import Verif.Proofs.LiteralStr
import Verif.Props.Token
import Verif.Props.Classify
/-
C11-C15: the values of literals.
-/
namespace Skull
open Skull.Spec

/-- `t` is a token of the source `src` after tokenizing and classifying. -/
def Compiled (src : List Char) (t : Token) : Prop :=
  ∃ werror toks t0, tokenize werror src = some (.ok toks) ∧ t0 ∈ toks ∧ classifyToken t0 = some t

/-- The text of `t` is `text`, and `after` is the rest of the source behind it. -/
def HasText (t : Token) (text after : List Char) : Prop := t.begin = some (text ++ after) ∧ t.len = text.length

/-! ### From tokens to words -/

theorem lexeme_word {its before l} (h : ItemsOk its) (hl : l ∈ lexemes before its) :
    (∃ c, Delim c ∧ l.kind = .delim c ∧ l.text = [c]) ∨ l.kind = .comment ∨
    ∃ es after, l.text = elemsText es ∧ es ≠ [] ∧ ElemsOk es after ∧ ChunkEnd after ∧ es.any Elem.isComment = false ∧
      l.kind = .word ∧ before ++ itemsText its = l.before ++ (l.text ++ after) := by
  induction its generalizing before with
  | nil => simp [lexemes] at hl
  | cons i is ih =>
    cases i with
    | blank c =>
      rcases ih h.2 hl with h1 | h1 | ⟨es, a, h1, h2, h3, h4, h5, h6, h7⟩
      · exact .inl h1
      · exact .inr (.inl h1)
      · exact .inr (.inr ⟨es, a, h1, h2, h3, h4, h5, h6, by rw [← h7]; simp [itemsText, Item.text]⟩)
    | delim c =>
      simp only [lexemes, List.mem_cons] at hl
      rcases hl with rfl | hl
      · exact .inl ⟨c, h.1, rfl, rfl⟩
      rcases ih h.2 hl with h1 | h1 | ⟨es, a, h1, h2, h3, h4, h5, h6, h7⟩
      · exact .inl h1
      · exact .inr (.inl h1)
      · exact .inr (.inr ⟨es, a, h1, h2, h3, h4, h5, h6, by rw [← h7]; simp [itemsText, Item.text]⟩)
    | chunk es =>
      simp only [lexemes, List.mem_cons] at hl
      rcases hl with rfl | hl
      · right
        by_cases hc : es.any Elem.isComment = true
        · left; simp [hc]
        · right
          refine ⟨es, itemsText is, rfl, h.1.1, h.1.2.1, h.1.2.2, by simpa using hc, by simp [hc], ?_⟩
          simp [itemsText, Item.text]
      rcases ih h.2 hl with h1 | h1 | ⟨es, a, h1, h2, h3, h4, h5, h6, h7⟩
      · exact .inl h1
      · exact .inr (.inl h1)
      · exact .inr (.inr ⟨es, a, h1, h2, h3, h4, h5, h6, by rw [← h7]; simp [itemsText, Item.text]⟩)

theorem classify_typed (t : Token) (h : t.ty ≠ .unknown) : classifyToken t = some t := by
  simp [classifyToken, h]

/-- A literal token of a source is a word of the grammar. -/
theorem compiled_word {src t} (h : Compiled src t) (hty : t.ty ∈ [.intConst, .floatConst, .boolConst, .runeConst, .strConst]) :
    ∃ es after l k, HasText t (elemsText es) after ∧ es ≠ [] ∧ ElemsOk es after ∧ ChunkEnd after ∧
      es.any Elem.isComment = false ∧ t = { word (elemsText es) after l k with ty := t.ty } ∧
      typeOf (elemsText es) after l k = some t.ty := by
  obtain ⟨w, toks, t0, h1, h2, h3⟩ := h
  have hbeg : t0.begin.isSome := by
    cases hb : t0.begin with
    | some x => rfl
    | none =>
      exfalso
      by_cases hu : t0.ty = .unknown
      · obtain ⟨its, _, h5, h6⟩ := tokenizeFrom_sound (tokenize_ok h1)
        rcases h6 with h6 | h6
        · rw [h6] at h2
          simp [realTokens, hb] at h2
        · rw [h6] at h2
          simp at h2
          subst h2
          revert h3; simp [classifyToken]
      · rw [classify_typed _ hu] at h3
        simp only [Option.some.injEq] at h3
        subst h3
        obtain ⟨its, _, h5, h6⟩ := tokenizeFrom_sound (tokenize_ok h1)
        rcases h6 with h6 | h6
        · rw [h6] at h2
          simp [realTokens, hb] at h2
        · rw [h6] at h2
          simp at h2
          subst h2
          exact hu rfl
  obtain ⟨its, hlex, h5, _⟩ := tokenizeFrom_sound (tokenize_ok h1)
  obtain ⟨l, hl, hm⟩ := All2.mem_left h5 t0 (by simp [realTokens, h2, hbeg])
  have hunk : t0.ty = .unknown ∨ t0.ty = t.ty := by
    by_cases hu : t0.ty = .unknown
    · exact .inl hu
    · rw [classify_typed _ hu] at h3
      simp only [Option.some.injEq] at h3
      subst h3; exact .inr rfl
  obtain ⟨after, hs, hb⟩ := hm.begin
  rcases lexeme_word hlex.2 hl with ⟨c, hc, hk, htext⟩ | hk | ⟨es, a, e1, e2, e3, e4, e5, e6, e7⟩
  · exfalso
    have hty0 := hm.ty
    rw [hk] at hty0
    simp only [Delim, List.mem_cons, List.not_mem_nil, or_false] at hc
    rcases hc with rfl | rfl | rfl | rfl | rfl | rfl | rfl | rfl <;> simp only [kindType] at hty0 <;>
      try (rw [classify_typed _ (by rw [hty0]; decide)] at h3; simp only [Option.some.injEq] at h3; subst h3; rw [hty0] at hty; simp at hty)
    -- `*`
    have ht0 : t0 = word ['*'] after t0.line t0.col := by
      rw [htext] at hb
      have := hm.len
      rw [htext] at this
      cases t0
      simp_all [word]
    have hw := C10_words "*" .operStar (by decide) after t0.line t0.col
    have e : "*".toList = ['*'] := by decide
    rw [e] at hw
    rw [ht0, hw] at h3
    simp only [Option.some.injEq] at h3
    rw [← h3] at hty
    simp at hty
  · exfalso
    have hty0 := hm.ty
    rw [hk] at hty0
    simp only [kindType] at hty0
    rw [classify_typed _ (by rw [hty0]; decide)] at h3
    simp only [Option.some.injEq] at h3
    subst h3
    rw [hty0] at hty
    simp at hty
  · have ha : after = a := by
      have := hs.symm.trans (by rw [← hlex.1, ← e7]; rfl : stripBom src = l.before ++ (l.text ++ a))
      simpa using this
    subst ha
    have hne : elemsText es ≠ [] := elemsText_ne_nil e2
    have hty0 := hm.ty
    rw [e6] at hty0
    simp only [kindType] at hty0
    have ht0 : t0 = word (elemsText es) after t0.line t0.col := by
      rw [e1] at hb
      have := hm.len
      rw [e1] at this
      cases t0
      simp_all [word]
    have hw := classify_word (elemsText es) after t0.line t0.col hne
    rw [← ht0, h3] at hw
    simp only [Option.some.injEq] at hw
    have hlen : (wordType (elemsText es)).2 = (elemsText es).length := by
      have hty' : t.ty = (wordType (elemsText es)).1 := by rw [hw]
      rw [hty'] at hty
      revert hty
      unfold wordType
      grind
    rw [hlen, ht0] at hw
    refine ⟨es, after, t0.line, t0.col, ⟨by rw [hw]; rfl, by rw [hw]⟩, e2, e3, e4, e5, ?_, ?_⟩
    · rw [hw]; rfl
    · rw [typeOf_eq _ _ _ _ hne, hw]

theorem hasText_unique {t a b a' b'} (h : HasText t a b) (h' : HasText t a' b') : a = a' ∧ b = b' := by
  have h1 := h.1.symm.trans h'.1
  have h2 := h.2.symm.trans h'.2
  simp only [Option.some.injEq] at h1
  exact List.append_inj h1 h2

/-! ## C11 Integer literals have their mathematical value -/

/-- Full statement of C11. -/
def C11_full : Prop := ∀ src t, Compiled src t → t.ty = .intConst →
  ∃ text after n, HasText t text after ∧ IntValue text n ∧ evalInteger t = if FitsInt64 n then .ok n else .overflow

/-- The token of `0x1` in the source of the counterexample. -/
def hexBeforeUnderscore : Token :=
  { begin := some "0x1\n_# hi".toList, len := 3, ty := .intConst, line := 1, col := 6 }

/-- C11 is false: the evaluation of a literal with a base prefix reads two characters behind the literal, and is undefined if the second
of them is an underscore. -/
theorem C11_false : ¬ C11_full := by
  intro h
  obtain ⟨text, after, n, h1, h2, h3⟩ := h "x := 0x1\n_# hi".toList hexBeforeUnderscore
    ⟨false, (okTokens (tokenize false "x := 0x1\n_# hi".toList)).getD [],
      { begin := some "0x1\n_# hi".toList, len := 3, ty := .unknown, line := 1, col := 6 },
      by decide +kernel, by decide +kernel, by decide +kernel⟩ rfl
  have : evalInteger hexBeforeUnderscore = .ub := by decide +kernel
  rw [this] at h3
  split at h3 <;> simp at h3

/-- What holds: decimal literals, and literals with a base prefix unless an underscore is the second character behind them. -/
theorem C11_value_partial (src : List Char) (t : Token) (h : Compiled src t) (hty : t.ty = .intConst) :
    ∃ text after n, HasText t text after ∧ IntValue text n ∧
      ((after[1]? ≠ some '_' ∨ Digit (text[1]?.getD '0')) → evalInteger t = if FitsInt64 n then .ok n else .overflow) := by
  obtain ⟨es, after, l, k, h1, h2, h3, h4, h5, h6, h7⟩ := compiled_word h (by simp [hty])
  rw [hty] at h7
  have hi := (C07_integers_partial _ after l k (elemsText_ne_nil h2)).1 h7
  have he : evalInteger t = evalInteger (word (elemsText es) after l k) := by rw [h6]; rfl
  generalize elemsText es = text at h1 hi he
  rw [he]
  obtain ⟨hi, h0⟩ := hi
  cases hi with
  | dec hg => exact ⟨_, after, _, h1, .dec hg, fun _ => evalInteger_dec _ after l k hg h0 h4⟩
  | neg hg => exact ⟨_, after, _, h1, .neg hg, fun _ => evalInteger_neg _ after l k hg⟩
  | hex hg =>
    refine ⟨_, after, _, h1, .hex hg, fun hc => ?_⟩
    rw [evalInteger_prefixed baseHex 'x' _ after l k (fun u => rfl) hg h4, if_neg]
    rcases hc with hc | hc
    · exact hc
    · exact absurd hc (by simp [Digit])
  | bin hg =>
    refine ⟨_, after, _, h1, .bin hg, fun hc => ?_⟩
    rw [evalInteger_prefixed baseBin 'b' _ after l k (fun u => rfl) hg h4, if_neg]
    rcases hc with hc | hc
    · exact hc
    · exact absurd hc (by simp [Digit])
  | oct hg =>
    refine ⟨_, after, _, h1, .oct hg, fun hc => ?_⟩
    rw [evalInteger_prefixed baseOct 'o' _ after l k (fun u => rfl) hg h4, if_neg]
    rcases hc with hc | hc
    · exact hc
    · exact absurd hc (by simp [Digit])

/-- A literal denotes one integer only. -/
theorem C11_value_unique (text : List Char) (n m : Int) (h1 : IntValue text n) (h2 : IntValue text m) : n = m := by
  have hx : ∀ (c : Char) (s : List Char), c ≠ '_' → ¬ Digit c → ¬ Groups Digit ('0' :: c :: s) := by
    intro c s hc hd hg
    rcases groups_mem hg c (by simp) with h | h
    · exact hd h
    · exact hc h
  have hm : ∀ s, ¬ Groups Digit ('-' :: s) := fun s => groups_not_minus
  cases h1 <;> cases h2 <;> first
    | rfl
    | (exfalso; exact hm _ (by assumption))
    | (exfalso; exact hx 'x' _ (by decide) (by unfold Digit; decide) (by assumption))
    | (exfalso; exact hx 'b' _ (by decide) (by unfold Digit; decide) (by assumption))
    | (exfalso; exact hx 'o' _ (by decide) (by unfold Digit; decide) (by assumption))

example : IntValue "-1_0".toList (-10) :=
  .neg (s := ['1', '_', '0']) (.sep (by unfold Digit; decide) (.one (by unfold Digit; decide)))
example : evalInteger (word "9223372036854775808".toList [] 1 1) = .overflow := by decide +kernel
example : evalInteger (word "-9223372036854775808".toList [] 1 1) = .ok (-9223372036854775808) := by decide +kernel
example : evalInteger (word "0xFF".toList " ".toList 1 1) = .ok 255 := by decide +kernel

/-! ## C12 Float literals are passed on unchanged -/

/-- For every conversion function of the C library (`strtod`: the value and whether the range error was set) and every float
literal of every source: the special words have their values; any other literal is converted from its text without underscores, and
a range error is diagnosed. -/
theorem C12_float_text {F : Type} (strtod : List Char → F × Bool) (inf negInf nan : F) (src : List Char) (t : Token)
    (h : Compiled src t) (hty : t.ty = .floatConst) :
    ∃ text after, HasText t text after ∧
      ((text = "Infinity".toList ∧ evalFloat strtod inf negInf nan t = .ok inf) ∨
       (text = "-Infinity".toList ∧ evalFloat strtod inf negInf nan t = .ok negInf) ∨
       (text = "NaN".toList ∧ evalFloat strtod inf negInf nan t = .ok nan) ∨
       ((Decimal text ∨ ∃ s, text = '-' :: s ∧ Decimal s) ∧
         evalFloat strtod inf negInf nan t =
           if (strtod (text.filter (· ≠ '_'))).2 then .overflow else .ok (strtod (text.filter (· ≠ '_'))).1)) := by
  obtain ⟨es, after, l, k, h1, h2, h3, h4, h5, h6, h7⟩ := compiled_word h (by simp [hty])
  rw [hty] at h7
  have hi := (C08_floats _ after l k (elemsText_ne_nil h2)).1 h7
  have he : evalFloat strtod inf negInf nan t = evalFloat strtod inf negInf nan (word (elemsText es) after l k) := by
    rw [h6]; rfl
  generalize elemsText es = text at h1 hi he
  refine ⟨text, after, h1, ?_⟩
  rw [he]
  have hdec : ∀ s, Decimal s → stripUnderscore (some '.') s = some (s.filter (· ≠ '_')) := by
    rintro s ⟨w, f, rfl, hw, hf, hfd⟩
    have hcopy : ∀ s, copyRest s = s := by
      intro s; induction s with
      | nil => rfl
      | cons c s ih => simp [copyRest, ih]
    rw [strip_groups' (fun c hc => .inl hc) (by rintro c (hc | rfl) <;> simp; rintro rfl; exact absurd hc (by unfold HexDigit Digit; decide)) _ hw]
    have h2 : f.filter (fun x => decide (x ≠ '_')) = f := by
      rw [List.filter_eq_self]
      intro c hc
      have : c ≠ '_' := by rintro rfl; exact absurd (hfd _ hc) (by unfold Digit; decide)
      simpa using this
    have h3 : stripUnderscore (some '.') ('.' :: f) = some ('.' :: f) := by
      rw [← hcopy ('.' :: f)]
      cases f <;> simp [stripUnderscore, hcopy]
    rw [h3, List.filter_append, List.filter_cons_of_pos (by decide), h2]
    rfl
  have hdot : ∀ s, Decimal s → '.' ∈ s := fun s => decimal_dot
  have ev : ∀ s, ('.' ∈ s) → stripUnderscore (some '.') s = some (s.filter (· ≠ '_')) →
      evalFloat strtod inf negInf nan (word s after l k) =
        if (strtod (s.filter (· ≠ '_'))).2 then .overflow else .ok (strtod (s.filter (· ≠ '_'))).1 := by
    intro s hs hst
    have n1 : ¬ ("Infinity".toList = s) := by rintro rfl; revert hs; decide
    have n2 : ¬ ("-Infinity".toList = s) := by rintro rfl; revert hs; decide
    have n3 : ¬ ("NaN".toList = s) := by rintro rfl; revert hs; decide
    simp only [evalFloat, tokenCmp_word, tokenToString_word, n1, n2, n3, decide_false, Bool.false_eq_true, if_false, hst]
  cases hi with
  | nan =>
    refine .inr (.inr (.inl ⟨rfl, ?_⟩))
    simp only [evalFloat, tokenCmp_word, tokenToString_word]
    rw [if_neg (by decide), if_neg (by decide), if_pos (by decide)]
  | inf =>
    refine .inl ⟨rfl, ?_⟩
    simp only [evalFloat, tokenCmp_word, tokenToString_word]
    rw [if_pos (by decide)]
  | negInf =>
    refine .inr (.inl ⟨rfl, ?_⟩)
    simp only [evalFloat, tokenCmp_word, tokenToString_word]
    rw [if_neg (by decide), if_pos (by decide)]
  | pos hd => exact .inr (.inr (.inr ⟨.inl hd, ev _ (hdot _ hd) (hdec _ hd)⟩))
  | @neg s hd =>
    refine .inr (.inr (.inr ⟨.inr ⟨s, rfl, hd⟩, ev _ (by simp [hdot _ hd]) ?_⟩))
    rw [strip_cons _ (by decide) (by decide), hdec _ hd]
    rw [List.filter_cons_of_pos (by decide)]
    rfl

example : evalFloat (fun s => (String.ofList s, false)) "inf" "-inf" "nan" (word "-1_0.50".toList ")".toList 1 1) = .ok "-10.50" := by
  decide +kernel
example : Compiled "1_0.5".toList { begin := some "1_0.5".toList, len := 5, ty := .floatConst, line := 1, col := 1 } :=
  ⟨false, [{ begin := some "1_0.5".toList, len := 5, ty := .unknown, line := 1, col := 1 }], _,
    by decide +kernel, List.mem_singleton.2 rfl, by decide +kernel⟩

/-! ## C13 String literals denote their contents -/

/-- A string literal token is two quotes with a text between them.  It evaluates to the code points `vs` exactly when the text denotes
`vs`; if the text denotes nothing (there is an unknown escape in it) it is rejected. -/
theorem C13_string_value (src : List Char) (t : Token) (h : Compiled src t) (hty : t.ty = .strConst) :
    ∃ body after, HasText t ('"' :: (body ++ ['"'])) after ∧
      (∀ vs, evalStr t = some (.ok vs) ↔ Denotes body vs) ∧
      ((¬ ∃ vs, Denotes body vs) → evalStr t = some .badEscape) := by
  obtain ⟨es, after, l, k, h1, h2, h3, h4, h5, h6, h7⟩ := compiled_word h (by simp [hty])
  rw [hty] at h7
  have hs : isConstantStr (elemsText es) = true := by
    rw [typeOf_eq _ _ _ _ (elemsText_ne_nil h2)] at h7
    simp only [Option.some.injEq, wordType] at h7
    split at h7
    · next hl => exact absurd h7 (opTable_all _ (lookup_mem _ _ _ hl)).2.2.2.2.2.2.2.2.2.2.2.2.1
    · grind
  have hform : ∃ body, elemsText es = '"' :: (body ++ ['"']) := by
    generalize elemsText es = s at hs
    simp only [isConstantStr, Bool.and_eq_true, decide_eq_true_eq] at hs
    cases s with
    | nil => simp at hs
    | cons c s =>
      have hc : c = '"' := by simpa using hs.1.2
      have hne : s ≠ [] := by rintro rfl; simp at hs
      refine ⟨s.dropLast, ?_⟩
      have hlast := hs.2
      rw [List.getLast?_cons] at hlast
      rw [hc]
      congr 1
      have hl2 : s.getLast? = some '"' := by
        rw [List.getLast?_eq_some_getLast hne] at hlast ⊢
        simpa using hlast
      rw [List.getLast?_eq_some_getLast hne] at hl2
      simp only [Option.some.injEq] at hl2
      conv => lhs; rw [← List.dropLast_concat_getLast hne, hl2]
  obtain ⟨body, hb⟩ := hform
  have hnd : NoDangle body := by
    match es, h2 with
    | .plain c :: es, _ =>
      simp only [elemsText, Elem.text, List.cons_append, List.nil_append, List.cons.injEq] at hb
      simp only [ElemsOk, Elem.Ok] at h3
      exact absurd (.inr hb.1) h3.1.2.2.1
    | .line s b :: es, _ => simp [Elem.isComment] at h5
    | .block b :: es, _ => simp [Elem.isComment] at h5
    | .quoted q b :: es, _ =>
      simp only [elemsText, Elem.text, List.cons_append, List.append_assoc, List.cons.injEq, List.nil_append] at hb
      obtain ⟨rfl, hb⟩ := hb
      simp only [ElemsOk, Elem.Ok] at h3
      have h8 := endsOk_elems es.length es after (Nat.le_refl _) h3.2 (by simpa [Elem.isComment] using h5)
      exact endsOk_quoted h3.1.2 _ (endsOk_quote_cons h3.1.1 (.inr h8)) body hb
  refine ⟨body, after, by rw [← hb]; exact h1, ?_⟩
  have he : evalStr t = evalStr (word ('"' :: (body ++ ['"'])) after l k) := by rw [h6, hb]; rfl
  rw [he]
  rcases evalStr_spec body after l k hnd with ⟨vs, e1, e2⟩ | ⟨e1, e2⟩
  · rw [e1]
    refine ⟨fun ws => ?_, fun hn => absurd ⟨vs, (e2 vs).2 rfl⟩ hn⟩
    rw [e2]; simp [eq_comm]
  · rw [e1]
    exact ⟨fun ws => by simp [e2 ws], fun _ => rfl⟩

theorem quotedBody_escape (s : List Char) : QuotedBody '"' (escape s) := by
  induction s with
  | nil => exact .nil
  | cons c s ih =>
    unfold escape
    split
    · next h => exact .escape h ih
    · next h =>
      simp only [not_or] at h
      exact .plain h.2 (fun hc => absurd hc h.1) ih

theorem denotes_escape (s : List Char) : Denotes (escape s) (s.map Char.toNat) := by
  induction s with
  | nil => exact .nil
  | cons c s ih =>
    unfold escape
    split
    · next h =>
      refine .simple ?_ ih
      rcases h with rfl | rfl <;> decide
    · next h =>
      simp only [not_or] at h
      exact .plain h.1 ih

/-- Every text can be written as a string literal: quoted, with a backslash in front of quotes and backslashes, it is one token, a
string literal, and evaluates back to the text. -/
theorem C13_round_trip (werror : Bool) (s : List Char) :
    ∃ t, tokenize werror ('"' :: (escape s ++ ['"'])) = some (.ok [t]) ∧
      ∃ t', classifyToken t = some t' ∧ t'.ty = .strConst ∧ evalStr t' = some (.ok (s.map Char.toNat)) := by
  have hbom : stripBom ('"' :: (escape s ++ ['"'])) = '"' :: (escape s ++ ['"']) := by
    simp only [stripBom]; rw [if_neg (by decide)]
  have hlex : Lexes (stripBom ('"' :: (escape s ++ ['"']))) [.chunk [.quoted '"' (escape s)]] := by
    rw [hbom]
    refine ⟨by simp [itemsText, Item.text, elemsText, Elem.text], ⟨by simp, ⟨⟨.inr rfl, quotedBody_escape s⟩, trivial⟩, .inl rfl⟩, trivial⟩
  obtain ⟨toks, h1, h2⟩ := C05_complete werror _ _ hlex (by intro _; simp)
  rw [hbom] at h2
  obtain ⟨its2, h3, h4, h5⟩ := tokenizeFrom_sound (tokenize_ok h1)
  simp only [lexemes, List.any_cons, Elem.isComment, List.any_nil, Bool.or_false, Bool.false_eq_true, if_false] at h2
  generalize hrt : realTokens toks = rt at h2
  cases h2 with
  | @cons t _ _ _ hm hn =>
    cases hn
    have htoks : toks = [t] := by
      rcases h5 with h5 | h5
      · rw [h5, hrt]
      · rw [h5] at hrt; simp [realTokens] at hrt
    subst htoks
    obtain ⟨after, ha, hb⟩ := hm.begin
    simp only [elemsText, Elem.text, List.nil_append, List.append_nil, List.cons_append] at ha hb
    have : after = [] := by simpa using ha
    subst this
    refine ⟨t, h1, ?_⟩
    have ht : t = word ('"' :: (escape s ++ ['"'])) [] t.line t.col := by
      have := hm.len
      have hty := hm.ty
      simp only [elemsText, Elem.text, List.append_nil, kindType] at this hty
      cases t
      simp_all [word]
    have hop : opTable.lookup ('"' :: (escape s ++ ['"'])) = none := by
      apply opTable_none_of
      refine .inr (.inr (.inr (.inr (.inl ?_))))
      simp [isConstantStr]
      rw [← List.cons_append, List.getLast?_concat]
    have hstr : isConstantStr ('"' :: (escape s ++ ['"'])) = true := by
      simp [isConstantStr]
      rw [← List.cons_append, List.getLast?_concat]
    have hwt : wordType ('"' :: (escape s ++ ['"'])) = (.strConst, ('"' :: (escape s ++ ['"'])).length) := by
      have n1 : isConstantInteger ('"' :: (escape s ++ ['"'])) ≠ some true := by
        intro h
        obtain ⟨c, t, e, h⟩ := intLit_head ((isInt_of _).1 h).1
        simp only [List.cons.injEq] at e
        rw [← e.1] at h
        rcases h with h | h
        · exact absurd h (by unfold Digit; decide)
        · exact absurd h (by decide)
      have n2 : isConstantFloat ('"' :: (escape s ++ ['"'])) ≠ some true := by
        intro h
        obtain ⟨c, t, e, h⟩ := floatLit_head ((isFloat_of _ (by simp)).1 h)
        simp only [List.cons.injEq] at e
        rw [← e.1] at h
        rcases h with h | h | h | h
        · exact absurd h (by unfold Digit; decide)
        · exact absurd h (by decide)
        · exact absurd h (by decide)
        · exact absurd h (by decide)
      have n3 : isConstantBool ('"' :: (escape s ++ ['"'])) = false := by
        rw [Bool.eq_false_iff]
        simp only [isConstantBool, ne_eq, Bool.or_eq_true, c32scmp_eq]
        rintro (h | h)
        · have := congrArg List.head? h; revert this; simp
        · have := congrArg List.head? h; revert this; simp
      have n4 : isConstantRune ('"' :: (escape s ++ ['"'])) = false := by
        simp [isConstantRune]
      simp [wordType, hop, n1, n2, n3, n4, hstr]
    refine ⟨{ word ('"' :: (escape s ++ ['"'])) [] t.line t.col with ty := .strConst }, ?_, rfl, ?_⟩
    · rw [ht]
      exact (classify_word _ [] t.line t.col (by simp)).trans (by rw [hwt]; rfl)
    · have hnd : NoDangle (escape s) := by
        have := endsOk_quoted (quotedBody_escape s) [] (endsOk_quote_cons (.inr rfl) (.inl rfl))
        exact this (escape s) rfl
      have := evalStr_spec (escape s) [] t.line t.col hnd
      rcases this with ⟨vs, e1, e2⟩ | ⟨e1, e2⟩
      · have := (e2 _).1 (denotes_escape s)
        rw [this]
        exact e1
      · exact absurd (denotes_escape s) (e2 _)

example : Denotes "a\\x41g\\n".toList [97, 0x41, 103, 10] :=
  .plain (by decide) (.hex (ds := ['4', '1']) (s := ['g', '\\', 'n']) (by simp) (by simp)
    (by intro c hc; simp at hc; rcases hc with rfl | rfl <;> (unfold HexDigit Digit; decide))
    (by intro _ c t h; simp at h; rw [← h.1]; unfold HexDigit Digit; decide)
    (.plain (by decide) (.simple (by decide) .nil)))
example : evalStr (word "\"a\\x41g\\n\"".toList ")".toList 1 1) = some (.ok [97, 0x41, 103, 10]) := by decide +kernel
example : evalStr (word "\"\\q\"".toList ")".toList 1 1) = some .badEscape := by decide +kernel

/-! ## C14 Rune literals denote exactly one character -/

/-- Full statement of C14. -/
def C14_full : Prop := ∀ src t, Compiled src t → t.ty = .runeConst →
  ∀ n, evalRune t = .ok n ↔ ∃ body after, HasText t ('\'' :: (body ++ ['\''])) after ∧ RuneBody body n

/-- C14 is false: `'\n'b'c'` is accepted, as a newline. -/
theorem C14_false : ¬ C14_full := by
  intro h
  have h1 := (h "'\\n'b'c'".toList { begin := some "'\\n'b'c'".toList, len := 8, ty := .runeConst, line := 1, col := 1 }
    ⟨false, [{ begin := some "'\\n'b'c'".toList, len := 8, ty := .unknown, line := 1, col := 1 }], _,
      by decide +kernel, List.mem_singleton.2 rfl, by decide +kernel⟩ rfl 10).1 (by decide +kernel)
  obtain ⟨body, after, h2, h3⟩ := h1
  have e : HasText { begin := some "'\\n'b'c'".toList, len := 8, ty := .runeConst, line := 1, col := 1 }
      ('\'' :: ("\\n'b'c".toList ++ ['\''])) [] := ⟨by decide +kernel, by decide +kernel⟩
  have := (hasText_unique h2 e).1
  simp only [List.cons.injEq, true_and] at this
  have := List.append_cancel_right this
  rw [this] at h3
  cases h3

/-- Also, a rune literal of a character above U+00FF calls `iscntrl` with an argument it is not defined for. -/
theorem C14_undefined_above_255 (c : Char) (after : List Char) (l k : Nat) (h : c.toNat > 255) :
    evalRune (word ['\'', c, '\''] after l k) = .ub := by
  simp [evalRune, word, h]

/-- What holds: a rune token made of a single quoted part, whose first character is at most U+00FF, is accepted exactly when it is one
character (no control character) or one escape between quotes, with the value of that; and evaluating it is defined. -/
theorem C14_rune_partial (src : List Char) (t : Token) (_h : Compiled src t) (hty : t.ty = .runeConst)
    (body after : List Char) (htext : HasText t ('\'' :: (body ++ ['\''])) after) (hq : QuotedBody '\'' body)
    (h255 : ∀ c s, body = c :: s → c.toNat ≤ 255) :
    (∀ n, evalRune t = .ok n ↔ RuneBody body n) ∧ evalRune t ≠ .ub := by
  obtain ⟨es, after', l, k, h1, h2, h3, h4, h5, h6, h7⟩ := compiled_word _h (by simp [hty])
  obtain ⟨e1, rfl⟩ := hasText_unique htext h1
  have hne : body ≠ [] := by
    rintro rfl
    rw [hty, ← e1] at h7
    rw [C10_text_only_type _ l k] at h7
    simp at h7
  obtain ⟨r, g1, g2, g3⟩ := evalRune_spec body after l k hq hne h255
  have he : evalRune t = evalRune (word ('\'' :: (body ++ ['\''])) after l k) := by rw [h6, ← e1]; rfl
  rw [he, g1]
  exact ⟨fun n => (g3 n).symm, g2⟩
where
  C10_text_only_type (after : List Char) (l k : Nat) : typeOf ('\'' :: ([] ++ ['\''])) after l k = some .unknown := by
    rw [typeOf_eq _ _ _ _ (by simp)]
    decide +kernel

example : QuotedBody '\'' "\\x41".toList ∧ evalRune (word "'\\x41'".toList ")".toList 1 1) = .ok 0x41 := by
  refine ⟨?_, by decide +kernel⟩
  exact .plain (by decide) (fun _ => ⟨'x', ['4', '1'], rfl, by decide⟩) (.plain (by decide) (fun h => absurd h (by decide))
    (.plain (by decide) (fun h => absurd h (by decide)) (.plain (by decide) (fun h => absurd h (by decide)) .nil)))
example : evalRune (word "'ab'".toList ")".toList 1 1) = .runeTooLong := by decide +kernel
example : evalRune (word "'\\xD800'".toList ")".toList 1 1) = .illegalSeq := by decide +kernel

/-! ## C15 Evaluating a literal stays inside its buffers -/

/-- Full statement of C15: no literal of any source is evaluated with undefined behaviour. -/
def C15_full : Prop := ∀ src t, Compiled src t →
  (t.ty = .intConst → evalInteger t ≠ .ub) ∧
  (t.ty = .floatConst → ∀ (F : Type) (strtod : List Char → F × Bool) (a b c : F), evalFloat strtod a b c t ≠ .ub) ∧
  (t.ty = .strConst → evalStr t ≠ some .ub ∧ evalStr t ≠ none) ∧
  (t.ty = .runeConst → evalRune t ≠ .ub)

/-- C15 is false, for the hexadecimal literal in `x := 0x1`, followed by a line that starts with an underscore. -/
theorem C15_false : ¬ C15_full := by
  intro h
  have := (h "x := 0x1\n_# hi".toList hexBeforeUnderscore
    ⟨false, (okTokens (tokenize false "x := 0x1\n_# hi".toList)).getD [],
      { begin := some "0x1\n_# hi".toList, len := 3, ty := .unknown, line := 1, col := 6 },
      by decide +kernel, by decide +kernel, by decide +kernel⟩).1 rfl
  exact this (by decide +kernel)

/-- What holds: evaluating floats and strings is always defined; an integer is evaluated with undefined behaviour exactly if it has a base
prefix and an underscore is the second character behind it; a rune exactly if its first character is above U+00FF. -/
theorem C15_memory_partial (src : List Char) (t : Token) (h : Compiled src t) :
    (t.ty = .intConst → ∃ text after, HasText t text after ∧
      (evalInteger t = .ub ↔ after[1]? = some '_' ∧ ∃ x s, text = '0' :: x :: s ∧ x ∈ ['x', 'b', 'o'])) ∧
    (t.ty = .floatConst → ∀ (F : Type) (strtod : List Char → F × Bool) (a b c : F), evalFloat strtod a b c t ≠ .ub) ∧
    (t.ty = .strConst → evalStr t ≠ some .ub ∧ evalStr t ≠ none) ∧
    (t.ty = .runeConst → ∃ c text after, HasText t ('\'' :: c :: text) after ∧ (evalRune t = .ub ↔ 255 < c.toNat)) := by
  refine ⟨fun hty => ?_, fun hty F strtod a b c => ?_, fun hty => ?_, fun hty => ?_⟩
  · obtain ⟨es, after, l, k, h1, h2, h3, h4, h5, h6, h7⟩ := compiled_word h (by simp [hty])
    rw [hty] at h7
    have hi := (C07_integers_partial _ after l k (elemsText_ne_nil h2)).1 h7
    have he : evalInteger t = evalInteger (word (elemsText es) after l k) := by rw [h6]; rfl
    generalize elemsText es = text at h1 hi he
    refine ⟨text, after, h1, ?_⟩
    rw [he]
    obtain ⟨hi, h0⟩ := hi
    have npre : ∀ {s : List Char}, Groups Digit s → ¬ ∃ x u, s = '0' :: x :: u ∧ x ∈ ['x', 'b', 'o'] := by
      rintro s hg ⟨x, u, rfl, hx⟩
      simp only [List.mem_cons, List.not_mem_nil, or_false] at hx
      rcases groups_mem hg x (by simp) with h | h
      · rcases hx with rfl | rfl | rfl <;> exact absurd h (by unfold Digit; decide)
      · rcases hx with rfl | rfl | rfl <;> exact absurd h (by decide)
    cases hi with
    | dec hg =>
      rw [evalInteger_dec _ after l k hg h0 h4]
      have := npre hg
      split <;> simp [-List.mem_cons] <;> (intro _ x u hx hm; exact this ⟨x, u, hx, hm⟩)
    | neg hg =>
      rw [evalInteger_neg _ after l k hg]
      split <;> simp
    | hex hg =>
      rw [evalInteger_prefixed baseHex 'x' _ after l k (fun u => rfl) hg h4]
      split
      · next h => simp [h]
      · next h => split <;> simp [h]
    | bin hg =>
      rw [evalInteger_prefixed baseBin 'b' _ after l k (fun u => rfl) hg h4]
      split
      · next h => simp [h]
      · next h => split <;> simp [h]
    | oct hg =>
      rw [evalInteger_prefixed baseOct 'o' _ after l k (fun u => rfl) hg h4]
      split
      · next h => simp [h]
      · next h => split <;> simp [h]
  · obtain ⟨_, _, _, h⟩ := C12_float_text strtod a b c src t h hty
    rcases h with ⟨_, h⟩ | ⟨_, h⟩ | ⟨_, h⟩ | ⟨_, h⟩ <;> rw [h]
    · simp
    · simp
    · simp
    · split <;> simp
  · obtain ⟨body, after, _, h1, h2⟩ := C13_string_value src t h hty
    by_cases hd : ∃ vs, Denotes body vs
    · obtain ⟨vs, hv⟩ := hd
      rw [(h1 vs).2 hv]; simp
    · rw [h2 hd]; simp
  · obtain ⟨es, after, l, k, h1, h2, h3, h4, h5, h6, h7⟩ := compiled_word h (by simp [hty])
    rw [hty] at h7
    have hs : isConstantRune (elemsText es) = true := by
      rw [typeOf_eq _ _ _ _ (elemsText_ne_nil h2)] at h7
      simp only [Option.some.injEq, wordType] at h7
      split at h7
      · next hl => exact absurd h7 (opTable_all _ (lookup_mem _ _ _ hl)).2.2.2.2.2.2.2.2.2.2.2.1
      · grind
    have he : evalRune t = evalRune (word (elemsText es) after l k) := by rw [h6]; rfl
    generalize elemsText es = text at h1 hs he
    rw [he]
    match text, hs with
    | [], hs => simp [isConstantRune] at hs
    | [q], hs => exact absurd hs (by simp [isConstantRune])
    | q :: c :: s, hs =>
      have hq : q = '\'' := by
        simp only [isConstantRune] at hs
        split at hs
        · simp at hs
        · next h => simp at h; exact h.1
      subst hq
      refine ⟨c, s, after, h1, ?_⟩
      simp only [evalRune, word, List.cons_append]
      by_cases h255 : c.toNat > 255
      · simp [h255]
      · rw [if_neg h255]
        have : ¬ (255 < c.toNat) := h255
        simp only [this, iff_false]
        split
        · simp
        · split
          · simp
          · next v r hv =>
            split
            · exact absurd rfl (unescape_rest_ne hv)
            · split
              · simp
              · split <;> simp

end Skull
