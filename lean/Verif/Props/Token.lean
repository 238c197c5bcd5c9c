import Verif.Proofs.TokenMain
/-
C01-C06: the tokenizer.
-/
namespace Skull
open Skull.Spec

/-- The tokens of a successful run, for stating concrete cases. -/
def okTokens : Option (TokRes (List Token)) → Option (List Token)
  | some (.ok ts) => some ts
  | _ => none

/-- The text of a token. -/
def textOf (t : Token) : Option String := t.begin.map fun s => String.ofList (s.take t.len)

/-! ## C01 Tokenizing is total and stays inside the source buffer -/

/-- For every source text, with and without `--werror`, tokenizing ends (the result is not "out of fuel"), without undefined
behaviour, in a token list or a diagnosed error. -/
theorem C01_tokenize_total (werror : Bool) (src : List Char) :
    (∃ toks, tokenize werror src = some (.ok toks)) ∨ (∃ e line col, tokenize werror src = some (.err e line col)) := by
  rw [tokenize_eq]
  split
  · exact .inr ⟨_, _, _, rfl⟩
  · exact tokenizeFrom_total _

/-- Every token lies inside the source: it points at a suffix of the source that is at least as long as the token. -/
theorem C01_tokens_in_bounds (werror : Bool) (src : List Char) (toks : List Token)
    (h : tokenize werror src = some (.ok toks)) :
    ∀ t ∈ toks, ∀ rest, t.begin = some rest → (∃ before, src = before ++ rest) ∧ t.len ≤ rest.length := by
  intro t ht rest hr
  obtain ⟨l, hl⟩ := real_matches h t ht (by simp [hr])
  obtain ⟨after, hs, hb⟩ := hl.begin
  rw [hr] at hb
  simp only [Option.some.injEq] at hb
  subst hb
  refine ⟨?_, by rw [hl.len]; simp⟩
  have : ∃ p, src = p ++ stripBom src := by
    cases src with
    | nil => exact ⟨[], rfl⟩
    | cons c s =>
      simp only [stripBom]
      split
      · exact ⟨[c], rfl⟩
      · exact ⟨[], rfl⟩
  obtain ⟨p, hp⟩ := this
  exact ⟨p ++ l.before, by rw [List.append_assoc, ← hs]; exact hp⟩

example : (okTokens (tokenize false "x := 1 # hi".toList)).map (·.map textOf) =
    some [some "x", some ":=", some "1", some "# hi"] := by decide +kernel
example : tokenize false "'".toList = some (.err .noClosingQuote 1 1) := by decide +kernel

/-! ## C02 No source text is lost between tokens -/

/-- The tokens are consecutive non-empty slices of the source, and what is between them is blanks only. -/
theorem C02_no_text_lost (werror : Bool) (src : List Char) (toks : List Token)
    (h : tokenize werror src = some (.ok toks)) : Tiling (stripBom src) (realTokens toks) := by
  obtain ⟨its, h1, h2, _⟩ := tokenizeFrom_sound (tokenize_ok h)
  have := tiling_of_items (stripBom src) its [] _ (by simp [h1.1]) h1.2 h2
  rwa [h1.1] at this

/-- The only token that is not a slice of the source is the placeholder for a source of blanks. -/
theorem C02_only_placeholder (werror : Bool) (src : List Char) (toks : List Token)
    (h : tokenize werror src = some (.ok toks)) (t : Token) (ht : t ∈ toks) (hn : t.begin = none) :
    toks = [t] ∧ ∀ c ∈ stripBom src, Blank c := by
  have ht2 := C02_no_text_lost werror src toks h
  obtain ⟨its, h1, h2, h3⟩ := tokenizeFrom_sound (tokenize_ok h)
  rcases h3 with h3 | h3
  · rw [h3] at ht
    simp [realTokens, hn] at ht
  · subst h3
    refine ⟨by simp at ht; simp [ht], ?_⟩
    have hr : realTokens [({} : Token)] = [] := rfl
    rw [hr] at ht2
    generalize stripBom src = s at ht2
    generalize hx : ([] : List Token) = ts at ht2
    clear h h1 h2 ht hr
    induction ht2 with
    | nil => simp
    | blank hb _ ih =>
      intro c hc
      rcases List.mem_cons.1 hc with rfl | hc
      · exact hb
      · exact ih hx c hc
    | token => simp at hx

example : (okTokens (tokenize false "f(a, \"x y\")".toList)).map (·.map textOf) =
    some [some "f", some "(", some "a", some ",", some "\"x y\"", some ")"] := by decide +kernel

/-! ## C03 Reported line numbers are right -/

/-- The line of a token is one plus the number of newlines before its first character. -/
theorem C03_line_numbers (werror : Bool) (src : List Char) (toks : List Token)
    (h : tokenize werror src = some (.ok toks)) :
    ∀ t ∈ toks, ∀ before rest, t.begin = some rest → stripBom src = before ++ rest →
      t.line = 1 + before.count '\n' := by
  intro t ht before rest hr hs
  obtain ⟨l, hl⟩ := real_matches h t ht (by simp [hr])
  obtain ⟨after, hs2, hb⟩ := hl.begin
  rw [hr] at hb
  simp only [Option.some.injEq] at hb
  subst hb
  rw [hs2] at hs
  have := List.append_cancel_right hs
  rw [hl.line, lineAfter, this]

example : (okTokens (tokenize false "'\n'\nx #{ \n\n #} y".toList)).map (·.map (·.line)) =
    some [1, 2, 3, 3, 5] := by decide +kernel

/-! ## C04 Reported column numbers are right -/

/-- Full statement of C04. -/
def C04_full : Prop := ∀ (werror : Bool) (src : List Char) (toks : List Token),
  tokenize werror src = some (.ok toks) →
    ∀ t ∈ toks, ∀ before rest, t.begin = some rest → stripBom src = before ++ rest → t.col = columnAfter before

/-- C04 is false: a quoted literal does not advance the column.  In `"ab" x` the token `x` is reported at column 3. -/
theorem C04_false : ¬ C04_full := by
  intro h
  have := h false "\"ab\" x".toList
    [{ begin := some "\"ab\" x".toList, len := 4, ty := .unknown, line := 1, col := 1 },
     { begin := some ['x'], len := 1, ty := .unknown, line := 1, col := 3 }] (by decide +kernel)
    { begin := some ['x'], len := 1, ty := .unknown, line := 1, col := 3 } (by decide +kernel)
    "\"ab\" ".toList ['x'] rfl (by decide +kernel)
  exact absurd this (by decide +kernel)

/-- The newline that ends a line comment is also reported one column late. -/
theorem C04_false_comment : (okTokens (tokenize false "# a\n".toList)).map (·.map (·.col)) = some [1, 5] ∧
    columnAfter "# a".toList = 4 := by decide +kernel

/-- C04 holds for every token whose line has no quote and no comment in front of the token. -/
theorem C04_columns_partial (werror : Bool) (src : List Char) (toks : List Token)
    (h : tokenize werror src = some (.ok toks)) :
    ∀ t ∈ toks, ∀ before rest, t.begin = some rest → stripBom src = before ++ rest →
      (∀ c ∈ lastLine before, ¬ Quote c ∧ c ≠ '#') → t.col = columnAfter before := by
  intro t ht before rest hr hs
  obtain ⟨l, hl⟩ := real_matches h t ht (by simp [hr])
  obtain ⟨after, hs2, hb⟩ := hl.begin
  rw [hr] at hb
  simp only [Option.some.injEq] at hb
  subst hb
  rw [hs2] at hs
  have := List.append_cancel_right hs
  subst this
  exact hl.col

example : (okTokens (tokenize false "a\n\tx := \"\"".toList)).map (·.map (·.col)) =
    some [1, 2, 2, 4, 7] := by decide +kernel

/-! ## C05 The lexical grammar is exactly the documented one -/

/-- Soundness: an accepted text has an analysis by the grammar, and the tokens are those of the analysis. -/
theorem C05_sound (werror : Bool) (src : List Char) (toks : List Token)
    (h : tokenize werror src = some (.ok toks)) :
    ∃ its, Lexes (stripBom src) its ∧ All2 (Matches (stripBom src)) (realTokens toks) (lexemes [] its) := by
  obtain ⟨its, h1, h2, _⟩ := tokenizeFrom_sound (tokenize_ok h)
  exact ⟨its, h1, h2⟩

/-- Completeness: a text with an analysis is accepted (unless a byte order mark is made an error by `--werror`), with the
tokens of that analysis. -/
theorem C05_complete (werror : Bool) (src : List Char) (its : List Item) (h : Lexes (stripBom src) its)
    (hbom : werror = true → src.head? ≠ some (Char.ofNat 0xFEFF)) :
    ∃ toks, tokenize werror src = some (.ok toks) ∧
      All2 (Matches (stripBom src)) (realTokens toks) (lexemes [] its) := by
  obtain ⟨toks, h1, h2, _⟩ := tokenizeFrom_complete h
  refine ⟨toks, ?_, h2⟩
  rw [tokenize_eq, if_neg (fun hw => hbom hw.1 hw.2), h1]

/-- A text with no analysis is rejected with a diagnostic. -/
theorem C05_reject (werror : Bool) (src : List Char) (h : ¬ ∃ its, Lexes (stripBom src) its) :
    ∃ e line col, tokenize werror src = some (.err e line col) := by
  rcases C01_tokenize_total werror src with ⟨toks, ht⟩ | h2
  · obtain ⟨its, h1, _⟩ := C05_sound _ _ _ ht
    exact absurd ⟨its, h1⟩ h
  · exact h2

/-- The grammar is unambiguous: two analyses of a text have the same tokens at the same places. -/
theorem C05_unambiguous (src : List Char) (a b : List Item) (ha : Lexes src a) (hb : Lexes src b) :
    (lexemes [] a).map (fun l => (l.before, l.text)) = (lexemes [] b).map (fun l => (l.before, l.text)) := by
  obtain ⟨toks, h1, h2, _⟩ := tokenizeFrom_complete ha
  obtain ⟨toks', h1', h2', _⟩ := tokenizeFrom_complete hb
  rw [h1] at h1'
  simp only [Option.some.injEq, TokRes.ok.injEq] at h1'
  subst h1'
  generalize realTokens toks = rt at h2 h2'
  generalize lexemes [] a = la at h2
  generalize lexemes [] b = lb at h2'
  induction h2 generalizing lb with
  | nil => cases h2'; rfl
  | cons hm _ ih =>
    cases h2' with
    | cons hm' h2' =>
      have := matches_unique hm hm'
      simp only [List.map_cons, this.1, this.2, ih _ h2']

example : Lexes "f \"a b\"".toList
    [.chunk [.plain 'f'], .blank ' ', .chunk [.quoted '"' ['a', ' ', 'b']]] := by
  refine ⟨rfl, ?_⟩
  refine ⟨⟨by simp, ⟨by simp [Elem.Ok, Blank, Delim, Quote], trivial⟩, .inr ⟨' ', _, rfl, .inl (.inl rfl)⟩⟩, .inl rfl,
    ⟨by simp, ⟨⟨.inr rfl, ?_⟩, trivial⟩, .inl rfl⟩, trivial⟩
  exact .plain (by decide) (fun h => absurd h (by decide)) (.plain (by decide) (fun h => absurd h (by decide)) (.plain (by decide) (fun h => absurd h (by decide)) .nil))

/-! ## C06 A comment is only the comment -/

/-- Full statement of C06: every comment token is exactly one comment, a line comment or a block comment that ends at the first
`#}`. -/
def C06_full : Prop := ∀ (werror : Bool) (src : List Char) (toks : List Token),
  tokenize werror src = some (.ok toks) →
    ∀ t ∈ toks, ∀ rest, t.begin = some rest → t.ty = .comment →
      (∃ st body, rest.take t.len = '#' :: st :: body ∧ (st = ' ' ∨ st = '\t') ∧ '\n' ∉ body) ∨
      (∃ body, rest.take t.len = '#' :: '{' :: (body ++ ['#', '}']) ∧ ∀ a b, body ≠ a ++ '#' :: '}' :: b)

/-- C06 is false: in `1# c` the whole chunk, with the `1`, is the comment token. -/
theorem C06_false : ¬ C06_full := by
  intro h
  rcases h false "1# c".toList [{ begin := some "1# c".toList, len := 4, ty := .comment, line := 1, col := 1 }]
    (by decide +kernel) { begin := some "1# c".toList, len := 4, ty := .comment, line := 1, col := 1 }
    (by decide +kernel) _ rfl rfl with ⟨st, body, h, _⟩ | ⟨body, h, _⟩
  · exact absurd h (by simp)
  · exact absurd h (by simp)

/-- Text glued to the end of a block comment is swallowed by the comment: `#{ a #}x := 1` loses `x`. -/
theorem C06_false_glued : (okTokens (tokenize false "#{ a #}x := 1".toList)).map (·.map fun t => (textOf t, t.ty)) =
    some [(some "#{ a #}x", .comment), (some ":=", .unknown), (some "1", .unknown)] := by decide +kernel

/-- `##}` does not end a block comment, so the comment below is never closed. -/
theorem C06_false_hash : tokenize false "#{ a ##} b".toList = some (.err .noClosingComment 1 1) := by decide +kernel

/-- C06 holds for comments that stand alone: when the text before the comment ends in a blank or delimiter (or is empty), a comment
`e` is followed by the end of file, a blank or a delimiter, the token is exactly the comment, and the tokens before
and after it are those of the text before and after it. -/
theorem C06_comment_partial (pre post : List Char) (a b : List Item) (e : Elem)
    (ha : Lexes pre a) (hb : Lexes post b)
    (hlast : a = [] ∨ (∃ a' c, a = a' ++ [.blank c]) ∨ (∃ a' c, a = a' ++ [.delim c]))
    (hcom : e.isComment = true) (hok : e.Ok post) (hend : ChunkEnd post)
    (hbom : pre.head? ≠ some (Char.ofNat 0xFEFF)) :
    ∃ toks, tokenize false (pre ++ e.text ++ post) = some (.ok toks) ∧
      All2 (Matches (pre ++ e.text ++ post)) (realTokens toks)
        (lexemes [] a ++ ⟨pre, e.text, .comment⟩ :: lexemes (pre ++ e.text) b) := by
  have hsb : stripBom (pre ++ e.text ++ post) = pre ++ e.text ++ post := by
    cases pre with
    | nil =>
      cases e <;> simp [Elem.text, Elem.isComment] at hcom ⊢ <;> simp [stripBom]
    | cons c s =>
      simp only [List.head?_cons, ne_eq, Option.some.injEq] at hbom
      simp [stripBom, hbom]
  have hl : Lexes (pre ++ e.text ++ post) (a ++ .chunk [e] :: b) := by
    refine ⟨by simp [itemsText_append, itemsText, Item.text, elemsText, ha.1, hb.1], ?_⟩
    refine itemsOk_append_of_sep a _ ha.2 ?_ hlast
    refine ⟨⟨by simp, ⟨?_, trivial⟩, ?_⟩, hb.2⟩
    · simpa [elemsText, hb.1] using hok
    · rw [hb.1]; exact hend
  obtain ⟨toks, h1, h2⟩ := C05_complete false (pre ++ e.text ++ post) _ (by rw [hsb]; exact hl) (by simp)
  refine ⟨toks, h1, ?_⟩
  rw [hsb, lexemes_append] at h2
  simpa [lexemes, elemsText, hcom, ha.1] using h2

example : (okTokens (tokenize false "x # hi\ny".toList)).map (·.map fun t => (textOf t, t.ty)) =
    some [(some "x", .unknown), (some "# hi", .comment), (some "\n", .newline), (some "y", .unknown)] := by decide +kernel

end Skull
