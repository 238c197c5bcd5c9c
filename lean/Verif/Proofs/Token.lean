import Verif.Model.Token
import Verif.Spec.Lexical
/-
Lemmas about the tokenizer.
-/
set_option linter.unusedSimpArgs false

namespace Skull
open Skull.Spec

/-! ### The quote loop -/

theorem quote_ne_nl {q : Char} (h : Quote q) : q ≠ '\n' := by
  rcases h with rfl | rfl <;> decide

theorem quote_ne_bs {q : Char} (h : Quote q) : q ≠ '\\' := by
  rcases h with rfl | rfl <;> decide

theorem quoteLoop_sound (q : Char) (hq : Quote q) :
    ∀ (x : Char) (t : List Char) (line col : Nat) (r : List Char) (l k : Nat),
      quoteLoop q (x :: t) line col = .at r l k →
      ∃ body s, t = body ++ q :: s ∧ r = q :: s ∧ QuotedBody q body ∧ l = line + body.count '\n' := by
  intro x t
  induction h : t.length using Nat.strongRecOn generalizing x t with
  | ind n ih =>
    intro line col r l k hl
    subst h
    match t with
    | [] => simp [quoteLoop] at hl
    | d :: rest =>
      unfold quoteLoop at hl
      split at hl
      · next hd =>
        subst hd
        obtain ⟨body, s, h1, h2, h3, h4⟩ := ih rest.length (by simp) '\n' rest rfl _ _ _ _ _ hl
        refine ⟨'\n' :: body, s, by simp [h1], h2, ?_, ?_⟩
        · exact .plain (quote_ne_nl hq).symm (fun h => absurd h (by decide)) h3
        · simp [List.count_cons, h4]; omega
      · next hd =>
        split at hl
        · next he =>
          simp only [Bool.and_eq_true, decide_eq_true_eq] at he
          obtain ⟨rfl, he⟩ := he
          match rest with
          | [] => simp [escapesNext] at he
          | e :: rest' =>
            obtain ⟨body, s, h1, h2, h3, h4⟩ := ih rest'.length (by simp; omega) e rest' rfl _ _ _ _ _ hl
            simp only [escapesNext, Bool.or_eq_true, decide_eq_true_eq] at he
            refine ⟨'\\' :: e :: body, s, by simp [h1], h2, .escape he h3, ?_⟩
            have : e ≠ '\n' := by
              rcases he with rfl | rfl
              · decide
              · exact quote_ne_nl hq
            simp [List.count_cons, h4, this]
        · next he =>
          split at hl
          · next hdq =>
            subst hdq
            cases hl
            exact ⟨[], rest, rfl, rfl, .nil, by simp⟩
          · next hdq =>
            obtain ⟨body, s, h1, h2, h3, h4⟩ := ih rest.length (by simp) d rest rfl _ _ _ _ _ hl
            refine ⟨d :: body, s, by simp [h1], h2, ?_, ?_⟩
            · refine .plain hdq ?_ h3
              intro hbs
              subst hbs
              simp only [decide_true, Bool.true_and, Bool.not_eq_true] at he
              subst h1
              cases body with
              | nil => simp [escapesNext] at he
              | cons b bs => simp [escapesNext] at he; exact ⟨b, bs, rfl, he.1⟩
            · simp [List.count_cons, h4, hd]

theorem quoteLoop_complete (q : Char) (hq : Quote q) {body : List Char} (hb : QuotedBody q body) :
    ∀ (x : Char) (s : List Char) (line col : Nat),
      ∃ k, quoteLoop q (x :: (body ++ q :: s)) line col = .at (q :: s) (line + body.count '\n') k := by
  induction hb with
  | nil =>
    intro x s line col
    refine ⟨col, ?_⟩
    simp [quoteLoop, quote_ne_nl hq, quote_ne_bs hq]
  | @escape e body he _ ih =>
    intro x s line col
    obtain ⟨k, hk⟩ := ih e s line (col + 1)
    refine ⟨k, ?_⟩
    have he' : e ≠ '\n' := by
      rcases he with rfl | rfl
      · decide
      · exact quote_ne_nl hq
    have : escapesNext q (e :: (body ++ q :: s)) = true := by simpa [escapesNext] using he
    simp [quoteLoop, this, hk, List.count_cons, he']
  | @plain c body hc hbs hbody ih =>
    intro x s line col
    by_cases hn : c = '\n'
    · subst hn
      obtain ⟨k, hk⟩ := ih '\n' s (line + 1) 0
      refine ⟨k, ?_⟩
      simp only [List.cons_append, quoteLoop, if_true, hk]
      simp [List.count_cons]; omega
    · obtain ⟨k, hk⟩ := ih c s line col
      refine ⟨k, ?_⟩
      have hesc : (decide (c = '\\') && escapesNext q (body ++ q :: s)) = false := by
        by_cases hcb : c = '\\'
        · obtain ⟨d, s', hs, hd⟩ := hbs hcb
          subst hs
          have hdq : d ≠ q := by
            cases hbody with
            | escape => exact (quote_ne_bs hq).symm
            | plain h _ _ => exact h
          simp [hcb, escapesNext, hd, hdq]
        · simp [hcb]
      have h2 : quoteLoop q (x :: (c :: body ++ q :: s)) line col = quoteLoop q (c :: (body ++ q :: s)) line col := by
        show (if c = '\n' then _ else if (decide (c = '\\') && escapesNext q (body ++ q :: s)) = true then _ else if c = q then _ else _) = _
        rw [if_neg hn, hesc, if_neg hc]
        simp
      rw [h2, hk]
      simp [List.count_cons, hn]

theorem quoteLoop_no_ub (q x : Char) (t : List Char) (line col : Nat) :
    quoteLoop q (x :: t) line col ≠ .ub ∧ ∀ l k, quoteLoop q (x :: t) line col ≠ .nested l k := by
  induction h : t.length using Nat.strongRecOn generalizing x t line col with
  | ind n ih =>
    subst h
    match t with
    | [] => simp [quoteLoop]
    | d :: rest =>
      unfold quoteLoop
      split
      · exact ih _ (by simp) _ _ _ _ rfl
      · split
        · next he =>
          match rest with
          | [] => simp [escapesNext] at he
          | e :: rest' => exact ih _ (by simp; omega) _ _ _ _ rfl
        · split
          · simp
          · exact ih _ (by simp) _ _ _ _ rfl

/-! ### The line comment loop -/

theorem lineLoop_cons2 (c d : Char) (rest : List Char) (line col : Nat) :
    commentLoop false (c :: d :: rest) line col =
      if d = '\n' then .at (c :: d :: rest) line (col + 1)
      else commentLoop false (d :: rest) line (col + 1) := by
  conv => lhs; unfold commentLoop
  by_cases h : d = '\n' <;> simp [h]

theorem blockLoop_cons_ne (c d : Char) (rest : List Char) (line col : Nat) (h : d ≠ '#') :
    commentLoop true (c :: d :: rest) line col =
      if d = '\n' then commentLoop true (d :: rest) (line + 1) 0
      else commentLoop true (d :: rest) line (col + 1) := by
  conv => lhs; unfold commentLoop
  simp [h]

/-- A list that contains a newline splits at the first one. -/
theorem split_at_nl : ∀ (t : List Char), '\n' ∈ t → ∃ body s, t = body ++ '\n' :: s ∧ '\n' ∉ body := by
  intro t
  induction t with
  | nil => simp
  | cons a t ih =>
    intro h
    by_cases ha : a = '\n'
    · exact ⟨[], t, by simp [ha], by simp⟩
    · have : '\n' ∈ t := by
        rcases List.mem_cons.1 h with h | h
        · exact absurd h.symm ha
        · exact h
      obtain ⟨body, s, h1, h2⟩ := ih this
      refine ⟨a :: body, s, by simp [h1], ?_⟩
      simp only [List.mem_cons, not_or]
      exact ⟨fun e => ha e.symm, h2⟩

theorem lineLoop_nl : ∀ (body : List Char) (x : Char) (s : List Char) (line col : Nat),
    '\n' ∉ body →
    commentLoop false (x :: (body ++ '\n' :: s)) line col =
      .at ((x :: body).getLast (by simp) :: '\n' :: s) line (col + body.length + 1) := by
  intro body
  induction body with
  | nil => intro x s line col _; simp [lineLoop_cons2]
  | cons b bs ih =>
    intro x s line col h
    simp only [List.mem_cons, not_or] at h
    have hb : b ≠ '\n' := fun e => h.1 e.symm
    rw [List.cons_append, lineLoop_cons2, if_neg hb, ih b s line (col + 1) h.2]
    simp; omega

theorem lineLoop_eof : ∀ (body : List Char) (x : Char) (line col : Nat),
    '\n' ∉ body →
    commentLoop false (x :: body) line col = .eof line (col + body.length + 1) := by
  intro body
  induction body with
  | nil => intro x line col _; simp [commentLoop]
  | cons b bs ih =>
    intro x line col h
    simp only [List.mem_cons, not_or] at h
    have hb : b ≠ '\n' := fun e => h.1 e.symm
    rw [lineLoop_cons2, if_neg hb, ih b line (col + 1) h.2]
    simp; omega

/-! ### The block comment loop -/

theorem blockLoop_sound : ∀ (x : Char) (t : List Char) (line col : Nat) (r : List Char) (l k : Nat),
      commentLoop true (x :: t) line col = .at r l k →
      ∃ body s, t = body ++ '#' :: '}' :: s ∧ r = '}' :: s ∧ BlockBody body ∧ l = line + body.count '\n' := by
  intro x t
  induction h : t.length using Nat.strongRecOn generalizing x t with
  | ind n ih =>
    intro line col r l k hl
    subst h
    match t with
    | [] => simp [commentLoop] at hl
    | d :: rest =>
      unfold commentLoop at hl
      simp only [Bool.not_true, Bool.false_and, Bool.false_eq_true, if_false, Bool.true_and,
        decide_eq_true_eq] at hl
      split at hl
      · next hd =>
        subst hd
        match rest with
        | [] => simp at hl
        | e :: rest' =>
          simp only at hl
          split at hl
          · next he =>
            subst he
            cases hl
            exact ⟨[], rest', rfl, rfl, .nil, by simp⟩
          · next he =>
            split at hl
            · next he2 =>
              subst he2
              obtain ⟨body, s, h1, h2, h3, h4⟩ := ih rest'.length (by simp; omega) _ rest' rfl _ _ _ _ _ hl
              refine ⟨'#' :: '\n' :: body, s, by simp [h1], h2, .hash (by decide) (by decide) h3, ?_⟩
              simp [List.count_cons, h4]; omega
            · next he2 =>
              split at hl
              · simp at hl
              · next he3 =>
                obtain ⟨body, s, h1, h2, h3, h4⟩ := ih rest'.length (by simp; omega) _ rest' rfl _ _ _ _ _ hl
                refine ⟨'#' :: e :: body, s, by simp [h1], h2, .hash he he3 h3, ?_⟩
                simp [List.count_cons, h4, he2]
      · next hd =>
        split at hl
        · next hn =>
          subst hn
          obtain ⟨body, s, h1, h2, h3, h4⟩ := ih rest.length (by simp) _ rest rfl _ _ _ _ _ hl
          refine ⟨'\n' :: body, s, by simp [h1], h2, .plain (by decide) h3, ?_⟩
          simp [List.count_cons, h4]; omega
        · next hn =>
          obtain ⟨body, s, h1, h2, h3, h4⟩ := ih rest.length (by simp) _ rest rfl _ _ _ _ _ hl
          refine ⟨d :: body, s, by simp [h1], h2, .plain hd h3, ?_⟩
          simp [List.count_cons, h4, hn]

theorem blockLoop_complete {body : List Char} (hb : BlockBody body) :
    ∀ (x : Char) (s : List Char) (line col : Nat),
      ∃ k, commentLoop true (x :: (body ++ '#' :: '}' :: s)) line col =
        .at ('}' :: s) (line + body.count '\n') k := by
  induction hb with
  | nil => intro x s line col; exact ⟨col + 2, by simp [commentLoop]⟩
  | @plain c body hc _ ih =>
    intro x s line col
    by_cases hn : c = '\n'
    · subst hn
      obtain ⟨k, hk⟩ := ih '\n' s (line + 1) 0
      refine ⟨k, ?_⟩
      rw [List.cons_append, blockLoop_cons_ne _ _ _ _ _ hc, if_pos rfl, hk]
      simp [List.count_cons]; omega
    · obtain ⟨k, hk⟩ := ih c s line (col + 1)
      refine ⟨k, ?_⟩
      rw [List.cons_append, blockLoop_cons_ne _ _ _ _ _ hc, if_neg hn, hk]
      simp [List.count_cons, hn]
  | @hash c body hc hc2 _ ih =>
    intro x s line col
    by_cases hn : c = '\n'
    · subst hn
      obtain ⟨k, hk⟩ := ih '\n' s (line + 1) 0
      refine ⟨k, ?_⟩
      simp only [List.cons_append, commentLoop]
      simp [hk, List.count_cons]; omega
    · obtain ⟨k, hk⟩ := ih c s line (col + 2)
      refine ⟨k, ?_⟩
      simp only [List.cons_append, commentLoop]
      simp [hk, List.count_cons, hn, hc, hc2]

theorem commentLoop_no_ub (b : Bool) (x : Char) (t : List Char) (line col : Nat) :
    commentLoop b (x :: t) line col ≠ .ub := by
  induction h : t.length using Nat.strongRecOn generalizing x t line col with
  | ind n ih =>
    subst h
    match t with
    | [] => simp [commentLoop]
    | d :: rest =>
      unfold commentLoop
      split
      · simp
      · split
        · match rest with
          | [] => simp
          | e :: rest' =>
            simp only
            split
            · simp
            · split
              · exact ih _ (by simp; omega) _ _ _ _ rfl
              · split
                · simp
                · exact ih _ (by simp; omega) _ _ _ _ rfl
        · split
          · exact ih _ (by simp) _ _ _ _ rfl
          · exact ih _ (by simp) _ _ _ _ rfl

/-- The line comment loop reaches the end of the line. -/
theorem lineLoop_sound (x : Char) (t : List Char) (line col : Nat) :
    (∃ body s, t = body ++ '\n' :: s ∧ '\n' ∉ body ∧ commentLoop false (x :: t) line col =
      .at ((x :: body).getLast (by simp) :: '\n' :: s) line (col + body.length + 1)) ∨
    ('\n' ∉ t ∧ commentLoop false (x :: t) line col = .eof line (col + t.length + 1)) := by
  by_cases h : '\n' ∈ t
  · obtain ⟨body, s, h1, h2⟩ := split_at_nl t h
    refine .inl ⟨body, s, h1, h2, ?_⟩
    subst h1
    exact lineLoop_nl body x s line col h2
  · exact .inr ⟨h, lineLoop_eof t x line col h⟩

/-! ### One iteration of the main loop -/

theorem blank_iff (c : Char) : Blank c ↔ (isWhitespace c = true ∧ c ≠ '\n') := by
  simp only [Blank, isWhitespace, Bool.or_eq_true, decide_eq_true_eq]
  constructor
  · rintro (rfl | rfl | rfl) <;> decide
  · rintro ⟨((h | h) | h) | h, h2⟩
    · exact .inl h
    · exact .inr (.inl h)
    · exact .inr (.inr h)
    · exact absurd h h2

theorem delim_iff (c : Char) : Delim c ↔ isDelimiter c = true := by
  simp only [Delim, isDelimiter, List.mem_cons, List.not_mem_nil, or_false, Bool.or_eq_true, decide_eq_true_eq]
  grind

theorem quote_iff (c : Char) : Quote c ↔ isQuote c = true := by
  simp [Quote, isQuote]

/-- The token under construction between two iterations of the main loop. -/
def Boundary (t : Token) : Prop := t = {} ∨ (∃ b, t.begin = some b ∧ t.len = 0)

/-- The token under construction after an element was read. -/
def addElem (ctx : TokCtx) (cm : Bool) : Token :=
  let t := match ctx.token.begin with
    | none => { ctx.token with begin := some ctx.code, line := ctx.line, col := ctx.col + 1 }
    | some _ => ctx.token
  if cm then { t with ty := .comment } else t

theorem step_plain (ctx : TokCtx) (c : Char) (s : List Char) (hb : Boundary ctx.token)
    (hc : ctx.code = c :: s) (hok : (Elem.plain c).Ok s) :
    tokenizeInnerLoop ctx =
      .ok { ctx with code := s, token := addElem ctx false, col := ctx.col + 1 } := by
  obtain ⟨h1, h2, h3, h4⟩ := hok
  rw [blank_iff] at h1
  rw [delim_iff] at h2
  rw [quote_iff] at h3
  have hnl : c ≠ '\n' := by rintro rfl; exact h2 (by decide)
  have hw : isWhitespace c = false := by
    cases h : isWhitespace c with
    | false => rfl
    | true => exact absurd ⟨h, hnl⟩ h1
  cases ctx with
  | mk done token code line col =>
    simp only at hc
    subst hc
    rcases hb with hb | ⟨b, hb, hl⟩
    · simp only at hb
      subst hb
      simp [tokenizeInnerLoop, innerChain, innerStep, h4, h2, h3, hw, hnl, addElem, tokenAddInfo]
    · simp only at hb hl
      simp [tokenizeInnerLoop, innerChain, innerStep, h4, h2, h3, hw, hnl, addElem, tokenAddInfo, hb, hl]

theorem step_quoted (ctx : TokCtx) (q : Char) (body s : List Char) (hb : Boundary ctx.token)
    (hc : ctx.code = (Elem.quoted q body).text ++ s) (hok : (Elem.quoted q body).Ok s) :
    ∃ k, tokenizeInnerLoop ctx =
      .ok { ctx with code := s, token := addElem ctx false, line := ctx.line + body.count '\n', col := k } := by
  obtain ⟨hq, hbody⟩ := hok
  obtain ⟨k, hk⟩ := quoteLoop_complete q hq hbody q s ctx.line (ctx.col + 1)
  refine ⟨k, ?_⟩
  have hq' := hq
  rw [quote_iff] at hq'
  have hnh : q ≠ '#' := by rcases hq with rfl | rfl <;> decide
  have hnd : isDelimiter q = false := by rcases hq with rfl | rfl <;> decide
  have hnw : isWhitespace q = false := by rcases hq with rfl | rfl <;> decide
  have hnl := quote_ne_nl hq
  cases ctx with
  | mk done token code line col =>
    simp only [Elem.text, List.cons_append, List.append_assoc, List.nil_append] at hc
    subst hc
    simp only at hk
    rcases hb with hb | ⟨b, hb, hl⟩
    · simp only at hb
      subst hb
      simp [tokenizeInnerLoop, iterQuote, innerChain, innerStep, hnh, hq', hk, hnd, hnw, hnl, addElem, tokenAddInfo]
    · simp only at hb hl
      simp [tokenizeInnerLoop, iterQuote, innerChain, innerStep, hnh, hq', hk, hnd, hnw, hnl, addElem, tokenAddInfo, hb, hl]

theorem step_line (ctx : TokCtx) (st : Char) (body s : List Char) (hb : Boundary ctx.token)
    (hc : ctx.code = (Elem.line st body).text ++ s) (hok : (Elem.line st body).Ok s) :
    ∃ k, tokenizeInnerLoop ctx =
      .ok { ctx with code := s, token := addElem ctx true, col := k } := by
  obtain ⟨hst, hbody, hend⟩ := hok
  have hck : ∀ t, commentKind (st :: t) = some false := by
    intro t; rcases hst with rfl | rfl <;> rfl
  cases ctx with
  | mk done token code line col =>
    simp only [Elem.text, List.cons_append] at hc
    subst hc
    rcases hend with rfl | ⟨s', rfl⟩
    · have hk := lineLoop_eof body st line (col + 1 + 1) hbody
      refine ⟨col + 1 + 1 + body.length + 1, ?_⟩
      rcases hb with hb | ⟨b, hb, hl⟩
      · simp only at hb
        subst hb
        simp [tokenizeInnerLoop, iterComment, hck, hk, addElem, tokenAddInfo]
      · simp only at hb hl
        simp [tokenizeInnerLoop, iterComment, hck, hk, addElem, tokenAddInfo, hb]
    · have hk := lineLoop_nl body st s' line (col + 1 + 1) hbody
      have hlast : (st :: body).getLast (by simp) ≠ '\n' := by
        intro e
        have hm := List.getLast_mem (l := st :: body) (by simp)
        rw [e] at hm
        rcases List.mem_cons.1 hm with h | h
        · rcases hst with rfl | rfl <;> exact absurd h (by decide)
        · exact hbody h
      refine ⟨col + 1 + 1 + body.length + 1, ?_⟩
      rcases hb with hb | ⟨b, hb, hl⟩
      · simp only at hb
        subst hb
        simp [tokenizeInnerLoop, iterComment, hck, hk, addElem, tokenAddInfo, innerStep, hlast]
      · simp only at hb hl
        simp [tokenizeInnerLoop, iterComment, hck, hk, addElem, tokenAddInfo, hb, innerStep, hlast]

theorem step_block (ctx : TokCtx) (body s : List Char) (hb : Boundary ctx.token)
    (hc : ctx.code = (Elem.block body).text ++ s) (hok : (Elem.block body).Ok s) :
    ∃ k, tokenizeInnerLoop ctx =
      .ok { ctx with code := s, token := addElem ctx true, line := ctx.line + body.count '\n', col := k } := by
  have hbody : BlockBody body := hok
  have hck : ∀ t, commentKind ('{' :: t) = some true := by intro t; rfl
  obtain ⟨k, hk⟩ := blockLoop_complete hbody '{' s ctx.line (ctx.col + 1 + 1)
  refine ⟨k, ?_⟩
  cases ctx with
  | mk done token code line col =>
    simp only [Elem.text, List.cons_append, List.append_assoc, List.nil_append] at hc
    subst hc
    simp only at hk
    rcases hb with hb | ⟨b, hb, hl⟩
    · simp only at hb
      subst hb
      simp [tokenizeInnerLoop, iterComment, hck, hk, addElem, tokenAddInfo, innerStep]
    · simp only at hb hl
      simp [tokenizeInnerLoop, iterComment, hck, hk, addElem, tokenAddInfo, hb, innerStep]

/-- Reading any well formed element. -/
theorem step_elem (ctx : TokCtx) (e : Elem) (s : List Char) (hb : Boundary ctx.token)
    (hc : ctx.code = e.text ++ s) (hok : e.Ok s) :
    ∃ k, tokenizeInnerLoop ctx =
      .ok { ctx with code := s, token := addElem ctx e.isComment, line := ctx.line + e.text.count '\n', col := k } ∧
      ((∃ c, e = .plain c) → k = ctx.col + 1) := by
  cases e with
  | plain c =>
    refine ⟨ctx.col + 1, ?_, fun _ => rfl⟩
    have hnl : c ≠ '\n' := by rintro rfl; exact hok.2.1 (by simp [Delim])
    rw [step_plain ctx c s hb hc hok]
    simp [Elem.isComment, Elem.text, hnl]
  | quoted q body =>
    obtain ⟨k, hk⟩ := step_quoted ctx q body s hb hc hok
    refine ⟨k, ?_, by simp⟩
    have hnl := quote_ne_nl hok.1
    rw [hk]
    simp [Elem.isComment, Elem.text, hnl]
  | line st body =>
    obtain ⟨k, hk⟩ := step_line ctx st body s hb hc hok
    refine ⟨k, ?_, by simp⟩
    have hst : st ≠ '\n' := by rcases hok.1 with rfl | rfl <;> decide
    rw [hk]
    simp [Elem.isComment, Elem.text, hst, List.count_eq_zero_of_not_mem hok.2.1]
  | block body =>
    obtain ⟨k, hk⟩ := step_block ctx body s hb hc hok
    refine ⟨k, ?_, by simp⟩
    rw [hk]
    simp [Elem.isComment, Elem.text]

/-- Reading a blank closes the current token, if there is one. -/
theorem step_blank (ctx : TokCtx) (c : Char) (s : List Char) (hb : Boundary ctx.token)
    (hc : ctx.code = c :: s) (hok : Blank c) :
    tokenizeInnerLoop ctx =
      match ctx.token.begin with
      | none => .ok { ctx with code := s, col := ctx.col + 1 }
      | some b => .ok { ctx with code := s, col := ctx.col + 1, token := {},
                                 done := { ctx.token with len := b.length - ctx.code.length } :: ctx.done } := by
  have h1 : isWhitespace c = true ∧ c ≠ '\n' ∧ c ≠ '#' ∧ isQuote c = false ∧ isDelimiter c = false := by
    rcases hok with rfl | rfl | rfl <;> decide
  obtain ⟨h1, h2, h3, h4, h5⟩ := h1
  cases ctx with
  | mk done token code line col =>
    simp only at hc
    subst hc
    rcases hb with hb | ⟨b, hb, hl⟩
    · simp only at hb
      subst hb
      simp [tokenizeInnerLoop, innerChain, innerStep, h1, h2, h3, h4, h5]
    · simp only at hb hl
      simp [tokenizeInnerLoop, innerChain, innerStep, h1, h2, h3, h4, h5, hb, hl, closeToken]

/-- Reading a delimiter closes the current token, if there is one, and adds the delimiter's token. -/
theorem step_delim (ctx : TokCtx) (c : Char) (s : List Char)
    (hc : ctx.code = c :: s) (hok : Delim c) :
    tokenizeInnerLoop ctx =
      .ok { code := s, token := {},
            line := ctx.line + (if c = '\n' then 1 else 0), col := if c = '\n' then 0 else ctx.col + 1
            done := { begin := some (c :: s), len := 1, ty := delimiterType c, line := ctx.line, col := ctx.col + 1 } ::
              (match ctx.token.begin with
               | none => ctx.done
               | some b => { ctx.token with len := b.length - ctx.code.length } :: ctx.done) } := by
  have h1 : isDelimiter c = true ∧ c ≠ '#' ∧ isQuote c = false := by
    rw [delim_iff] at hok
    refine ⟨hok, ?_, ?_⟩
    · rintro rfl; exact absurd hok (by decide)
    · simp only [isQuote, Bool.or_eq_false_iff, decide_eq_false_iff_not]
      constructor <;> (rintro rfl; exact absurd hok (by decide))
  obtain ⟨h1, h2, h3⟩ := h1
  cases ctx with
  | mk done token code line col =>
    simp only at hc
    subst hc
    by_cases hn : c = '\n'
    · subst hn
      cases hb : token.begin <;>
        simp [tokenizeInnerLoop, innerChain, innerStep, h1, h3, hb, parseDelimiter, closeToken]
    · cases hb : token.begin <;>
        simp [tokenizeInnerLoop, innerChain, innerStep, h1, h2, h3, hb, hn, parseDelimiter, closeToken]

/-- Any successful iteration reads a blank, a delimiter or a well formed element. -/
theorem step_sound (ctx ctx' : TokCtx) (c : Char) (t : List Char)
    (hc : ctx.code = c :: t) (hr : tokenizeInnerLoop ctx = .ok ctx') :
    Blank c ∨ Delim c ∨ ∃ (e : Elem) (s : List Char), c :: t = e.text ++ s ∧ e.Ok s := by
  by_cases h1 : Blank c
  · exact .inl h1
  by_cases h2 : Delim c
  · exact .inr (.inl h2)
  refine .inr (.inr ?_)
  by_cases h3 : c = '#'
  · subst h3
    simp only [tokenizeInnerLoop, hc, if_true, iterComment] at hr
    match t with
    | [] => simp [commentKind] at hr
    | d :: t' =>
      cases hk : commentKind (d :: t') with
      | none => simp [hk] at hr
      | some block =>
        simp only [hk] at hr
        cases block with
        | false =>
          have hd : d = ' ' ∨ d = '\t' := by
            simp only [commentKind] at hk
            split at hk
            · next h => simpa using h
            · split at hk <;> simp at hk
          rcases lineLoop_sound d t' ctx.line (ctx.col + 1 + 1) with ⟨body, s, h1, h2, _⟩ | ⟨h1, _⟩
          · exact ⟨.line d body, '\n' :: s, by simp [Elem.text, h1], hd, h2, .inr ⟨s, rfl⟩⟩
          · exact ⟨.line d t', [], by simp [Elem.text], hd, h1, .inl rfl⟩
        | true =>
          have hd : d = '{' := by
            simp only [commentKind] at hk
            split at hk
            · simp at hk
            · split at hk
              · next h => exact h
              · simp at hk
          subst hd
          split at hr
          · next h =>
            split at h
            · next h' =>
              obtain ⟨body, s, h1, h2, h3, _⟩ := blockLoop_sound _ _ _ _ _ _ _ h'
              exact ⟨.block body, s, by simp [Elem.text, h1], h3⟩
            · simp at h
            · simp at h
            · simp at h
          · simp at hr
          · simp at hr
  · by_cases h4 : Quote c
    · have h4' := h4
      rw [quote_iff] at h4'
      simp only [tokenizeInnerLoop, hc, if_neg h3, h4', if_true, iterQuote] at hr
      split at hr
      · next h =>
        split at h
        · next h' =>
          have hcode : (if ctx.token.begin.isNone = true then
              tokenAddInfo { ctx with code := c :: t, col := ctx.col + 1 }
              else { ctx with code := c :: t, col := ctx.col + 1 }).code = c :: t := by
            split <;> simp [tokenAddInfo]
          rw [hcode] at h'
          obtain ⟨body, s, h5, h6, h7, _⟩ := quoteLoop_sound c h4 _ _ _ _ _ _ _ h'
          exact ⟨.quoted c body, s, by simp [Elem.text, h5], h4, h7⟩
        · simp at h
        · simp at h
        · simp at h
      · simp at hr
      · simp at hr
    · exact ⟨.plain c, t, rfl, h1, h2, h4, h3⟩

end Skull
