import Verif.Proofs.Token
import Verif.Spec.TokenSpec
/-
The invariant of the tokenizer's main loop.
-/
set_option linter.unusedSimpArgs false

namespace Skull
open Skull.Spec

theorem kindType_delim (c : Char) (h : Delim c) : kindType (.delim c) = delimiterType c := by
  simp only [Delim, List.mem_cons, List.not_mem_nil, or_false] at h
  rcases h with rfl | rfl | rfl | rfl | rfl | rfl | rfl | rfl <;> rfl

theorem All2.append {α β} {R : α → β → Prop} {a c : List α} {b d : List β}
    (h1 : All2 R a b) (h2 : All2 R c d) : All2 R (a ++ c) (b ++ d) := by
  induction h1 with
  | nil => exact h2
  | cons h _ ih => exact .cons h ih

/-! ### Appending items and elements -/

theorem elemsText_append (a b : List Elem) : elemsText (a ++ b) = elemsText a ++ elemsText b := by
  induction a with
  | nil => rfl
  | cons e es ih => simp [elemsText, ih]

theorem itemsText_append (a b : List Item) : itemsText (a ++ b) = itemsText a ++ itemsText b := by
  induction a with
  | nil => rfl
  | cons e es ih => simp [itemsText, ih]

theorem elemsOk_append (a b : List Elem) (s : List Char) :
    ElemsOk (a ++ b) s ↔ ElemsOk a (elemsText b ++ s) ∧ ElemsOk b s := by
  induction a with
  | nil => simp [ElemsOk]
  | cons e es ih => simp [ElemsOk, ih, elemsText_append, and_assoc]

theorem lexemes_append (before : List Char) (a b : List Item) :
    lexemes before (a ++ b) = lexemes before a ++ lexemes (before ++ itemsText a) b := by
  induction a generalizing before with
  | nil => simp [lexemes, itemsText]
  | cons i is ih => cases i <;> simp [lexemes, itemsText, Item.text, ih]

/-- Items that are well formed in front of the text `s`. -/
def ItemsOkBefore : List Item → List Char → Prop
  | [], _ => True
  | i :: is, s => i.Ok (itemsText is ++ s) ∧ ItemsOkBefore is s

theorem itemsOkBefore_nil (is : List Item) : ItemsOkBefore is [] ↔ ItemsOk is := by
  induction is with
  | nil => simp [ItemsOkBefore, ItemsOk]
  | cons i is ih => simp [ItemsOkBefore, ItemsOk, ih]

theorem itemsOkBefore_append (a b : List Item) (s : List Char) :
    ItemsOkBefore (a ++ b) s ↔ ItemsOkBefore a (itemsText b ++ s) ∧ ItemsOkBefore b s := by
  induction a with
  | nil => simp [ItemsOkBefore]
  | cons i is ih => simp [ItemsOkBefore, ih, itemsText_append, and_assoc]

/-! ### Lines -/

theorem lineAfter_append (a b : List Char) : lineAfter (a ++ b) = lineAfter a + b.count '\n' := by
  simp [lineAfter]; omega

theorem lastLine_snoc (a : List Char) (c : Char) (h : c ≠ '\n') : lastLine (a ++ [c]) = lastLine a ++ [c] := by
  simp [lastLine, List.takeWhile_cons, h]

theorem lastLine_snoc_nl (a : List Char) : lastLine (a ++ ['\n']) = [] := by
  simp [lastLine, List.takeWhile_cons]

theorem takeWhile_append_sub {p : Char → Bool} (a b : List Char) :
    ∀ c ∈ a.takeWhile p, c ∈ (a ++ b).takeWhile p := by
  induction a with
  | nil => simp
  | cons x xs ih =>
    intro c hc
    simp only [List.takeWhile_cons, List.cons_append] at hc ⊢
    split
    · next h =>
      simp only [h, if_true] at hc
      rcases List.mem_cons.1 hc with rfl | hc
      · simp
      · exact List.mem_cons_of_mem _ (ih c hc)
    · next h => simp [h] at hc

theorem mem_lastLine_append (a b : List Char) : ∀ c ∈ lastLine b, c ∈ lastLine (a ++ b) := by
  intro c hc
  simp only [lastLine, List.mem_reverse, List.reverse_append] at hc ⊢
  exact takeWhile_append_sub _ _ c hc

theorem takeWhile_all {p : Char → Bool} (l : List Char) (h : ∀ c ∈ l, p c = true) : l.takeWhile p = l := by
  induction l with
  | nil => rfl
  | cons x xs ih =>
    rw [List.takeWhile_cons, if_pos (h x (by simp)), ih (fun c hc => h c (by simp [hc]))]

/-- The text of an element other than a plain character ends a line that contains a quote or a `#`. -/
theorem elem_marks (e : Elem) (s : List Char) (h : e.Ok s) (a : List Char) (hp : ¬ ∃ c, e = .plain c) :
    ∃ c ∈ lastLine (a ++ e.text), Quote c ∨ c = '#' := by
  cases e with
  | plain c => exact absurd ⟨c, rfl⟩ hp
  | quoted q body =>
    refine ⟨q, ?_, .inl h.1⟩
    have : a ++ (Elem.quoted q body).text = (a ++ q :: body) ++ [q] := by simp [Elem.text]
    rw [this, lastLine_snoc _ _ (quote_ne_nl h.1)]
    simp
  | line st body =>
    refine ⟨'#', ?_, .inr rfl⟩
    refine mem_lastLine_append _ _ _ ?_
    have hst : st ≠ '\n' := by rcases h.1 with rfl | rfl <;> decide
    have hall : ∀ c ∈ (Elem.line st body).text, c ≠ '\n' := by
      intro c hc
      simp only [Elem.text, List.mem_cons] at hc
      rcases hc with rfl | rfl | hc
      · decide
      · exact hst
      · rintro rfl; exact h.2.1 hc
    have : lastLine (Elem.line st body).text = (Elem.line st body).text := by
      simp only [lastLine]
      rw [takeWhile_all]
      · simp
      · intro c hc
        simpa using hall c (List.mem_reverse.1 hc)
    rw [this]
    simp [Elem.text]
  | block body =>
    refine ⟨'#', ?_, .inr rfl⟩
    have : a ++ (Elem.block body).text = (a ++ '#' :: '{' :: body) ++ ['#'] ++ ['}'] := by simp [Elem.text]
    rw [this, lastLine_snoc _ _ (by decide), lastLine_snoc _ _ (by decide)]
    simp

/-! ### The invariant -/

/-- The current token when the elements `es` of a chunk have been read. -/
def TokInv (its : List Item) (es : List Elem) (ctx : TokCtx) : Prop :=
  if es = [] then ctx.token = {}
  else
    ctx.token.begin = some (elemsText es ++ ctx.code) ∧ ctx.token.len = 0 ∧
    ctx.token.ty = (if es.any Elem.isComment then .comment else .unknown) ∧
    ctx.token.line = lineAfter (itemsText its) ∧
    (CleanLine (itemsText its) → ctx.token.col = columnAfter (itemsText its))

structure Inv (src : List Char) (ctx : TokCtx) (its : List Item) (es : List Elem) : Prop where
  text : itemsText its ++ (elemsText es ++ ctx.code) = src
  itemsOk : ItemsOkBefore its (elemsText es ++ ctx.code)
  elemsOk : ElemsOk es ctx.code
  done : All2 (Matches src) ctx.done.reverse (lexemes [] its)
  tok : TokInv its es ctx
  line : ctx.line = lineAfter (itemsText its ++ elemsText es)
  col : CleanLine (itemsText its ++ elemsText es) →
    ctx.col = (lastLine (itemsText its ++ elemsText es)).length

theorem Inv.boundary {src ctx its es} (h : Inv src ctx its es) : Boundary ctx.token := by
  have := h.tok
  unfold TokInv at this
  split at this
  · exact .inl this
  · exact .inr ⟨_, this.1, this.2.1⟩

theorem Inv.start (src : List Char) : Inv src { code := src } [] [] where
  text := by simp [itemsText, elemsText]
  itemsOk := trivial
  elemsOk := trivial
  done := .nil
  tok := by simp [TokInv]
  line := by simp [itemsText, elemsText, lineAfter]
  col := by simp [itemsText, elemsText, lastLine]

/-- The items when the current chunk is closed. -/
def closeItems (its : List Item) (es : List Elem) : List Item :=
  if es = [] then its else its ++ [.chunk es]

theorem closeItems_text (its es) : itemsText (closeItems its es) = itemsText its ++ elemsText es := by
  unfold closeItems
  split
  · next h => simp [h, elemsText]
  · simp [itemsText_append, itemsText, Item.text]

/-- The finished tokens when the current token is closed at `code`. -/
def closeDone (ctx : TokCtx) : List Token :=
  match ctx.token.begin with
  | none => ctx.done
  | some b => { ctx.token with len := b.length - ctx.code.length } :: ctx.done

theorem Inv.close {src ctx its es} (h : Inv src ctx its es) (hend : es ≠ [] → ChunkEnd ctx.code) :
    ItemsOkBefore (closeItems its es) ctx.code ∧
    All2 (Matches src) (closeDone ctx).reverse (lexemes [] (closeItems its es)) := by
  have htok := h.tok
  unfold TokInv at htok
  unfold closeItems closeDone
  split at htok
  · next he =>
    subst he
    have hi := h.itemsOk
    simp only [elemsText, List.nil_append] at hi
    rw [htok]
    exact ⟨by simpa using hi, by simpa using h.done⟩
  · next he =>
    obtain ⟨h1, h2, h3, h4, h5⟩ := htok
    simp only [he, if_false, h1]
    constructor
    · rw [itemsOkBefore_append]
      refine ⟨?_, ?_⟩
      · simpa [itemsText, Item.text] using h.itemsOk
      · exact ⟨⟨he, by simpa [itemsText] using h.elemsOk, by simpa [itemsText] using hend he⟩, trivial⟩
    · rw [lexemes_append]
      simp only [List.reverse_cons]
      refine All2.append h.done ?_
      refine .cons ?_ .nil
      refine ⟨⟨ctx.code, ?_, ?_⟩, ?_, ?_, ?_, ?_⟩
      · simpa using h.text.symm
      · simp
      · simp
      · simp only [h3]; split <;> simp_all [kindType]
      · simpa using h4
      · intro hc; exact h5 (by simpa [CleanLine] using hc)

theorem Inv.blank {src ctx its es} (h : Inv src ctx its es) (c : Char) (s : List Char)
    (hc : ctx.code = c :: s) (hb : Blank c) :
    ∃ ctx', tokenizeInnerLoop ctx = .ok ctx' ∧ ctx'.code = s ∧
      Inv src ctx' (closeItems its es ++ [.blank c]) [] := by
  have hcl := h.close (fun _ => .inr ⟨c, s, hc, .inl hb⟩)
  have hnl : c ≠ '\n' := ((blank_iff c).1 hb).2
  have hst : tokenizeInnerLoop ctx =
      .ok { ctx with code := s, col := ctx.col + 1, token := {}, done := closeDone ctx } := by
    rw [step_blank ctx c s h.boundary hc hb]
    unfold closeDone
    rcases h.boundary with hb | ⟨b, hb, hl⟩
    · cases ctx; simp only at hb; subst hb; rfl
    · simp [hb]
  refine ⟨_, hst, rfl, ?_⟩
  refine ⟨?_, ?_, trivial, ?_, by simp [TokInv], ?_, ?_⟩
  · have := h.text
    simp [itemsText_append, closeItems_text, itemsText, Item.text, elemsText, ← this, hc]
  · rw [itemsOkBefore_append]
    refine ⟨?_, hb, trivial⟩
    simpa [itemsText, Item.text, elemsText, hc] using hcl.1
  · rw [lexemes_append]; simpa [lexemes] using hcl.2
  · simp [itemsText_append, closeItems_text, itemsText, Item.text, elemsText, h.line,
      ← List.append_assoc, lineAfter_append, hnl]
  · simp only [itemsText_append, closeItems_text, itemsText, Item.text, elemsText, List.append_nil]
    intro hcl
    have hl := lastLine_snoc (itemsText its ++ elemsText es) c hnl
    rw [hl]
    simp only [List.length_append, List.length_cons, List.length_nil]
    rw [h.col]
    intro x hx
    exact hcl x (by rw [hl]; simp [hx])

theorem Inv.delim {src ctx its es} (h : Inv src ctx its es) (c : Char) (s : List Char)
    (hc : ctx.code = c :: s) (hb : Delim c) :
    ∃ ctx', tokenizeInnerLoop ctx = .ok ctx' ∧ ctx'.code = s ∧
      Inv src ctx' (closeItems its es ++ [.delim c]) [] := by
  have hcl := h.close (fun _ => .inr ⟨c, s, hc, .inr hb⟩)
  refine ⟨_, step_delim ctx c s hc hb, rfl, ?_⟩
  refine ⟨?_, ?_, trivial, ?_, by simp [TokInv], ?_, ?_⟩
  · have := h.text
    simp [itemsText_append, closeItems_text, itemsText, Item.text, elemsText, ← this, hc]
  · rw [itemsOkBefore_append]
    refine ⟨?_, hb, trivial⟩
    simpa [itemsText, Item.text, elemsText, hc] using hcl.1
  · rw [lexemes_append]
    simp only [List.reverse_cons]
    refine All2.append hcl.2 ?_
    refine .cons ⟨⟨s, ?_, ?_⟩, ?_, ?_, ?_, ?_⟩ .nil
    · have := h.text
      simp [closeItems_text, ← this, hc]
    · simp
    · simp
    · simp [kindType_delim c hb]
    · simp [h.line, closeItems_text]
    · intro hcln
      simp only [List.nil_append, closeItems_text] at hcln ⊢
      simp only [columnAfter, h.col hcln]
      omega
  · simp only [itemsText_append, closeItems_text, itemsText, Item.text, elemsText, h.line, List.append_nil]
    rw [lineAfter_append _ [c]]
    by_cases hn : c = '\n' <;> simp [hn]
  · simp only [itemsText_append, closeItems_text, itemsText, Item.text, elemsText, List.append_nil]
    intro hcl
    by_cases hn : c = '\n'
    · subst hn
      rw [lastLine_snoc_nl]
      simp
    · have hl := lastLine_snoc (itemsText its ++ elemsText es) c hn
      rw [hl]
      simp only [hn, if_false, List.length_append, List.length_cons, List.length_nil]
      rw [h.col]
      intro x hx
      exact hcl x (by rw [hl]; simp [hx])

theorem Inv.elem {src ctx its es} (h : Inv src ctx its es) (e : Elem) (s : List Char)
    (hc : ctx.code = e.text ++ s) (hok : e.Ok s) :
    ∃ ctx', tokenizeInnerLoop ctx = .ok ctx' ∧ ctx'.code = s ∧ Inv src ctx' its (es ++ [e]) := by
  obtain ⟨k, hk, hcol⟩ := step_elem ctx e s h.boundary hc hok
  refine ⟨_, hk, rfl, ?_⟩
  refine ⟨?_, ?_, ?_, h.done, ?_, ?_, ?_⟩
  · have := h.text
    simp [elemsText_append, elemsText, ← this, hc]
  · have := h.itemsOk
    simpa [elemsText_append, elemsText, hc] using this
  · rw [elemsOk_append]
    refine ⟨?_, ?_, trivial⟩
    · simpa [elemsText, hc] using h.elemsOk
    · simpa [elemsText] using hok
  · have htok := h.tok
    unfold TokInv at htok ⊢
    simp only [List.append_eq_nil_iff, List.cons_ne_nil, and_false, if_false]
    split at htok
    · next he =>
      subst he
      have hcol := h.col
      have hline := h.line
      simp only [elemsText, List.append_nil] at hcol hline
      unfold addElem
      rw [htok]
      cases hcm : e.isComment
      · simp only [elemsText, List.nil_append, List.append_nil, List.any_cons, List.any_nil, hcm, hc, hline]
        refine ⟨rfl, rfl, rfl, rfl, ?_⟩
        intro hcl
        have := hcol hcl
        simp only [columnAfter, Bool.false_eq_true, if_false]
        omega
      · simp only [elemsText, List.nil_append, List.append_nil, List.any_cons, List.any_nil, hcm, hc, hline]
        refine ⟨rfl, rfl, rfl, rfl, ?_⟩
        intro hcl
        have := hcol hcl
        simp only [columnAfter, if_true]
        omega
    · next he =>
      obtain ⟨h1, h2, h3, h4, h5⟩ := htok
      unfold addElem
      cases hcm : e.isComment <;>
        simp [h1, h2, h3, h4, elemsText_append, elemsText, hc, hcm] <;> exact h5
  · simp [elemsText_append, elemsText, h.line, ← List.append_assoc, lineAfter_append]
  · intro hcl
    by_cases hp : ∃ c, e = .plain c
    · obtain ⟨c, rfl⟩ := hp
      have hnl : c ≠ '\n' := by rintro rfl; exact hok.2.1 (by simp [Delim])
      simp only [hcol ⟨c, rfl⟩]
      simp only [elemsText_append, elemsText, Elem.text, List.append_nil, ← List.append_assoc] at hcl ⊢
      have hl := lastLine_snoc (itemsText its ++ elemsText es) c hnl
      rw [hl, List.length_append, h.col]
      · simp
      · intro x hx
        exact hcl x (by rw [hl]; simp [hx])
    · obtain ⟨x, hx, hq⟩ := elem_marks e s hok (itemsText its ++ elemsText es) hp
      simp only [elemsText_append, elemsText, List.append_nil, ← List.append_assoc] at hcl
      have := hcl x hx
      rcases hq with hq | hq
      · exact absurd hq this.1
      · exact absurd hq this.2

theorem elem_text_length (e : Elem) : 1 ≤ e.text.length := by
  cases e <;> simp [Elem.text]

/-! ### The main loop -/

/-- The main loop keeps the invariant. -/
theorem loop_sound (src : List Char) : ∀ (fuel : Nat) (ctx ctx' : TokCtx) (its : List Item) (es : List Elem),
    Inv src ctx its es → tokenizeLoop fuel ctx = some (.ok ctx') →
    ctx'.code = [] ∧ ∃ its' es', Inv src ctx' its' es' := by
  intro fuel
  induction fuel with
  | zero => intro ctx ctx' its es _ h; simp [tokenizeLoop] at h
  | succ n ih =>
    intro ctx ctx' its es hinv h
    unfold tokenizeLoop at h
    split at h
    · next he =>
      cases h
      exact ⟨by simpa using he, its, es, hinv⟩
    · next he =>
      match hc : ctx.code with
      | [] => simp [hc] at he
      | c :: t =>
        split at h
        · next ctx1 hs =>
          rcases step_sound ctx ctx1 c t hc hs with hb | hb | ⟨e, s, hes, hok⟩
          · obtain ⟨ctx2, h1, _, h3⟩ := hinv.blank c t hc hb
            rw [hs] at h1; cases h1
            exact ih _ _ _ _ h3 h
          · obtain ⟨ctx2, h1, _, h3⟩ := hinv.delim c t hc hb
            rw [hs] at h1; cases h1
            exact ih _ _ _ _ h3 h
          · obtain ⟨ctx2, h1, _, h3⟩ := hinv.elem e s (hc.trans hes) hok
            rw [hs] at h1; cases h1
            exact ih _ _ _ _ h3 h
        · simp at h
        · simp at h

theorem innerStep_no_ub (x : TokCtx) (h : x.code ≠ []) : innerStep x ≠ .ub := by
  cases hx : x.code with
  | nil => exact absurd hx h
  | cons d r =>
    simp only [innerStep, hx]
    split <;> simp

theorem iterComment_no_ub (ctx : TokCtx) (c : Char) (t : List Char) (hc : ctx.code = c :: t) :
    iterComment ctx ≠ .ub := by
  intro h
  simp only [iterComment, hc] at h
  match t with
  | [] => simp [commentKind] at h
  | d :: t' =>
    split at h
    · simp at h
    · split at h
      · simp at h
      · split at h <;> simp at h
      · simp at h
      · next h4 => exact commentLoop_no_ub _ _ _ _ _ h4

theorem inner_no_ub (ctx : TokCtx) (c : Char) (t : List Char) (hc : ctx.code = c :: t) :
    tokenizeInnerLoop ctx ≠ .ub := by
  intro h
  by_cases h3 : c = '#'
  · subst h3
    simp only [tokenizeInnerLoop, hc, if_true] at h
    cases hi : iterComment { ctx with code := '#' :: t, col := ctx.col + 1 } with
    | ok x =>
      simp only [hi] at h
      split at h
      · simp at h
      · next he => exact innerStep_no_ub x (by simpa using he) h
    | err e l k => simp [hi] at h
    | ub => exact iterComment_no_ub _ _ _ rfl hi
  · have hchain : ∀ (x : TokCtx) (d : Char) (r : List Char), x.code = d :: r → innerStep (innerChain x) ≠ .ub := by
      intro x d r hx
      have : (innerChain x).code = d :: r := by
        simp only [innerChain, hx]
        split
        · simp only [parseDelimiter]
          split <;> simp [closeToken, hx]
        · split
          · split <;> simp [tokenAddInfo, hx]
          · split <;> simp [closeToken, hx]
      simp only [innerStep, this]
      split <;> simp
    by_cases h4 : isQuote c = true
    · simp only [tokenizeInnerLoop, hc, if_neg h3, h4, if_true, iterQuote] at h
      have hq : Quote c := (quote_iff c).2 h4
      have hcode : (if ctx.token.begin.isNone = true then
          tokenAddInfo { ctx with code := c :: t, col := ctx.col + 1 }
          else { ctx with code := c :: t, col := ctx.col + 1 }).code = c :: t := by
        split <;> simp [tokenAddInfo]
      rw [hcode] at h
      split at h
      · next h2 =>
        split at h2
        · next h5 =>
          cases h2
          obtain ⟨body, s, h7, h8, _⟩ := quoteLoop_sound c hq _ _ _ _ _ _ _ h5
          exact hchain _ c s h8 h
        · simp at h2
        · simp at h2
        · simp at h2
      · simp at h
      · next h2 =>
        split at h2
        · simp at h2
        · simp at h2
        · next h5 => exact (quoteLoop_no_ub _ _ _ _ _).2 _ _ h5
        · next h5 => exact (quoteLoop_no_ub _ _ _ _ _).1 h5
    · simp only [tokenizeInnerLoop, hc, if_neg h3, h4] at h
      exact hchain _ c t rfl h

/-- With enough fuel the loop ends in success or a diagnosed error. -/
theorem loop_total (src : List Char) : ∀ (fuel : Nat) (ctx : TokCtx) (its : List Item) (es : List Elem),
    Inv src ctx its es → ctx.code.length < fuel →
    (∃ ctx', tokenizeLoop fuel ctx = some (.ok ctx')) ∨ (∃ e l k, tokenizeLoop fuel ctx = some (.err e l k)) := by
  intro fuel
  induction fuel with
  | zero => intro ctx its es _ h; omega
  | succ n ih =>
    intro ctx its es hinv hf
    unfold tokenizeLoop
    split
    · exact .inl ⟨_, rfl⟩
    · next he =>
      match hc : ctx.code with
      | [] => simp [hc] at he
      | c :: t =>
        have hlen : ctx.code.length = t.length + 1 := by simp [hc]
        cases hs : tokenizeInnerLoop ctx with
        | ok ctx1 =>
          simp only
          rcases step_sound ctx ctx1 c t hc hs with hb | hb | ⟨e, s, hes, hok⟩
          · obtain ⟨ctx2, h1, h2, h3⟩ := hinv.blank c t hc hb
            rw [hs] at h1; cases h1
            exact ih _ _ _ h3 (by rw [h2]; omega)
          · obtain ⟨ctx2, h1, h2, h3⟩ := hinv.delim c t hc hb
            rw [hs] at h1; cases h1
            exact ih _ _ _ h3 (by rw [h2]; omega)
          · obtain ⟨ctx2, h1, h2, h3⟩ := hinv.elem e s (hc.trans hes) hok
            rw [hs] at h1; cases h1
            refine ih _ _ _ h3 ?_
            have := elem_text_length e
            have h5 : (c :: t).length = e.text.length + s.length := by rw [hes]; simp
            rw [h2]; simp at h5; omega
        | err e l k => exact .inr ⟨e, l, k, rfl⟩
        | ub => exact absurd hs (inner_no_ub ctx c t hc)

theorem elem_not_chunkEnd (e : Elem) (s t : List Char) (h : e.Ok s) : ¬ ChunkEnd (e.text ++ t) := by
  have key : ∃ c r, e.text = c :: r ∧ ¬ Blank c ∧ ¬ Delim c := by
    cases e with
    | plain c => exact ⟨c, [], rfl, h.1, h.2.1⟩
    | quoted q body =>
      refine ⟨q, body ++ [q], rfl, ?_⟩
      rcases h.1 with rfl | rfl <;> simp [Blank, Delim]
    | line st body => exact ⟨'#', st :: body, rfl, by simp [Blank], by simp [Delim]⟩
    | block body => exact ⟨'#', _, rfl, by simp [Blank], by simp [Delim]⟩
  obtain ⟨c, r, hc, h1, h2⟩ := key
  rintro (h | ⟨d, s', h, hd⟩)
  · simp [hc] at h
  · rw [hc] at h
    simp only [List.cons_append, List.cons.injEq] at h
    rw [← h.1] at hd
    exact hd.elim h1 h2

theorem closeItems_append_nil (its : List Item) : closeItems its [] = its := by simp [closeItems]

/-- A text with a lexical analysis is accepted, and with that analysis. -/
theorem loop_complete (src : List Char) : ∀ (its2 : List Item) (es2 : List Elem) (fuel : Nat) (ctx : TokCtx)
    (its : List Item) (es : List Elem),
    Inv src ctx its es → ctx.code = elemsText es2 ++ itemsText its2 →
    ElemsOk es2 (itemsText its2) → ItemsOk its2 → (es ++ es2 ≠ [] → ChunkEnd (itemsText its2)) →
    ctx.code.length < fuel →
    ∃ ctx' its' es', tokenizeLoop fuel ctx = some (.ok ctx') ∧ Inv src ctx' its' es' ∧ ctx'.code = [] ∧
      closeItems its' es' = closeItems its (es ++ es2) ++ its2 := by
  intro its2
  induction its2 with
  | nil =>
    intro es2
    induction es2 with
    | nil =>
      intro fuel ctx its es hinv hc _ _ _ hf
      simp only [elemsText, itemsText, List.append_nil] at hc
      cases fuel with
      | zero => omega
      | succ n => exact ⟨ctx, its, es, by simp [tokenizeLoop, hc], hinv, hc, by simp⟩
    | cons e es2 ih =>
      intro fuel ctx its es hinv hc hes hits hend hf
      cases fuel with
      | zero => omega
      | succ n =>
        have hc' : ctx.code = e.text ++ (elemsText es2 ++ itemsText []) := by simpa [elemsText] using hc
        obtain ⟨ctx1, h1, h2, h3⟩ := hinv.elem e _ hc' hes.1
        have hlen := elem_text_length e
        have hne : ctx.code ≠ [] := by
          intro h; rw [hc'] at h; cases hx : e.text <;> simp [hx] at h hlen
        obtain ⟨ctx', its', es', g1, g2, g3, g4⟩ := ih n ctx1 its (es ++ [e]) h3 h2 hes.2 hits
          (by simpa using hend) (by
            have : ctx.code.length = e.text.length + ctx1.code.length := by rw [hc', h2]; simp
            omega)
        refine ⟨ctx', its', es', ?_, g2, g3, by simpa using g4⟩
        unfold tokenizeLoop
        simp [hne, h1, g1]
  | cons i its2 ih =>
    intro es2
    induction es2 with
    | cons e es2 ih2 =>
      intro fuel ctx its es hinv hc hes hits hend hf
      cases fuel with
      | zero => omega
      | succ n =>
        have hc' : ctx.code = e.text ++ (elemsText es2 ++ itemsText (i :: its2)) := by simpa [elemsText] using hc
        obtain ⟨ctx1, h1, h2, h3⟩ := hinv.elem e _ hc' hes.1
        have hlen := elem_text_length e
        have hne : ctx.code ≠ [] := by
          intro h; rw [hc'] at h; cases hx : e.text <;> simp [hx] at h hlen
        obtain ⟨ctx', its', es', g1, g2, g3, g4⟩ := ih2 n ctx1 its (es ++ [e]) h3 h2 hes.2 hits
          (by simpa using hend) (by
            have : ctx.code.length = e.text.length + ctx1.code.length := by rw [hc', h2]; simp
            omega)
        refine ⟨ctx', its', es', ?_, g2, g3, by simpa using g4⟩
        unfold tokenizeLoop
        simp [hne, h1, g1]
    | nil =>
      intro fuel ctx its es hinv hc hes hits hend hf
      cases fuel with
      | zero => omega
      | succ n =>
        cases i with
        | blank c =>
          have hc' : ctx.code = c :: itemsText its2 := by simpa [elemsText, itemsText, Item.text] using hc
          obtain ⟨ctx1, h1, h2, h3⟩ := hinv.blank c _ hc' hits.1
          obtain ⟨ctx', its', es', g1, g2, g3, g4⟩ := ih [] n ctx1 _ _ h3 (by simpa [elemsText] using h2) trivial hits.2
            (by simp) (by rw [h2]; rw [hc'] at hf; simp at hf; omega)
          refine ⟨ctx', its', es', ?_, g2, g3, ?_⟩
          · unfold tokenizeLoop
            simp [hc', h1, g1]
          · simpa [closeItems_append_nil] using g4
        | delim c =>
          have hc' : ctx.code = c :: itemsText its2 := by simpa [elemsText, itemsText, Item.text] using hc
          obtain ⟨ctx1, h1, h2, h3⟩ := hinv.delim c _ hc' hits.1
          obtain ⟨ctx', its', es', g1, g2, g3, g4⟩ := ih [] n ctx1 _ _ h3 (by simpa [elemsText] using h2) trivial hits.2
            (by simp) (by rw [h2]; rw [hc'] at hf; simp at hf; omega)
          refine ⟨ctx', its', es', ?_, g2, g3, ?_⟩
          · unfold tokenizeLoop
            simp [hc', h1, g1]
          · simpa [closeItems_append_nil] using g4
        | chunk ces =>
          obtain ⟨hne, hceok, hcend⟩ := hits.1
          have hes0 : es = [] := by
            cases es with
            | nil => rfl
            | cons x xs =>
              exfalso
              have := hend (by simp)
              cases ces with
              | nil => exact hne rfl
              | cons y ys =>
                simp only [itemsText, Item.text, elemsText, List.append_assoc] at this
                exact elem_not_chunkEnd y _ _ hceok.1 this
          subst hes0
          obtain ⟨ctx', its', es', g1, g2, g3, g4⟩ := ih ces (n + 1) ctx its [] hinv
            (by simpa [elemsText, itemsText, Item.text] using hc) hceok hits.2 (fun _ => hcend) hf
          refine ⟨ctx', its', es', g1, g2, g3, ?_⟩
          rw [g4]
          simp [closeItems, hne]

end Skull
