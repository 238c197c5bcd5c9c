import Verif.Proofs.TokenInv
/-
From the loop invariant to `tokenize`.
-/
namespace Skull
open Skull.Spec

theorem tokenize_eq (w : Bool) (src : List Char) :
    tokenize w src = if w = true ∧ src.head? = some bomChar then some (.err .bom 0 0) else tokenizeFrom (stripBom src) := by
  unfold tokenize
  cases src with
  | nil => simp [stripBom]
  | cons c s =>
    by_cases h : c = bomChar
    · cases w <;> simp [h, stripBom, bomChar]
    · simp [h, stripBom]
      simp [bomChar] at h
      simp [h]

theorem matches_isSome {src t l} (h : Matches src t l) : t.begin.isSome = true := by
  obtain ⟨a, _, h⟩ := h.begin
  simp [h]

theorem all2_filter {src ts ls} (h : All2 (Matches src) ts ls) : realTokens ts = ts := by
  induction h with
  | nil => rfl
  | cons h _ ih =>
    simp only [realTokens] at ih ⊢
    rw [List.filter_cons, if_pos (matches_isSome h), ih]

theorem finish_inv {src ctx its es} (h : Inv src ctx its es) (hc : ctx.code = []) :
    Lexes src (closeItems its es) ∧
    All2 (Matches src) (realTokens (finishTokens ctx)) (lexemes [] (closeItems its es)) ∧
    (finishTokens ctx = realTokens (finishTokens ctx) ∨ finishTokens ctx = [{}]) := by
  have hcl := h.close (fun _ => .inl hc)
  rw [hc] at hcl
  refine ⟨⟨?_, (itemsOkBefore_nil _).1 hcl.1⟩, ?_⟩
  · rw [closeItems_text, ← h.text, hc]; simp
  · have heq : finishTokens ctx = (closeDone ctx).reverse ∨
        (finishTokens ctx = [{}] ∧ (closeDone ctx).reverse = []) := by
      have hb := h.boundary
      simp only [finishTokens, closeDone]
      rcases hb with hb | ⟨b, hb, _⟩
      · rw [hb]
        simp only
        split
        · next hd => right; simpa using hd
        · left; trivial
      · simp [hb]
    rcases heq with heq | ⟨heq, hnil⟩
    · rw [heq, all2_filter hcl.2]
      exact ⟨hcl.2, .inl rfl⟩
    · rw [heq]
      have : realTokens [({} : Token)] = [] := rfl
      rw [this, ← hnil]
      exact ⟨hcl.2, .inr rfl⟩

theorem tokenizeFrom_sound {code toks} (h : tokenizeFrom code = some (.ok toks)) :
    ∃ its, Lexes code its ∧ All2 (Matches code) (realTokens toks) (lexemes [] its) ∧
      (toks = realTokens toks ∨ toks = [{}]) := by
  unfold tokenizeFrom at h
  split at h
  · simp at h
  · next ctx hl =>
    simp only [Option.some.injEq, TokRes.ok.injEq] at h
    subst h
    obtain ⟨hc, its, es, hinv⟩ := loop_sound code _ _ _ _ _ (Inv.start code) hl
    exact ⟨_, finish_inv hinv hc⟩
  · simp at h
  · simp at h

theorem tokenizeFrom_complete {code its} (h : Lexes code its) :
    ∃ toks, tokenizeFrom code = some (.ok toks) ∧
      All2 (Matches code) (realTokens toks) (lexemes [] its) ∧ (toks = realTokens toks ∨ toks = [{}]) := by
  obtain ⟨ctx', its', es', g1, g2, g3, g4⟩ := loop_complete code its [] (code.length + 1) { code := code } [] []
    (Inv.start code) (by simp [elemsText, h.1]) trivial h.2 (by simp) (by simp)
  have hf := finish_inv g2 g3
  rw [g4] at hf
  simp only [closeItems, List.append_nil, List.nil_append, if_true] at hf
  refine ⟨finishTokens ctx', ?_, hf.2⟩
  unfold tokenizeFrom
  simp [g1]

theorem tokenizeFrom_total (code : List Char) :
    (∃ toks, tokenizeFrom code = some (.ok toks)) ∨ ∃ e l k, tokenizeFrom code = some (.err e l k) := by
  unfold tokenizeFrom
  rcases loop_total code (code.length + 1) { code := code } [] [] (Inv.start code) (by simp) with ⟨c, h⟩ | ⟨e, l, k, h⟩
  · exact .inl ⟨_, by simp [h]; rfl⟩
  · exact .inr ⟨e, l, k, by simp [h]⟩

theorem tokenize_ok {w src toks} (h : tokenize w src = some (.ok toks)) : tokenizeFrom (stripBom src) = some (.ok toks) := by
  rw [tokenize_eq] at h
  split at h
  · simp at h
  · exact h

theorem All2.mem_left {α β} {R : α → β → Prop} {a b} (h : All2 R a b) : ∀ x ∈ a, ∃ y ∈ b, R x y := by
  induction h with
  | nil => simp
  | cons h _ ih =>
    intro x hx
    rcases List.mem_cons.1 hx with rfl | hx
    · exact ⟨_, by simp, h⟩
    · obtain ⟨y, hy, hr⟩ := ih x hx
      exact ⟨y, by simp [hy], hr⟩

theorem All2.mem_right {α β} {R : α → β → Prop} {a b} (h : All2 R a b) : ∀ y ∈ b, ∃ x ∈ a, R x y := by
  induction h with
  | nil => simp
  | cons h _ ih =>
    intro x hx
    rcases List.mem_cons.1 hx with rfl | hx
    · exact ⟨_, by simp, h⟩
    · obtain ⟨y, hy, hr⟩ := ih x hx
      exact ⟨y, by simp [hy], hr⟩

theorem real_matches {w src toks} (h : tokenize w src = some (.ok toks)) :
    ∀ t ∈ toks, t.begin.isSome → ∃ l, Matches (stripBom src) t l := by
  intro t ht hs
  obtain ⟨its, _, h2, _⟩ := tokenizeFrom_sound (tokenize_ok h)
  obtain ⟨l, _, hl⟩ := All2.mem_left h2 t (by simp [realTokens, ht, hs])
  exact ⟨l, hl⟩

theorem elemsText_ne_nil {es : List Elem} (h : es ≠ []) : elemsText es ≠ [] := by
  cases es with
  | nil => exact absurd rfl h
  | cons e es =>
    have := elem_text_length e
    simp only [elemsText]
    intro h
    simp only [List.append_eq_nil_iff] at h
    simp [h.1] at this

theorem tiling_of_items (src : List Char) (its : List Item) :
    ∀ (before : List Char) (ts : List Token), src = before ++ itemsText its → ItemsOk its →
      All2 (Matches src) ts (lexemes before its) → Tiling (itemsText its) ts := by
  induction its with
  | nil =>
    intro before ts _ _ h
    cases h; exact .nil
  | cons i is ih =>
    intro before ts hs hok h
    have tok : ∀ (txt : List Char) (t : Token) (k : Kind), txt ≠ [] → src = before ++ (txt ++ itemsText is) →
        Matches src t ⟨before, txt, k⟩ → ∀ ts', Tiling (itemsText is) ts' → Tiling (txt ++ itemsText is) (t :: ts') := by
      intro txt t k hne hs hm ts' ht
      obtain ⟨after, ha, hb⟩ := hm.begin
      have : after = itemsText is := by
        rw [hs] at ha
        simpa using ha.symm
      subst this
      exact .token hne hb hm.len ht
    cases i with
    | blank c =>
      simp only [itemsText, Item.text, List.cons_append, List.nil_append]
      exact .blank hok.1 (ih (before ++ [c]) ts (by simpa [itemsText, Item.text] using hs) hok.2 h)
    | delim c =>
      simp only [lexemes] at h
      cases h with
      | cons h1 h2 =>
        exact tok [c] _ _ (by simp) (by simpa [itemsText, Item.text] using hs) h1 _
          (ih (before ++ [c]) _ (by simpa [itemsText, Item.text] using hs) hok.2 h2)
    | chunk es =>
      simp only [lexemes] at h
      cases h with
      | cons h1 h2 =>
        exact tok (elemsText es) _ _ (elemsText_ne_nil hok.1.1) (by simpa [itemsText, Item.text] using hs) h1 _
          (ih (before ++ elemsText es) _ (by simpa [itemsText, Item.text] using hs) hok.2 h2)

/-- Two lexical analyses of a text have the same tokens. -/
theorem matches_unique {src t l1 l2} (h1 : Matches src t l1) (h2 : Matches src t l2) :
    l1.before = l2.before ∧ l1.text = l2.text := by
  obtain ⟨a1, hs1, hb1⟩ := h1.begin
  obtain ⟨a2, hs2, hb2⟩ := h2.begin
  rw [hb1] at hb2
  simp only [Option.some.injEq] at hb2
  have hlen : l1.text.length = l2.text.length := by rw [← h1.len, ← h2.len]
  have := List.append_inj hb2 hlen
  refine ⟨?_, this.1⟩
  rw [hs1, this.1, this.2] at hs2
  exact List.append_cancel_right hs2

/-! ### Joining analyses -/

theorem itemsOk_append_of_sep (a b : List Item) (h : ItemsOk a)
    (hb : ItemsOk b) (hlast : a = [] ∨ (∃ a' c, a = a' ++ [.blank c]) ∨ (∃ a' c, a = a' ++ [.delim c]) ) :
    ItemsOk (a ++ b) := by
  rw [← itemsOkBefore_nil] at h hb ⊢
  rw [itemsOkBefore_append]
  refine ⟨?_, hb⟩
  simp only [List.append_nil]
  have key : ∀ (a' : List Item) (s t : List Char), t ≠ [] → ItemsOkBefore a' t → ItemsOkBefore a' (t ++ s) := by
    intro a' s t ht
    induction a' with
    | nil => simp [ItemsOkBefore]
    | cons i is ih =>
      rintro ⟨h1, h2⟩
      refine ⟨?_, ih h2⟩
      cases i with
      | blank c => exact h1
      | delim c => exact h1
      | chunk es =>
        obtain ⟨g1, g2, g3⟩ := h1
        have hne : itemsText is ++ t ≠ [] := by simp [ht]
        refine ⟨g1, ?_, ?_⟩
        · rw [← List.append_assoc]
          generalize itemsText is ++ t = u at g2 hne
          clear g1 g3 h2 ih
          induction es with
          | nil => trivial
          | cons e es ih =>
            refine ⟨?_, ih g2.2⟩
            have := g2.1
            cases e with
            | plain c => exact this
            | quoted q b => exact this
            | block b => exact this
            | line st b =>
              refine ⟨this.1, this.2.1, ?_⟩
              rcases this.2.2 with h | ⟨s', h⟩
              · simp at h; exact absurd h.2 hne
              · exact .inr ⟨s' ++ s, by rw [← List.append_assoc, h]; rfl⟩
        · rcases g3 with h | ⟨c, s', h, hc⟩
          · exact absurd h hne
          · exact .inr ⟨c, s' ++ s, by rw [← List.append_assoc, h]; rfl, hc⟩
  rcases hlast with rfl | ⟨a', c, rfl⟩ | ⟨a', c, rfl⟩
  · trivial
  · rw [itemsOkBefore_append] at h ⊢
    exact ⟨key a' (itemsText b) [c] (by simp) h.1, h.2.1, trivial⟩
  · rw [itemsOkBefore_append] at h ⊢
    exact ⟨key a' (itemsText b) [c] (by simp) h.1, h.2.1, trivial⟩

end Skull
