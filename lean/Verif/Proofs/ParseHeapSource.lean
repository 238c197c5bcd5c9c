import Verif.Proofs.ParseHeapTree
/-
Programs of the grammar have no block right after another one.
-/
namespace Skull.PHeap

open Skull.Spec Skull.Spec.Src

theorem pars_noBrace : ∀ p : Pars, p.WF → NoBrace p.tokens
  | .nil, _ => .nil
  | .last n ty, h => .cons (isBrace h.1 (by simp) (by simp)) (typeOf_noBrace h.2)
  | .cons n ty c r, h => .cons (isBrace h.1 (by simp) (by simp)) (.append (typeOf_noBrace h.2.1) (.cons (isBrace h.2.2.1 (by simp) (by simp)) (pars_noBrace r h.2.2.2)))

theorem func_skip {f : Src.Func} (h : f.WF) {x y : Bool} (hm : FuncMark f.mark x y) (rest : List Token) (s : Bool) :
    blockAfterBlock s (f.tokens ++ rest) = blockAfterBlock false rest := by
  obtain ⟨h1, h2, h3, _, h4, h5⟩ := h
  have hf : ∀ t ∈ f.mark, t.ty ≠ .newline ∧ t.ty ≠ .comma := by
    generalize f.mark = m at hm
    intro t ht
    cases hm <;> simp at ht
    all_goals subst ht
    all_goals rename_i h; rw [h]; simp
  have hr : NoBrace (f.ret.getD []) := by
    cases hx : f.ret with
    | none => exact .nil
    | some ty => exact typeOf_noBrace (h5 ty hx)
  rw [Func.tokens, List.append_assoc]
  show blockAfterBlock s (f.mark ++ f.name :: f.opn :: ((f.params.tokens ++ f.close :: f.ret.getD []) ++ rest)) = _
  rw [mark_skip (funcMark_noBrace hm) hf (by rw [h1]; simp) (by rw [h1]; simp), skip_is h2 (by simp) (by simp) (by simp) (by simp), List.append_assoc,
    skip_false _ (pars_noBrace _ h3), List.cons_append, skip_is h4 (by simp) (by simp) (by simp) (by simp), skip_false _ hr]

theorem value_skip {c : Chain} (h : Src.Value c) (rest : List Token) (s : Bool) : blockAfterBlock s (c.tokens ++ rest) = blockAfterBlock false rest :=
  start_of (chain_noBrace c h.1) (chain_head c h.1) (exprOf_ne (exprOf_chain h.1)) s

theorem decl_skip {m : List Token} {n : Token} {rest : List Token} (hm : ∃ k x, DeclMark m k x) (hn : n.ty = .identifier ∨ n.ty = .newIdentifier) (s : Bool) :
    blockAfterBlock s (m ++ n :: rest) = blockAfterBlock false rest := by
  obtain ⟨k, x, hm⟩ := hm
  refine mark_skip (declMark_noBrace hm) ?_ ?_ ?_ s
  · intro t ht
    cases hm <;> simp at ht
    all_goals subst ht
    all_goals rename_i h; rw [h]; simp
  · rcases hn with h | h <;> rw [h] <;> simp
  · rcases hn with h | h <;> rw [h] <;> simp

theorem name_skip {n : Token} {rest : List Token} (h : isName n = true) (s : Bool) : blockAfterBlock s (n :: rest) = blockAfterBlock false rest := by
  refine skip_start (name_noBrace h) ?_ s
  unfold isName at h
  rintro (e | e) <;> rw [e] at h <;> simp at h

theorem line_skip : ∀ (l : Line), l.WF → ∀ rest s, blockAfterBlock s (l.tokens ++ rest) = blockAfterBlock false rest
  | .word t, h, rest, s => by
    rcases h with h | h | h | h | h <;> exact skip_is h (by simp) (by simp) (by simp) (by simp) s
  | .ret t, h, rest, s => skip_is h (by simp) (by simp) (by simp) (by simp) s
  | .retVal t c, h, rest, s => by
    show blockAfterBlock s (t :: (c.tokens ++ rest)) = _
    rw [skip_is h.1 (by simp) (by simp) (by simp) (by simp), value_skip h.2]
  | .import t n, h, rest, s => by
    show blockAfterBlock s (t :: n :: rest) = _
    rw [skip_is h.1 (by simp) (by simp) (by simp) (by simp), skip_is h.2 (by simp) (by simp) (by simp) (by simp)]
  | .define m n q c, h, rest, s => by
    rw [Line.tokens, List.append_assoc]
    show blockAfterBlock s (m ++ n :: q :: (c.tokens ++ rest)) = _
    rw [decl_skip h.1 (.inl h.2.1), skip_is h.2.2.1 (by simp) (by simp) (by simp) (by simp), value_skip h.2.2.2]
  | .defineAs m n ty q c, h, rest, s => by
    rw [Line.tokens, List.append_assoc]
    show blockAfterBlock s (m ++ n :: ((ty ++ q :: c.tokens) ++ rest)) = _
    rw [decl_skip h.1 (.inr h.2.1), List.append_assoc, skip_false _ (typeOf_noBrace h.2.2.1), List.cons_append,
      skip_is h.2.2.2.1 (by simp) (by simp) (by simp) (by simp), value_skip h.2.2.2.2]
  | .assign n q c, h, rest, s => by
    show blockAfterBlock s (n :: q :: (c.tokens ++ rest)) = _
    rw [name_skip h.1, skip_is h.2.1 (by simp) (by simp) (by simp) (by simp), value_skip h.2.2]
  | .expr c, h, rest, s => value_skip h rest s
  | .external f, h, rest, s => func_skip h.1 h.2 rest s

theorem head_skip : ∀ (l : Head), l.WF → ∀ rest s, blockAfterBlock s (l.tokens ++ rest) = blockAfterBlock false rest
  | .cond t c, h, rest, s => by
    show blockAfterBlock s (t :: (c.tokens ++ rest)) = _
    rw [show blockAfterBlock s (t :: (c.tokens ++ rest)) = blockAfterBlock false (c.tokens ++ rest) from by
      rcases h.1 with h | h | h <;> exact skip_is h (by simp) (by simp) (by simp) (by simp) s, value_skip h.2]
  | .else t, h, rest, s => skip_is h (by simp) (by simp) (by simp) (by simp) s
  | .namespace t n, h, rest, s => by
    show blockAfterBlock s (t :: n :: rest) = _
    rw [skip_is h.1 (by simp) (by simp) (by simp) (by simp), skip_is h.2 (by simp) (by simp) (by simp) (by simp)]
  | .func f, h, rest, s => by
    obtain ⟨h1, x, h2⟩ := h
    exact func_skip h1 h2 rest s

theorem prog_blocks : ∀ (p : Prog) (a w : List Token), p.WF w → ∀ s, blockAfterBlock s (p.tokens ++ a) = true → ∃ s', blockAfterBlock s' a = true
  | .nil, a, w, _, s, h => ⟨s, h⟩
  | .newline t r, a, w, hw, s, h => by
    have h : blockAfterBlock s (t :: (r.tokens ++ a)) = true := h
    rw [blockAfterBlock, if_neg (by rw [hw.1]; simp), if_neg (by rw [hw.1]; simp), if_pos (Or.inl hw.1)] at h
    exact prog_blocks r a w hw.2 s h
  | .line l r, a, w, hw, s, h => by
    rw [Prog.tokens, List.append_assoc, line_skip l hw.1] at h
    exact prog_blocks r a w hw.2.2 false h
  | .block hd gap o b c r, a, w, hw, s, h => by
    obtain ⟨h1, h2, _, h3, h4, _, h5, h6⟩ := hw
    rw [Prog.tokens, List.append_assoc, head_skip hd h1, List.append_assoc,
      skip_false _ (fun t ht => by rw [h2 t ht]; simp)] at h
    have h : blockAfterBlock false (o :: ((b.tokens ++ c :: r.tokens) ++ a)) = true := h
    rw [blockAfterBlock, if_pos h3, Bool.false_or, List.append_assoc] at h
    obtain ⟨s', h⟩ := prog_blocks b _ _ h4 _ h
    have h : blockAfterBlock s' (c :: (r.tokens ++ a)) = true := h
    rw [blockAfterBlock, if_neg (by rw [h5]; simp), if_pos h5] at h
    exact prog_blocks r a w h6 _ h

theorem prog_noBlocks {p : Prog} (h : p.WF []) : blockAfterBlock false p.tokens = false := by
  cases hb : blockAfterBlock false p.tokens with
  | false => rfl
  | true =>
    obtain ⟨s', h'⟩ := prog_blocks p [] [] h false (by rw [List.append_nil]; exact hb)
    cases h'

/-- No such place, and not too many parameters. -/
theorem tidy_of {toks : List Token} (h : blockAfterBlock false toks = false) (hl : toks.length < 65536) : Tidy toks := by
  have hpre : ∀ (pre rest : List Token) (s : Bool), blockAfterBlock s (pre ++ rest) = false → ∃ s', blockAfterBlock s' rest = false := by
    intro pre rest
    induction pre with
    | nil => exact fun s h => ⟨s, h⟩
    | cons t ts ih =>
      intro s h
      rw [List.cons_append, blockAfterBlock] at h
      split at h
      · exact ih false (by cases s <;> simp_all)
      · split at h
        · exact ih _ h
        · split at h
          · exact ih _ h
          · exact ih _ h
  have hsep : ∀ (sep rest : List Token), (∀ t ∈ sep, Sep t) → blockAfterBlock true (sep ++ rest) = blockAfterBlock true rest := by
    intro sep rest hs
    induction sep with
    | nil => rfl
    | cons t ts ih =>
      have : t.ty = .newline ∨ t.ty = .comma := hs t List.mem_cons_self
      rw [List.cons_append, blockAfterBlock, if_neg (by rcases this with h | h <;> rw [h] <;> simp), if_neg (by rcases this with h | h <;> rw [h] <;> simp),
        if_pos this]
      exact ih fun s h => hs s (List.mem_cons_of_mem _ h)
  refine ⟨?_, hl⟩
  rintro ts ⟨pre, cl, sep, rfl, hcl, hs⟩ t ht hopen
  obtain ⟨s', h⟩ := hpre pre _ _ h
  rw [blockAfterBlock, if_neg (by rw [hcl]; simp), if_pos hcl, hsep sep ts hs] at h
  cases ts with
  | nil => cases ht
  | cons t' ts =>
    cases ht
    rw [blockAfterBlock, if_pos hopen] at h
    cases h

end Skull.PHeap
