import Verif.Proofs.ReformRun
/-
The kind and the text of a token of a source settle what it means, but for integers before underscores (C88).
-/
namespace Skull.Reform
open Skull Skull.Spec

theorem text_string {t : Token} {text after : List Char} (h : HasText t text after) : tokenToString t = some text := by
  unfold tokenToString
  rw [h.1]
  simp [h.2]

theorem meaning {src src' : List Char} {t t' : Token} (hc : Compiled src t) (hc' : Compiled src' t') (hs : SameText t t')
    (hu : ClearOfUnderscore t) (hu' : ClearOfUnderscore t') : SameMeaning t t' := by
  obtain ⟨hk, htx⟩ := hs
  refine ⟨hk, htx, fun hty => ?_, fun hty strtod a b c => ?_, fun hty => ?_, fun hty => ?_, fun hty => ?_⟩
  · obtain ⟨text, after, n, h1, h2, h3⟩ := C11_value_partial src t hc hty
    obtain ⟨text', after', n', h1', h2', h3'⟩ := C11_value_partial src' t' hc' (hk ▸ hty)
    have e : text = text' := by
      rw [text_string h1, text_string h1'] at htx
      exact Option.some.inj htx
    subst e
    have en := C11_value_unique _ _ _ h2 h2'
    subst en
    have d : ∀ (u : Token) (a : List Char), HasText u text a → ClearOfUnderscore u → u.ty = .intConst →
        (a[1]? ≠ some '_' ∨ Digit (text[1]?.getD '0')) := by
      intro u a hh hcl hi
      have := hcl hi _ hh.1
      rw [hh.2, List.drop_left, List.take_left] at this
      exact this
    rw [h3 (d t _ h1 hu hty), h3' (d t' _ h1' hu' (hk ▸ hty))]
  · obtain ⟨es, after, l, k, h1, h2, h3, h4, h5, h6, h7⟩ := compiled_word hc (by simp [hty])
    obtain ⟨es', after', l', k', h1', h2', h3', h4', h5', h6', h7'⟩ := compiled_word hc' (by simp [← hk, hty])
    have e : elemsText es = elemsText es' := by
      rw [text_string h1, text_string h1'] at htx
      exact Option.some.inj htx
    have g : ∀ (u : Token) (x y : List Char) (i j : Nat), u = { word x y i j with ty := u.ty } →
        evalFloat strtod a b c u = evalFloat strtod a b c (word x y i j) := by
      intro u x y i j hh; rw [hh]; rfl
    rw [g _ _ _ _ _ h6, g _ _ _ _ _ h6', ← e]
    unfold evalFloat
    simp only [tokenCmp_word, tokenToString_word]
  · obtain ⟨es, after, l, k, h1, h2, h3, h4, h5, h6, h7⟩ := compiled_word hc (by simp [hty])
    obtain ⟨es', after', l', k', h1', h2', h3', h4', h5', h6', h7'⟩ := compiled_word hc' (by simp [← hk, hty])
    have e : elemsText es = elemsText es' := by
      rw [text_string h1, text_string h1'] at htx
      exact Option.some.inj htx
    simp only [evalBool, h1.2, h1'.2, e]
  · obtain ⟨es, after, l, k, h1, h2, h3, h4, h5, h6, h7⟩ := compiled_word hc (by simp [hty])
    obtain ⟨es', after', l', k', h1', h2', h3', h4', h5', h6', h7'⟩ := compiled_word hc' (by simp [← hk, hty])
    have e : elemsText es = elemsText es' := by
      rw [text_string h1, text_string h1'] at htx
      exact Option.some.inj htx
    have hr : isConstantRune (elemsText es) = true := by
      rw [hty, typeOf_eq _ _ _ _ (elemsText_ne_nil h2)] at h7
      simp only [Option.some.injEq, wordType] at h7
      split at h7
      · next hl => exact absurd h7 (opTable_all _ (lookup_mem _ _ _ hl)).2.2.2.2.2.2.2.2.2.2.2.1
      · grind
    exact rune_local hr h4 h4' h1.1 (e ▸ h1'.1)
  · obtain ⟨body, after, h1, h2, h3⟩ := C13_string_value src t hc hty
    obtain ⟨body', after', h1', h2', h3'⟩ := C13_string_value src' t' hc' (hk ▸ hty)
    have e : body = body' := by
      rw [text_string h1, text_string h1'] at htx
      have := Option.some.inj htx
      simp only [List.cons.injEq, true_and] at this
      exact List.append_cancel_right this
    subst e
    by_cases hv : ∃ vs, Denotes body vs
    · obtain ⟨vs, hv⟩ := hv
      rw [(h2 vs).2 hv, (h2' vs).2 hv]
    · rw [h3 hv, h3' hv]

theorem classify_mem : ∀ {ts toks : List Token}, classifyTokens ts = some toks → ∀ t ∈ toks, ∃ t0 ∈ ts, classifyToken t0 = some t
  | [], toks, h, t, ht => by
    simp only [classifyTokens, Option.some.injEq] at h
    subst h
    cases ht
  | t0 :: ts, toks, h, t, ht => by
    unfold classifyTokens at h
    cases h1 : classifyToken t0 with
    | none => simp [h1] at h
    | some u =>
      cases h2 : classifyTokens ts with
      | none => simp [h1, h2] at h
      | some us =>
        simp [h1, h2] at h
        subst h
        cases ht with
        | head => exact ⟨t0, List.mem_cons_self, h1⟩
        | tail _ ht =>
          obtain ⟨x, hx, hxe⟩ := classify_mem h2 t ht
          exact ⟨x, List.mem_cons_of_mem _ hx, hxe⟩

theorem tokens_compiled {w : Bool} {src : List Char} {toks : List Token} (h : TokensOf w src toks) : ∀ t ∈ toks, Compiled src t := by
  obtain ⟨ts, h1, h2⟩ := h
  intro t ht
  obtain ⟨t0, h3, h4⟩ := classify_mem h2 t ht
  exact ⟨w, ts, t0, h1, h3, h4⟩

theorem paired_meaning {w w' : Bool} {src src' : List Char} {all all' : List Token} (ha : TokensOf w src all) (ha' : TokensOf w' src' all') :
    ∀ {toks toks' : List Token}, Paired SameText toks toks' → (∀ t ∈ toks, t ∈ all) → (∀ t ∈ toks', t ∈ all') →
      (∀ t ∈ toks, ClearOfUnderscore t) → (∀ t ∈ toks', ClearOfUnderscore t) → Paired SameMeaning toks toks' := by
  intro toks toks' h
  induction h with
  | nil => intros; exact .nil
  | cons h _ ih =>
    intro m m' c c'
    refine .cons (meaning (tokens_compiled ha _ (m _ List.mem_cons_self)) (tokens_compiled ha' _ (m' _ List.mem_cons_self)) h
      (c _ List.mem_cons_self) (c' _ List.mem_cons_self)) (ih ?_ ?_ ?_ ?_)
    · exact fun t ht => m t (List.mem_cons_of_mem _ ht)
    · exact fun t ht => m' t (List.mem_cons_of_mem _ ht)
    · exact fun t ht => c t (List.mem_cons_of_mem _ ht)
    · exact fun t ht => c' t (List.mem_cons_of_mem _ ht)

end Skull.Reform
