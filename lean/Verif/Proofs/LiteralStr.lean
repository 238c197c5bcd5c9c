import Verif.Proofs.Literal
/-
Lemmas about string and rune literals.
-/
namespace Skull
open Skull.Spec

set_option linter.unusedSimpArgs false

theorem unhex_table : ∀ n, n < 103 → ((48 ≤ n ∧ n ≤ 57) ∨ (97 ≤ n ∧ n ≤ 102) ∨ (65 ≤ n ∧ n ≤ 70)) →
    c32unhex (Char.ofNat n) = digitValue (Char.ofNat n) := by decide +kernel

theorem unhex_eq (c : Char) (h : HexDigit c) : c32unhex c = digitValue c := by
  have h' := (hexDigit_code c).1 h
  have := unhex_table c.toNat (by omega) h'
  rwa [Char.ofNat_toNat] at this

/-- The rest after the digits of a hex escape. -/
def HexStop (k : Nat) (ds rest : List Char) : Prop := ds.length < k → ∀ c t, rest = c :: t → ¬ HexDigit c

theorem hex_split (k : Nat) : ∀ s : List Char, ∃ ds rest, s = ds ++ rest ∧ ds.length ≤ k ∧ (∀ c ∈ ds, HexDigit c) ∧ HexStop k ds rest := by
  induction k with
  | zero => intro s; exact ⟨[], s, rfl, by simp, by simp, by intro h; simp at h⟩
  | succ k ih =>
    intro s
    cases s with
    | nil => exact ⟨[], [], rfl, by simp, by simp, by intro _ c t h; simp at h⟩
    | cons c s =>
      by_cases hc : HexDigit c
      · obtain ⟨ds, rest, rfl, h1, h2, h3⟩ := ih s
        refine ⟨c :: ds, rest, rfl, by simpa using h1, ?_, ?_⟩
        · intro d hd
          rcases List.mem_cons.1 hd with rfl | hd
          · exact hc
          · exact h2 d hd
        · intro hl; exact h3 (by simpa using hl)
      · refine ⟨[], c :: s, rfl, by simp, by simp, ?_⟩
        intro _ c' t h
        simp only [List.cons.injEq] at h
        rw [← h.1]; exact hc

theorem hex_split_unique (k : Nat) : ∀ {ds rest es rest' : List Char}, ds ++ rest = es ++ rest' → ds.length ≤ k → es.length ≤ k →
    (∀ c ∈ ds, HexDigit c) → (∀ c ∈ es, HexDigit c) → HexStop k ds rest → HexStop k es rest' → ds = es ∧ rest = rest' := by
  induction k with
  | zero =>
    intro ds rest es rest' h h1 h2 _ _ _ _
    have e1 : ds = [] := List.length_eq_zero_iff.1 (by omega)
    have e2 : es = [] := List.length_eq_zero_iff.1 (by omega)
    subst e1 e2
    exact ⟨rfl, by simpa using h⟩
  | succ k ih =>
    intro ds rest es rest' h h1 h2 hd he h3 h4
    cases ds with
    | nil =>
      cases es with
      | nil => exact ⟨rfl, by simpa using h⟩
      | cons e es =>
        exact absurd (he e (by simp)) (h3 (by simp) e _ (by simpa using h))
    | cons d ds =>
      cases es with
      | nil => exact absurd (hd d (by simp)) (h4 (by simp) d _ (by simpa using h.symm))
      | cons e es =>
        simp only [List.cons_append, List.cons.injEq] at h
        have := ih h.2 (by simpa using h1) (by simpa using h2) (fun c hc => hd c (by simp [hc])) (fun c hc => he c (by simp [hc]))
          (fun hl => h3 (by simpa using hl)) (fun hl => h4 (by simpa using hl))
        exact ⟨by rw [h.1, this.1], this.2⟩

theorem hexLoop_eq (ds rest : List Char) (hd : ∀ c ∈ ds, HexDigit c) : ∀ prev i v, HexStop (8 - i) ds rest → i + ds.length ≤ 8 →
    hexLoop (ds ++ rest) prev i v =
      (i + ds.length, ds.foldl (fun n c => (n * 16 + digitValue c) % 2 ^ 32) v, ds.getLast?.getD prev, rest) := by
  induction ds with
  | nil =>
    intro prev i v hs hi
    cases rest with
    | nil => simp [hexLoop]
    | cons c t =>
      have hf : (c32isxdigit c && decide (i < 8)) = false := by
        by_cases hi8 : i < 8
        · have := hs (by simp; omega) c t rfl
          rw [← isxdigit_iff] at this
          simp [this]
        · simp [hi8]
      simp [hexLoop, hf]
  | cons c ds ih =>
    intro prev i v hs hi
    have hx : c32isxdigit c = true := (isxdigit_iff c).2 (hd c (by simp))
    have hi8 : i < 8 := by simp at hi; omega
    simp only [List.cons_append, hexLoop, hx, hi8, decide_true, Bool.and_self, if_true]
    rw [ih (fun c hc => hd c (by simp [hc])) _ _ _ (by intro hl; exact hs (by simp; omega)) (by simp at hi; omega),
      unhex_eq c (hd c (by simp))]
    simp only [List.foldl_cons, List.length_cons, Prod.mk.injEq, true_and, and_true]
    refine ⟨by omega, ?_⟩
    cases ds with
    | nil => simp
    | cons d ds => simp [List.getLast?_cons_cons]; simp [List.getLast?_cons]

/-- Eight digits do not overflow. -/
theorem fold_mod (ds : List Char) (hd : ∀ c ∈ ds, HexDigit c) : ∀ v k, v < 16 ^ k → k + ds.length ≤ 8 →
    ds.foldl (fun n c => (n * 16 + digitValue c) % 2 ^ 32) v = ds.foldl (fun n c => n * 16 + digitValue c) v := by
  induction ds with
  | nil => intros; rfl
  | cons c ds ih =>
    intro v k hv hk
    simp only [List.foldl_cons]
    have h1 := (digitVal_hex c (hd c (by simp))).2
    have h2 : v * 16 + digitValue c < 16 ^ (k + 1) := by rw [Nat.pow_succ]; omega
    have h3 : (16 : Nat) ^ (k + 1) ≤ 16 ^ 8 := Nat.pow_le_pow_right (by omega) (by simp at hk; omega)
    have h4 : (16 : Nat) ^ 8 = 2 ^ 32 := by decide
    rw [Nat.mod_eq_of_lt (by omega)]
    exact ih (fun c hc => hd c (by simp [hc])) _ (k + 1) h2 (by simp at hk; omega)

theorem numeral_hex (ds : List Char) (hd : ∀ c ∈ ds, HexDigit c) (hl : ds.length ≤ 8) :
    ds.foldl (fun n c => (n * 16 + digitValue c) % 2 ^ 32) 0 = numeral 16 ds := by
  rw [fold_mod ds hd 0 0 (by simp) (by omega), numeral]
  congr 1
  symm
  rw [List.filter_eq_self]
  intro c hc
  simpa using hex_not_us (hd c hc)

/-- What `c32sunescape` does, without the loops. -/
theorem unescape_plain (c : Char) (s : List Char) (h : c ≠ '\\') : c32sunescape (c :: s) = some (c.toNat, c :: s) := by
  simp [c32sunescape, h]

theorem unescape_simple {e n} (h : (e, n) ∈ simpleEscapes) (s : List Char) :
    c32sunescape ('\\' :: e :: s) = some (n, e :: s) := by
  simp only [simpleEscapes, List.mem_cons, Prod.mk.injEq, List.not_mem_nil, or_false] at h
  rcases h with ⟨rfl, rfl⟩ | ⟨rfl, rfl⟩ | ⟨rfl, rfl⟩ | ⟨rfl, rfl⟩ | ⟨rfl, rfl⟩ | ⟨rfl, rfl⟩ | ⟨rfl, rfl⟩ | ⟨rfl, rfl⟩ <;> rfl

theorem unescape_bad {e} (h : ∀ n, (e, n) ∉ simpleEscapes) (hx : e ≠ 'x') (s : List Char) :
    c32sunescape ('\\' :: e :: s) = none := by
  simp only [simpleEscapes, List.mem_cons, Prod.mk.injEq, List.not_mem_nil, or_false, not_or, not_and] at h
  have h1 : e ≠ '\\' := fun he => (h 92).1 he rfl
  have h2 : e ≠ '"' := fun he => (h 34).2.1 he rfl
  have h3 : e ≠ '\'' := fun he => (h 39).2.2.1 he rfl
  have h4 : e ≠ '0' := fun he => (h 0).2.2.2.1 he rfl
  have h5 : e ≠ 'e' := fun he => (h 27).2.2.2.2.1 he rfl
  have h6 : e ≠ 't' := fun he => (h 9).2.2.2.2.2.1 he rfl
  have h7 : e ≠ 'r' := fun he => (h 13).2.2.2.2.2.2.1 he rfl
  have h8 : e ≠ 'n' := fun he => (h 10).2.2.2.2.2.2.2 he rfl
  simp [c32sunescape, h1, h2, h3, h4, h5, h6, h7, h8, hx]

theorem unescape_hex (ds rest : List Char) (hd : ∀ c ∈ ds, HexDigit c) (hl : ds.length ≤ 8) (hs : HexStop 8 ds rest) :
    c32sunescape ('\\' :: 'x' :: (ds ++ rest)) =
      if ds = [] then none else some (numeral 16 ds, ds.getLast?.getD 'x' :: rest) := by
  have : c32sunescape ('\\' :: 'x' :: (ds ++ rest)) =
      (match hexLoop (ds ++ rest) 'x' 0 0 with
       | (i, value, prev, rest) => if i > 0 then some (value, prev :: rest) else none) := rfl
  rw [this, hexLoop_eq ds rest hd 'x' 0 0 hs (by omega), numeral_hex ds hd hl]
  cases ds with
  | nil => simp
  | cons c ds => simp

theorem unescape_rest_ne {c s v r} (h : c32sunescape (c :: s) = some (v, r)) : r ≠ [] := by
  by_cases hc : c = '\\'
  · subst hc
    cases s with
    | nil => simp [c32sunescape] at h
    | cons e s =>
      by_cases he : ∃ n, (e, n) ∈ simpleEscapes
      · obtain ⟨n, hn⟩ := he
        rw [unescape_simple hn] at h
        simp at h; rw [← h.2]; simp
      · by_cases hx : e = 'x'
        · subst hx
          obtain ⟨ds, rest, rfl, h1, h2, h3⟩ := hex_split 8 s
          rw [unescape_hex ds rest h2 h1 h3] at h
          split at h
          · simp at h
          · simp at h; rw [← h.2]; simp
        · rw [unescape_bad (fun n hn => he ⟨n, hn⟩) hx] at h
          simp at h
  · rw [unescape_plain c s hc] at h
    simp at h; rw [← h.2]; simp

/-- A text in which no backslash is left over when escapes are read from the left. -/
inductive NoDangle : List Char → Prop
  | nil : NoDangle []
  | plain {c s} : c ≠ '\\' → NoDangle s → NoDangle (c :: s)
  | escape {e s} : NoDangle s → NoDangle ('\\' :: e :: s)

theorem noDangle_plain_inv {c s} (h : NoDangle (c :: s)) (hc : c ≠ '\\') : NoDangle s := by
  cases h with
  | plain _ h => exact h
  | escape => exact absurd rfl hc

theorem noDangle_drop {ds s} (hd : ∀ c ∈ ds, HexDigit c) (h : NoDangle (ds ++ s)) : NoDangle s := by
  induction ds with
  | nil => exact h
  | cons c ds ih =>
    refine ih (fun c hc => hd c (by simp [hc])) (noDangle_plain_inv h ?_)
    rintro rfl
    exact absurd (hd '\\' (by simp)) (by unfold HexDigit Digit; decide)

/-- The relation `Denotes`, from the left. -/
theorem denotes_plain {c s vs} (hc : c ≠ '\\') : Denotes (c :: s) vs ↔ ∃ v, vs = c.toNat :: v ∧ Denotes s v := by
  constructor
  · intro h
    cases h with
    | plain _ h => exact ⟨_, rfl, h⟩
    | simple => exact absurd rfl hc
    | hex => exact absurd rfl hc
  · rintro ⟨v, rfl, h⟩; exact .plain hc h

theorem simple_unique {e n m} (h1 : (e, n) ∈ simpleEscapes) (h2 : (e, m) ∈ simpleEscapes) : n = m := by
  have hn := unescape_simple h1 []
  have hm := unescape_simple h2 []
  rw [hn] at hm
  simpa using hm

theorem simple_not_x {n} : ('x', n) ∉ simpleEscapes := by
  simp [simpleEscapes]

theorem denotes_simple {e n s vs} (he : (e, n) ∈ simpleEscapes) : Denotes ('\\' :: e :: s) vs ↔ ∃ v, vs = n :: v ∧ Denotes s v := by
  constructor
  · intro h
    cases h with
    | plain h => exact absurd rfl h
    | simple h' h => exact ⟨_, by rw [simple_unique he h'], h⟩
    | hex => exact absurd he simple_not_x
  · rintro ⟨v, rfl, h⟩; exact .simple he h

theorem denotes_bad {e s vs} (he : ∀ n, (e, n) ∉ simpleEscapes) (hx : e ≠ 'x') : ¬ Denotes ('\\' :: e :: s) vs := by
  intro h
  cases h with
  | plain h => exact absurd rfl h
  | simple h' h => exact he _ h'
  | hex => exact hx rfl

theorem denotes_hex {ds s vs} (hd : ∀ c ∈ ds, HexDigit c) (hl : ds.length ≤ 8) (hs : HexStop 8 ds s) :
    Denotes ('\\' :: 'x' :: (ds ++ s)) vs ↔ ds ≠ [] ∧ ∃ v, vs = numeral 16 ds :: v ∧ Denotes s v := by
  constructor
  · generalize hX : '\\' :: 'x' :: (ds ++ s) = X
    intro h
    cases h with
    | nil => simp at hX
    | plain h => simp only [List.cons.injEq] at hX; exact absurd hX.1.symm h
    | simple h' h => simp only [List.cons.injEq] at hX; rw [← hX.2.1] at h'; exact absurd h' simple_not_x
    | @hex es t v h1 h2 h3 h4 h5 =>
      simp only [List.cons.injEq, true_and] at hX
      obtain ⟨rfl, rfl⟩ := hex_split_unique 8 hX hl h2 hd h3 hs h4
      exact ⟨h1, v, rfl, h5⟩
  · rintro ⟨hne, v, rfl, h⟩
    exact .hex hne hl hd hs h

/-- Result of `eval_str` against `Denotes`. -/
def StrResult (body : List Char) (r : Option (Ev (List Nat))) : Prop :=
  (∃ vs, r = some (.ok vs) ∧ ∀ ws, Denotes body ws ↔ ws = vs) ∨ (r = some .badEscape ∧ ∀ ws, ¬ Denotes body ws)

/-- One character of `eval_str`. -/
theorem strResult_step {body body' : List Char} {n : Nat} {r : Option (Ev (List Nat))} (h : StrResult body' r)
    (hd : ∀ vs, Denotes body vs ↔ ∃ v, vs = n :: v ∧ Denotes body' v) :
    StrResult body (consEv n r) := by
  rcases h with ⟨vs, rfl, h⟩ | ⟨rfl, h⟩
  · left
    refine ⟨n :: vs, rfl, ?_⟩
    intro ws
    rw [hd]
    constructor
    · rintro ⟨v, rfl, hv⟩; rw [(h v).1 hv]
    · rintro rfl; exact ⟨vs, rfl, (h vs).2 rfl⟩
  · right
    refine ⟨rfl, ?_⟩
    intro ws hw
    obtain ⟨v, _, hv⟩ := (hd ws).1 hw
    exact h v hv

theorem evalStrLoop_spec (after : List Char) : ∀ (n : Nat) (body : List Char), body.length ≤ n → NoDangle body →
    ∀ fuel room, body.length < fuel → body.length < room →
      StrResult body (evalStrLoop fuel (after.length + 1) room (body ++ '"' :: after)) := by
  intro n
  induction n with
  | zero =>
    intro body hb _ fuel room hf hr
    have : body = [] := List.length_eq_zero_iff.1 (by omega)
    subst this
    match fuel, room, hf, hr with
    | fuel + 1, room + 1, _, _ =>
      left
      refine ⟨[], by simp [evalStrLoop], ?_⟩
      intro ws
      constructor
      · intro h; cases h; rfl
      · rintro rfl; exact .nil
  | succ n ih =>
    intro body hb hn fuel room hf hr
    match fuel, room, hf, hr with
    | fuel + 1, room + 1, hf, hr =>
      have hroom : room + 1 ≠ 0 := by omega
      match body, hn with
      | [], _ => exact ih [] (by simp) .nil _ _ (by simp) (by simp)
      | c :: s, hn =>
        have hlen : (decide (c :: s ++ '"' :: after ≠ []) && decide ((c :: s ++ '"' :: after).length > after.length + 1)) = true := by
          simp; omega
        rw [evalStrLoop]
        simp only [hlen, if_true]
        by_cases hc : c = '\\'
        · subst hc
          match s, hn with
          | [], hn => cases hn with | plain h => exact absurd rfl h
          | e :: s, hn =>
            have hs : NoDangle s := by
              cases hn with
              | plain h => exact absurd rfl h
              | escape h => exact h
            by_cases he : ∃ k, (e, k) ∈ simpleEscapes
            · obtain ⟨k, hk⟩ := he
              simp only [List.cons_append, unescape_simple hk, hroom, if_false, Nat.add_sub_cancel]
              simp only [List.length_cons] at hb hf hr
              exact strResult_step (ih s (by omega) hs fuel room (by omega) (by omega)) (fun vs => denotes_simple hk)
            · have he' : ∀ k, (e, k) ∉ simpleEscapes := fun k hk => he ⟨k, hk⟩
              by_cases hx : e = 'x'
              · subst hx
                obtain ⟨ds, rest, rfl, h1, h2, h3⟩ := hex_split 8 s
                have h3' : HexStop 8 ds (rest ++ '"' :: after) := by
                  intro hl c t hct
                  cases rest with
                  | nil =>
                    simp at hct
                    rw [← hct.1]
                    unfold HexDigit Digit; decide
                  | cons d rest =>
                    simp at hct
                    rw [← hct.1]
                    exact h3 hl d rest rfl
                simp only [List.cons_append, List.append_assoc]
                rw [unescape_hex ds _ h2 h1 h3']
                by_cases hds : ds = []
                · subst hds
                  simp only [if_true]
                  right
                  refine ⟨rfl, fun ws hw => ?_⟩
                  exact ((denotes_hex (ds := []) (by simp) (by simp) h3).1 hw).1 rfl
                · rw [if_neg hds]
                  simp only [hroom, if_false, Nat.add_sub_cancel]
                  simp only [List.length_cons, List.length_append] at hb hf hr
                  refine strResult_step (ih rest (by omega) (noDangle_drop h2 hs) fuel room (by omega) (by omega)) (fun vs => ?_)
                  rw [denotes_hex h2 h1 h3]
                  simp [hds]
              · simp only [List.cons_append, unescape_bad he' hx]
                right
                exact ⟨rfl, fun ws => denotes_bad he' hx⟩
        · simp only [List.cons_append, unescape_plain c _ hc, hroom, if_false, Nat.add_sub_cancel]
          simp only [List.length_cons] at hb hf hr
          exact strResult_step (ih s (by omega) (noDangle_plain_inv hn hc) fuel room (by omega) (by omega)) (fun vs => denotes_plain hc)

theorem evalStr_spec (body after : List Char) (l k : Nat) (h : NoDangle body) :
    StrResult body (evalStr (word ('"' :: (body ++ ['"'])) after l k)) := by
  have e1 : evalStr (word ('"' :: (body ++ ['"'])) after l k) =
      evalStrLoop ((body ++ '"' :: after).length + 1) (after.length + 1) (body.length + 1) (body ++ '"' :: after) := by
    simp only [evalStr, word, List.cons_append, List.append_assoc, List.nil_append]
    simp only [List.length_cons, List.length_append, List.length_nil]
    congr 1
    omega
  rw [e1]
  exact evalStrLoop_spec after body.length body (Nat.le_refl _) h _ _ (by simp; omega) (by simp)

/-! ### Literals of the grammar have no dangling backslash -/

def EndsOk (x : List Char) : Prop := ∀ body, x = body ++ ['"'] → NoDangle body

theorem append_quote_cons {c : Char} {x body : List Char} (hx : x ≠ []) (h : c :: x = body ++ ['"']) :
    ∃ b, body = c :: b ∧ x = b ++ ['"'] := by
  cases body with
  | nil => simp at h; exact absurd h.2 hx
  | cons d b => simp at h; exact ⟨b, by rw [h.1], h.2⟩

theorem endsOk_quoted {q b} (hb : QuotedBody q b) (y : List Char) (hy : EndsOk (q :: y)) : EndsOk (b ++ q :: y) := by
  induction hb with
  | nil => exact hy
  | @escape e s he _ ih =>
    intro body h
    obtain ⟨b1, hb1, h1⟩ := append_quote_cons (by simp) h
    obtain ⟨b2, hb2, h2⟩ := append_quote_cons (by simp) h1
    rw [hb1, hb2]
    exact .escape (ih b2 h2)
  | @plain c s hc hbs _ ih =>
    intro body h
    obtain ⟨b1, hb1, h1⟩ := append_quote_cons (by simp) h
    rw [hb1]
    by_cases hcb : c = '\\'
    · obtain ⟨d, s', rfl, hd⟩ := hbs hcb
      have := ih b1 h1
      obtain ⟨b2, hb2, _⟩ := append_quote_cons (by simp) h1
      rw [hb2] at this
      rw [hcb, hb2]
      exact .escape (noDangle_plain_inv this hd)
    · exact .plain hcb (ih b1 h1)

theorem endsOk_quote_cons {q y} (hq : Quote q) (hy : y = [] ∨ EndsOk y) : EndsOk (q :: y) := by
  intro body h
  have hqb : q ≠ '\\' := by rcases hq with rfl | rfl <;> decide
  by_cases hy' : y = []
  · subst hy'
    cases body with
    | nil => exact .nil
    | cons d b => simp at h
  · rcases hy with hy | hy
    · exact absurd hy hy'
    · obtain ⟨b, rfl, h1⟩ := append_quote_cons hy' h
      exact .plain hqb (hy b h1)

theorem elemsText_eq_nil {es : List Elem} (h : elemsText es = []) : es = [] := by
  cases es with
  | nil => rfl
  | cons e es => cases e <;> simp [elemsText, Elem.text] at h

theorem endsOk_elems : ∀ (n : Nat) (es : List Elem) (after : List Char), es.length ≤ n → ElemsOk es after →
    es.any Elem.isComment = false → EndsOk (elemsText es) := by
  intro n
  induction n with
  | zero =>
    intro es _ h _ _ body hb
    have : es = [] := List.length_eq_zero_iff.1 (by omega)
    subst this
    simp [elemsText] at hb
  | succ n ih =>
    intro es after hl hok hnc
    match es with
    | [] => intro body hb; simp [elemsText] at hb
    | .line s b :: es => simp [Elem.isComment] at hnc
    | .block b :: es => simp [Elem.isComment] at hnc
    | .quoted q b :: es =>
      simp only [ElemsOk, Elem.Ok] at hok
      have hrest := ih es after (by simpa using hl) hok.2 (by simpa [Elem.isComment] using hnc)
      have h1 : EndsOk (q :: elemsText es) := endsOk_quote_cons hok.1.1 (.inr hrest)
      have h2 := endsOk_quoted hok.1.2 (elemsText es) h1
      have h3 := endsOk_quote_cons hok.1.1 (.inr h2)
      simpa [elemsText, Elem.text] using h3
    | .plain c :: es =>
      simp only [ElemsOk, Elem.Ok] at hok
      intro body hb
      simp only [elemsText, Elem.text, List.cons_append, List.nil_append] at hb
      by_cases hes : es = []
      · subst hes
        simp only [elemsText] at hb
        cases body with
        | nil => simp at hb; exact absurd (.inr hb) hok.1.2.2.1
        | cons d b => simp at hb
      · obtain ⟨b1, hb1, hb2⟩ := append_quote_cons (fun h => hes (elemsText_eq_nil h)) hb
        rw [hb1]
        clear hb hb1
        have hb := hb2
        clear hb2
        by_cases hc : c = '\\'
        · subst hc
          match es, hes with
          | .line s b :: es, _ => simp [Elem.isComment] at hnc
          | .block b :: es, _ => simp [Elem.isComment] at hnc
          | .quoted q b :: es, _ =>
            simp only [ElemsOk, Elem.Ok] at hok
            have hrest := ih es after (by simp at hl; omega) hok.2.2 (by simpa [Elem.isComment] using hnc)
            have h1 : EndsOk (q :: elemsText es) := endsOk_quote_cons hok.2.1.1 (.inr hrest)
            have h2 := endsOk_quoted hok.2.1.2 (elemsText es) h1
            simp only [elemsText, Elem.text, List.cons_append, List.append_assoc, List.nil_append] at hb
            obtain ⟨b2, rfl, hb2⟩ := append_quote_cons (by simp) hb
            exact .escape (h2 b2 hb2)
          | .plain d :: es, _ =>
            simp only [ElemsOk, Elem.Ok] at hok
            simp only [elemsText, Elem.text, List.cons_append, List.nil_append] at hb
            by_cases hes : es = []
            · subst hes
              simp only [elemsText] at hb
              cases b1 with
              | nil => simp at hb; exact absurd (.inr hb) hok.2.1.2.2.1
              | cons d b => simp at hb
            · obtain ⟨b2, rfl, hb2⟩ := append_quote_cons (fun h => hes (elemsText_eq_nil h)) hb
              exact .escape (ih es after (by simp at hl; omega) hok.2.2 (by simpa [Elem.isComment] using hnc) b2 hb2)
        · exact .plain hc (ih es after (by simpa using hl) hok.2 (by simpa [Elem.isComment] using hnc) b1 hb)

/-! ### Runes -/

theorem quotedBody_head {q c t} (h : QuotedBody q (c :: t)) (hc : c ≠ '\\') : c ≠ q ∧ QuotedBody q t := by
  cases h with
  | escape => exact absurd rfl hc
  | plain h _ h' => exact ⟨h, h'⟩

theorem quotedBody_hex {ds s} (hd : ∀ c ∈ ds, HexDigit c) (h : QuotedBody '\'' (ds ++ s)) : QuotedBody '\'' s := by
  induction ds with
  | nil => exact h
  | cons c ds ih =>
    refine ih (fun c hc => hd c (by simp [hc])) (quotedBody_head h ?_).2
    rintro rfl
    exact absurd (hd '\\' (by simp)) (by unfold HexDigit Digit; decide)

theorem quoted_rest_head {t after} (h : QuotedBody '\'' t) : (t ++ '\'' :: after).head? = some '\'' ↔ t = [] := by
  constructor
  · intro hh
    cases t with
    | nil => rfl
    | cons c t =>
      simp at hh
      subst hh
      exact absurd rfl (quotedBody_head h (by decide)).1
  · rintro rfl; rfl

theorem isScalar_iff (n : Nat) : isScalar n = true ↔ Scalar n := by
  unfold isScalar Scalar
  simp only [Bool.or_eq_true, Bool.and_eq_true, decide_eq_true_eq]
  omega

theorem char_scalar (c : Char) : Scalar c.toNat := by
  have := c.valid
  unfold Scalar
  simp only [UInt32.isValidChar, Nat.isValidChar] at this
  simp only [Char.toNat]
  omega

theorem simple_scalar {e n} (h : (e, n) ∈ simpleEscapes) : Scalar n ∧ n ≤ 255 := by
  simp only [simpleEscapes, List.mem_cons, Prod.mk.injEq, List.not_mem_nil, or_false] at h
  unfold Scalar
  omega

/-- `eval_rune` on a literal with a single quoted part. -/
theorem evalRune_spec (body after : List Char) (l k : Nat) (hq : QuotedBody '\'' body) (hne : body ≠ [])
    (h255 : ∀ c t, body = c :: t → c.toNat ≤ 255) :
    ∃ r, evalRune (word ('\'' :: (body ++ ['\''])) after l k) = r ∧ r ≠ .ub ∧ ∀ n, RuneBody body n ↔ r = .ok n := by
  refine ⟨_, rfl, ?_⟩
  match body, hne with
  | c :: t, _ =>
    have hc255 := h255 c t rfl
    have hc255' : ¬ (255 < c.toNat) := by omega
    simp only [evalRune, word, List.cons_append, List.append_assoc, List.nil_append]
    simp only [gt_iff_lt, hc255', if_false]
    by_cases hctl : cIsCntrl c.toNat = true
    · simp only [hctl, if_true]
      refine ⟨by simp, ?_⟩
      intro n
      simp only [reduceCtorEq, iff_false]
      simp only [cIsCntrl, Bool.or_eq_true, decide_eq_true_eq] at hctl
      intro h
      have hb : c ≠ '\\' := by rintro rfl; revert hctl; decide
      cases h with
      | plain _ h1 h2 => omega
      | simple => exact hb rfl
      | hex => exact hb rfl
    · have hctl' : ¬ (c.toNat < 32) ∧ c.toNat ≠ 127 := by
        simpa [cIsCntrl] using hctl
      simp only [hctl, Bool.false_eq_true, if_false]
      by_cases hb : c = '\\'
      · subst hb
        match t with
        | [] =>
          exfalso
          cases hq with
          | plain _ h => obtain ⟨_, _, h, _⟩ := h rfl; simp at h
        | e :: s =>
          have hs : QuotedBody '\'' s := by
            cases hq with
            | escape _ h => exact h
            | plain _ h h' =>
              obtain ⟨d, s', h1, h2⟩ := h rfl
              simp only [List.cons.injEq] at h1
              exact (quotedBody_head h' (by rw [h1.1]; exact h2)).2
          by_cases he : ∃ m, (e, m) ∈ simpleEscapes
          · obtain ⟨m, hm⟩ := he
            simp only [List.cons_append, unescape_simple hm]
            have hsc : isScalar m = true := (isScalar_iff m).2 (simple_scalar hm).1
            simp only [hsc, Bool.not_true, Bool.false_eq_true, if_false, ne_eq, quoted_rest_head hs]
            have hrb : ∀ n, RuneBody ('\\' :: e :: s) n ↔ s = [] ∧ n = m := by
              intro n
              constructor
              · intro h
                cases h with
                | simple h => exact ⟨rfl, simple_unique h hm⟩
                | hex => exact absurd hm simple_not_x
              · rintro ⟨rfl, rfl⟩; exact .simple hm
            by_cases hs0 : s = []
            · simp only [hs0, not_true, if_false]
              refine ⟨by simp, fun n => ?_⟩
              rw [hs0] at hrb
              rw [hrb]; simp [eq_comm]
            · simp only [hs0, not_false_eq_true, if_true]
              refine ⟨by simp, fun n => ?_⟩
              rw [hrb]; simp [hs0]
          · have he' : ∀ k, (e, k) ∉ simpleEscapes := fun k hk => he ⟨k, hk⟩
            by_cases hx : e = 'x'
            · subst hx
              obtain ⟨ds, rest, rfl, h1, h2, h3⟩ := hex_split 8 s
              have hr := quotedBody_hex h2 hs
              have h3' : HexStop 8 ds (rest ++ '\'' :: after) := by
                intro hl c t hct
                cases rest with
                | nil =>
                  simp at hct
                  rw [← hct.1]
                  unfold HexDigit Digit; decide
                | cons d rest =>
                  simp at hct
                  rw [← hct.1]
                  exact h3 hl d rest rfl
              have hrb : ∀ n, RuneBody ('\\' :: 'x' :: (ds ++ rest)) n ↔
                  ds ≠ [] ∧ rest = [] ∧ Scalar (numeral 16 ds) ∧ n = numeral 16 ds := by
                intro n
                constructor
                · generalize hX : '\\' :: 'x' :: (ds ++ rest) = X
                  intro h
                  cases h with
                  | plain h => simp at hX
                  | simple h =>
                    simp only [List.cons.injEq] at hX
                    rw [← hX.2.1] at h; exact absurd h simple_not_x
                  | @hex es g1 g2 g3 g4 =>
                    simp only [List.cons.injEq, true_and] at hX
                    have hX' : ds ++ rest = es ++ [] := by simpa using hX
                    obtain ⟨rfl, rfl⟩ := hex_split_unique 8 hX' h1 g2 h2 g3 h3 (by intro _ c t h; simp at h)
                    exact ⟨g1, rfl, g4, rfl⟩
                · rintro ⟨g1, rfl, g2, rfl⟩
                  rw [List.append_nil]
                  exact .hex g1 h1 h2 g2
              simp only [List.cons_append, List.append_assoc]
              rw [unescape_hex ds _ h2 h1 h3']
              by_cases hds : ds = []
              · rw [if_pos hds]
                refine ⟨by simp, fun n => ?_⟩
                rw [hrb]; simp [hds]
              · rw [if_neg hds]
                simp only [ne_eq, quoted_rest_head hr]
                by_cases hr0 : rest = []
                · simp only [hr0, not_true, if_false]
                  rw [hr0] at hrb
                  by_cases hsc : isScalar (numeral 16 ds) = true
                  · simp only [hsc, Bool.not_true, Bool.false_eq_true, if_false]
                    refine ⟨by simp, fun n => ?_⟩
                    rw [hrb]
                    have := (isScalar_iff _).1 hsc
                    simp [hds, this, eq_comm]
                  · simp only [hsc, Bool.not_false, if_true]
                    refine ⟨by simp, fun n => ?_⟩
                    rw [hrb]
                    have : ¬ Scalar (numeral 16 ds) := fun h => hsc ((isScalar_iff _).2 h)
                    simp [this]
                · simp only [hr0, not_false_eq_true, if_true]
                  refine ⟨by simp, fun n => ?_⟩
                  rw [hrb]; simp [hr0]
            · simp only [List.cons_append, unescape_bad he' hx]
              refine ⟨by simp, fun n => ?_⟩
              simp only [reduceCtorEq, iff_false]
              intro h
              cases h with
              | simple h => exact he' _ h
              | hex => exact hx rfl
      · simp only [unescape_plain c _ hb]
        have ht := (quotedBody_head hq hb).2
        have hsc : isScalar c.toNat = true := (isScalar_iff _).2 (char_scalar c)
        simp only [hsc, Bool.not_true, Bool.false_eq_true, if_false, ne_eq, quoted_rest_head ht]
        have hrb : ∀ n, RuneBody (c :: t) n ↔ t = [] ∧ n = c.toNat := by
          intro n
          constructor
          · intro h
            cases h with
            | plain => exact ⟨rfl, rfl⟩
            | simple => exact absurd rfl hb
            | hex => exact absurd rfl hb
          · rintro ⟨rfl, rfl⟩; exact .plain hb (by omega) hctl'.2
        by_cases ht0 : t = []
        · simp only [ht0, not_true, if_false]
          refine ⟨by simp, fun n => ?_⟩
          rw [ht0] at hrb
          rw [hrb]; simp [eq_comm]
        · simp only [ht0, not_false_eq_true, if_true]
          refine ⟨by simp, fun n => ?_⟩
          rw [hrb]; simp [ht0]

end Skull
