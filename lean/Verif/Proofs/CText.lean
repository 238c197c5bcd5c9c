import Verif.Model.CodegenC
import Verif.Spec.CReads
import Verif.Spec.Checked
import Verif.Proofs.CGrammar
import Verif.Proofs.Utf8
/-
The C text of a checked expression has one reading, which is the expression.
-/
namespace Skull
open Spec Spec.C

namespace Spec.C

/- ### Tokens -/

theorem idRest_len : ∀ s : List Char, (idRest s).2.length ≤ s.length
  | [] => by simp [idRest]
  | c :: s => by
    unfold idRest
    have := idRest_len s
    split <;> simp <;> omega

theorem numRest_len : ∀ (s : List Char) (p : Char), (numRest p s).2.length ≤ s.length
  | [], p => by simp [numRest]
  | c :: s, p => by
    unfold numRest
    have := numRest_len s c
    split <;> simp <;> omega

theorem strRest_len : ∀ (n : Nat) (s t r : List Char), s.length ≤ n → strRest s = some (t, r) → r.length < s.length
  | _, [], t, r, _, h => by simp [strRest] at h
  | 0, _ :: _, t, r, hn, h => by simp at hn
  | n + 1, c :: s, t, r, hn, h => by
    have ih := strRest_len n
    unfold strRest at h
    simp only [List.length_cons, Nat.add_le_add_iff_right] at hn
    split at h
    · cases h; simp
    · split at h
      · cases h
      · split at h
        · split at h
          · cases h
          · rename_i d s' 
            split at h
            · cases h
            · simp only [Option.map_eq_some_iff] at h
              obtain ⟨⟨a, b⟩, h1, h2⟩ := h
              cases h2
              have := ih s' _ _ (by simp at hn; omega) h1
              simp at this ⊢
              omega
        · simp only [Option.map_eq_some_iff] at h
          obtain ⟨⟨a, b⟩, h1, h2⟩ := h
          cases h2
          have := ih s _ _ (by omega) h1
          simp at this ⊢
          omega

theorem behind_len : ∀ (p s r : List Char), behind p s = some r → r.length + p.length = s.length
  | [], s, r, h => by simp [behind] at h; simp [h]
  | _ :: _, [], r, h => by simp [behind] at h
  | a :: p, b :: s, r, h => by
    unfold behind at h
    split at h
    · have := behind_len p s r h
      simp; omega
    · cases h

theorem punct_len : ∀ (ps : List (List Char)) (s p r : List Char), (∀ p ∈ ps, p ≠ []) → punct s ps = some (p, r) → r.length < s.length
  | [], s, p, r, _, h => by simp [punct] at h
  | q :: ps, s, p, r, hp, h => by
    unfold punct at h
    split at h
    · rename_i hb
      cases h
      have := behind_len _ _ _ hb
      have hq := hp _ List.mem_cons_self
      have : 0 < q.length := by cases q <;> simp_all
      omega
    · exact punct_len ps s p r (fun p hm => hp p (List.mem_cons_of_mem _ hm)) h

theorem puncts_ne : ∀ p ∈ puncts, p ≠ [] := by decide

/-- Looking at as many characters as there are is enough. -/
theorem lexN_enough : ∀ (n : Nat) (s : List Char) (ts : List Tok), lexN n s = some ts → ∀ m, s.length ≤ m → lexN m s = some ts
  | _, [], ts, h, m, _ => by
    have : ts = [] := by revert h; cases ‹Nat› <;> simp [lexN]
    subst this
    cases m <;> simp [lexN]
  | 0, _ :: _, ts, h, m, _ => by simp [lexN] at h
  | n + 1, c :: s, ts, h, 0, hm => by simp at hm
  | n + 1, c :: s, ts, h, m + 1, hm => by
    have ih := lexN_enough n
    simp only [List.length_cons, Nat.add_le_add_iff_right] at hm
    unfold lexN at h ⊢
    split at h
    · rename_i c1
      rw [if_pos c1]
      exact ih _ _ h m hm
    · rename_i c1
      rw [if_neg c1]
      split at h
      · rename_i c2
        rw [if_pos c2]
        simp only [Option.map_eq_some_iff] at h
        obtain ⟨a, h1, h2⟩ := h
        rw [ih _ _ h1 m (Nat.le_trans (idRest_len s) hm), ← h2]
        rfl
      · rename_i c2
        rw [if_neg c2]
        split at h
        · rename_i c3
          rw [if_pos c3]
          simp only [Option.map_eq_some_iff] at h
          obtain ⟨a, h1, h2⟩ := h
          rw [ih _ _ h1 m (Nat.le_trans (numRest_len s c) hm), ← h2]
          rfl
        · rename_i c3
          rw [if_neg c3]
          split at h
          · rename_i c4
            rw [if_pos c4]
            split at h
            · rename_i t r hr
              simp only [Option.map_eq_some_iff] at h
              obtain ⟨a, h1, h2⟩ := h
              have := strRest_len _ _ _ _ (Nat.le_refl _) hr
              rw [ih _ _ h1 m (by omega), ← h2]
              rfl
            · cases h
          · rename_i c4
            rw [if_neg c4]
            split at h
            · cases h
            · rename_i c5
              rw [if_neg c5]
              split at h
              · rename_i p r hr
                simp only [Option.map_eq_some_iff] at h
                obtain ⟨a, h1, h2⟩ := h
                have := punct_len _ _ _ _ puncts_ne hr
                simp only [List.length_cons] at this
                rw [ih _ _ h1 m (by omega), ← h2]
                rfl
              · cases h

/-- The text has these tokens. -/
def Lexes (s : List Char) (ts : List Tok) : Prop := ∃ n, lexN n s = some ts

theorem Lexes.lex {s ts} (h : Lexes s ts) : C.lex s = some ts := by
  obtain ⟨n, h⟩ := h
  exact lexN_enough n s ts h _ (Nat.le_refl _)

theorem Lexes.nil : Lexes [] [] := ⟨0, rfl⟩

theorem Lexes.space {s ts} (h : Lexes s ts) : Lexes (' ' :: s) ts := by
  obtain ⟨n, h⟩ := h
  exact ⟨n + 1, by unfold lexN; exact h⟩

theorem start_space {c : Char} (h : isIdStart c = true) : isSpace c = false := by
  simp only [isIdStart, isSpace, Bool.or_eq_true, Bool.and_eq_true, decide_eq_true_eq, Bool.or_eq_false_iff, decide_eq_false_iff_not] at h ⊢
  refine ⟨⟨⟨⟨⟨?_, ?_⟩, ?_⟩, ?_⟩, ?_⟩, ?_⟩ <;> (rintro rfl; revert h; decide)

theorem digit_space {c : Char} (h : isDigit c = true) : isSpace c = false := by
  simp only [isDigit, isSpace, Bool.and_eq_true, decide_eq_true_eq, Bool.or_eq_false_iff, decide_eq_false_iff_not] at h ⊢
  refine ⟨⟨⟨⟨⟨?_, ?_⟩, ?_⟩, ?_⟩, ?_⟩, ?_⟩ <;> (rintro rfl; revert h; decide)

theorem digit_start {c : Char} (h : isDigit c = true) : isIdStart c = false := by
  simp only [isDigit, isIdStart, Bool.and_eq_true, decide_eq_true_eq, Bool.or_eq_false_iff, Bool.and_eq_false_iff, decide_eq_false_iff_not] at h ⊢
  refine ⟨⟨.inl ?_, .inl ?_⟩, ?_⟩
  · intro hc
    have h1 : c.toNat ≤ '9'.toNat := h.2
    have h2 : 'a'.toNat ≤ c.toNat := hc
    have : '9'.toNat < 'a'.toNat := by decide
    omega
  · intro hc
    have h1 : c.toNat ≤ '9'.toNat := h.2
    have h2 : 'A'.toNat ≤ c.toNat := hc
    have : '9'.toNat < 'A'.toNat := by decide
    omega
  · rintro rfl; revert h; decide

/-- What may follow a piece of the text of an expression: nothing, or a character that no token goes on with. -/
def Bd : List Char → Prop
  | [] => True
  | c :: _ => c = ' ' ∨ c = ')' ∨ c = ',' ∨ c = '(' ∨ c = ';' ∨ c = '*'

theorem idRest_bd {rest : List Char} (hb : Bd rest) : ∀ t : List Char, (∀ c ∈ t, isIdChar c = true) → idRest (t ++ rest) = (t, rest)
  | [], _ => by
    cases rest with
    | nil => rfl
    | cons c rest =>
      have : isIdChar c = false := by rcases hb with rfl | rfl | rfl | rfl | rfl | rfl <;> decide
      simp [idRest, this]
  | c :: t, h => by
    have hc := h c List.mem_cons_self
    have ih := idRest_bd hb t fun d hd => h d (List.mem_cons_of_mem _ hd)
    simp [idRest, hc, ih]

theorem numRest_bd {rest : List Char} (hb : Bd rest) : ∀ (t : List Char) (p : Char), (numRest p t).2 = [] → numRest p (t ++ rest) = (t, rest)
  | [], p, _ => by
    cases rest with
    | nil => rfl
    | cons c rest =>
      have : (isIdChar c || c = '.' || ((c = '+' || c = '-') && (p = 'e' || p = 'E' || p = 'p' || p = 'P'))) = false := by
        rcases hb with rfl | rfl | rfl | rfl | rfl | rfl <;> rfl
      simp only [List.nil_append, numRest]
      rw [if_neg (by rw [this]; decide)]
  | c :: t, p, h => by
    unfold numRest at h
    split at h
    · rename_i hc
      have ih := numRest_bd hb t c h
      simp only [List.cons_append, numRest]
      rw [if_pos hc, ih]
    · cases h

/-- The text is these tokens, whatever may follow it. -/
def Lx (s : List Char) (ts : List Tok) : Prop := ∀ rest ts', Bd rest → Lexes rest ts' → Lexes (s ++ rest) (ts ++ ts')

theorem Lx.lex {s ts} (h : Lx s ts) : C.lex s = some ts := by
  have := (h [] [] trivial .nil).lex
  simpa using this

theorem Lx.name {c : Char} {t : List Char} (hc : isIdStart c = true) (ht : ∀ d ∈ t, isIdChar d = true) : Lx (c :: t) [.id (c :: t)] := by
  rintro rest ts' hb ⟨n, h⟩
  refine ⟨n + 1, ?_⟩
  simp only [List.cons_append, lexN]
  rw [if_neg (by rw [start_space hc]; decide), if_pos hc, idRest_bd hb t ht, h]
  rfl

theorem Lx.num {c : Char} {t : List Char} (hc : isDigit c = true) (ht : (numRest c t).2 = []) : Lx (c :: t) [.num (c :: t)] := by
  rintro rest ts' hb ⟨n, h⟩
  refine ⟨n + 1, ?_⟩
  simp only [List.cons_append, lexN]
  rw [if_neg (by rw [digit_space hc]; decide), if_neg (by rw [digit_start hc]; decide), if_pos hc, numRest_bd hb t c ht, h]
  rfl

theorem strRest_plain {rest : List Char} : ∀ t : List Char, (∀ c ∈ t, c ≠ '"' ∧ c ≠ '\\' ∧ c ≠ '\n') →
    strRest (t ++ '"' :: rest) = some (t, rest)
  | [], _ => by
    unfold strRest
    simp
  | c :: t, h => by
    obtain ⟨h1, h2, h3⟩ := h c List.mem_cons_self
    have ih := strRest_plain (rest := rest) t fun d hd => h d (List.mem_cons_of_mem _ hd)
    simp only [List.cons_append]
    unfold strRest
    rw [if_neg h1, if_neg h3, if_neg h2, ih]
    rfl

theorem Lx.str {t : List Char} (ht : ∀ c ∈ t, c ≠ '"' ∧ c ≠ '\\' ∧ c ≠ '\n') : Lx ('"' :: t ++ ['"']) [.str t] := by
  rintro rest ts' hb ⟨n, h⟩
  refine ⟨n + 1, ?_⟩
  have e : '"' :: t ++ ['"'] ++ rest = '"' :: (t ++ '"' :: rest) := by simp
  rw [e]
  simp only [lexN]
  rw [if_neg (by decide), if_neg (by decide), if_neg (by decide), if_pos trivial, strRest_plain t ht]
  simp only
  rw [h]
  rfl

/-- One punctuator. -/
theorem Lexes.punct {c : Char} {s r : List Char} {p : List Char} {ts : List Tok} (h1 : isSpace c = false) (h2 : isIdStart c = false)
    (h3 : isDigit c = false) (h4 : c ≠ '"') (h5 : ¬ (c = '/' ∧ (s.head? = some '/' ∨ s.head? = some '*')))
    (h6 : C.punct (c :: s) puncts = some (p, r)) (h : Lexes r ts) : Lexes (c :: s) (.p p :: ts) := by
  obtain ⟨n, h⟩ := h
  refine ⟨n + 1, ?_⟩
  simp only [lexN]
  rw [if_neg (by rw [h1]; decide), if_neg (by rw [h2]; decide), if_neg (by rw [h3]; decide), if_neg h4, if_neg h5, h6]
  simp only
  rw [h]
  rfl

theorem Lexes.open {s ts} (h : Lexes s ts) : Lexes ('(' :: s) (.p ['('] :: ts) :=
  .punct (by decide) (by decide) (by decide) (by decide) (by simp) rfl h

theorem Lexes.close {s ts} (h : Lexes s ts) : Lexes (')' :: s) (.p [')'] :: ts) :=
  .punct (by decide) (by decide) (by decide) (by decide) (by simp) rfl h

theorem Lexes.comma {s ts} (h : Lexes s ts) : Lexes (',' :: s) (.p [','] :: ts) :=
  .punct (by decide) (by decide) (by decide) (by decide) (by simp) rfl h

/-- `!` before something that is not `=`. -/
theorem Lexes.bang {c : Char} {s ts} (hc : c ≠ '=') (h : Lexes (c :: s) ts) : Lexes ('!' :: c :: s) (.p ['!'] :: ts) :=
  .punct (by decide) (by decide) (by decide) (by decide) (by simp) (by simp [C.punct, puncts, behind, Ne.symm hc]) h

theorem Lexes.amp {c : Char} {s ts} (hc : c ≠ '=') (hc' : c ≠ '&') (h : Lexes (c :: s) ts) : Lexes ('&' :: c :: s) (.p ['&'] :: ts) :=
  .punct (by decide) (by decide) (by decide) (by decide) (by simp) (by simp [C.punct, puncts, behind, Ne.symm hc, Ne.symm hc']) h

theorem Lexes.star {c : Char} {s ts} (hc : c ≠ '=') (h : Lexes (c :: s) ts) : Lexes ('*' :: c :: s) (.p ['*'] :: ts) :=
  .punct (by decide) (by decide) (by decide) (by decide) (by simp) (by simp [C.punct, puncts, behind, Ne.symm hc]) h

theorem Lexes.minus {c : Char} {s ts} (hc : c ≠ '=') (hc' : c ≠ '-') (hc'' : c ≠ '>') (h : Lexes (c :: s) ts) :
    Lexes ('-' :: c :: s) (.p ['-'] :: ts) :=
  .punct (by decide) (by decide) (by decide) (by decide) (by simp)
    (by simp [C.punct, puncts, behind, Ne.symm hc, Ne.symm hc', Ne.symm hc'']) h

/-- Operators between operands. -/
theorem Lexes.oper {o : Oper} {p : String} (ho : (o, p) ∈ operOf) {s ts} (h : Lexes s ts) :
    Lexes (p.toList ++ ' ' :: s) (.p p.toList :: ts) := by
  have h' := h.space
  simp only [operOf, List.mem_cons, Prod.mk.injEq, List.not_mem_nil, or_false] at ho
  rcases ho with ⟨_, rfl⟩ | ⟨_, rfl⟩ | ⟨_, rfl⟩ | ⟨_, rfl⟩ | ⟨_, rfl⟩ | ⟨_, rfl⟩ | ⟨_, rfl⟩ | ⟨_, rfl⟩ | ⟨_, rfl⟩ | ⟨_, rfl⟩ | ⟨_, rfl⟩ |
    ⟨_, rfl⟩ | ⟨_, rfl⟩ | ⟨_, rfl⟩ | ⟨_, rfl⟩ | ⟨_, rfl⟩ <;>
  exact .punct (by decide) (by decide) (by decide) (by decide) (fun h => absurd h (by show ¬ (_ ∧ (some _ = some _ ∨ some _ = some _)); decide)) rfl h'

/- ### Digits -/

theorem dec_char : ∀ d, d < 10 → (Char.ofNat (if d < 10 then 48 + d else 55 + d)).toNat - 48 = d ∧
    isDigit (Char.ofNat (if d < 10 then 48 + d else 55 + d)) = true ∧ (Char.ofNat (if d < 10 then 48 + d else 55 + d) = '0' → d = 0) := by
  decide

theorem hex_char : ∀ d, d < 16 → hexDigit (Char.ofNat (if d < 10 then 48 + d else 55 + d)) = d ∧
    isHexDigit (Char.ofNat (if d < 10 then 48 + d else 55 + d)) = true ∧
    (Char.ofNat (if d < 10 then 48 + d else 55 + d) = '0' → d = 0) := by
  decide

theorem digits_eq {base : Nat} (hb : 2 ≤ base) {g : Char → Nat} {P : Char → Prop}
    (hd : ∀ d, d < base → g (Char.ofNat (if d < 10 then 48 + d else 55 + d)) = d ∧ P (Char.ofNat (if d < 10 then 48 + d else 55 + d)) ∧
      (Char.ofNat (if d < 10 then 48 + d else 55 + d) = '0' → d = 0)) :
    ∀ (f n : Nat) (acc : List Char), n < f → ∃ ds, digitsFuel base f n acc = ds ++ acc ∧ ds ≠ [] ∧ (∀ c ∈ ds, P c) ∧
      (ds.head? = some '0' → ds = ['0'] ∧ n = 0) ∧ (ds.foldl (fun n c => base * n + g c) 0 = n)
  | 0, n, acc, h => absurd h (Nat.not_lt_zero _)
  | f + 1, n, acc, h => by
    simp only [digitsFuel]
    obtain ⟨c1, c2, c3⟩ := hd (n % base) (Nat.mod_lt _ (by omega))
    split
    · rename_i hn
      rw [Nat.mod_eq_of_lt hn] at c1 c2 c3 ⊢
      refine ⟨[_], rfl, by simp, by simpa using c2, ?_, by simpa using c1⟩
      intro h0
      simp only [List.head?_cons, Option.some.injEq] at h0
      exact ⟨by rw [h0], c3 h0⟩
    · rename_i hn
      have hlt : n / base < f := by
        have h1 : n / base < n := Nat.div_lt_self (by omega) (by omega)
        omega
      obtain ⟨ds, d1, d2, d3, d4, d5⟩ := digits_eq hb hd f (n / base) (Char.ofNat (if n % base < 10 then 48 + n % base else 55 + n % base) :: acc) hlt
      refine ⟨ds ++ [Char.ofNat (if n % base < 10 then 48 + n % base else 55 + n % base)], by rw [d1]; simp, by simp, ?_, ?_, ?_⟩
      · intro c hc
        rcases List.mem_append.1 hc with hc | hc
        · exact d3 c hc
        · rw [List.mem_singleton.1 hc]; exact c2
      · intro h0
        have h1 : ds.head? = some '0' := by
          cases ds with
          | nil => exact absurd rfl d2
          | cons x xs => simpa using h0
        have := (d4 h1).2
        have : base * (n / base) + n % base = n := Nat.div_add_mod n base
        have hmod : n % base < base := Nat.mod_lt _ (by omega)
        rw [‹n / base = 0›] at this
        omega
      · rw [List.foldl_append, d5]
        simp only [List.foldl_cons, List.foldl_nil, c1]
        exact Nat.div_add_mod n base

theorem decText_eq (n : Nat) : decText n ≠ [] ∧ (∀ c ∈ decText n, isDigit c = true) ∧ ((decText n).head? = some '0' → decText n = ['0']) ∧
    decValue (decText n) = n := by
  obtain ⟨ds, h1, h2, h3, h4, h5⟩ := digits_eq (base := 10) (by decide) (g := fun c => c.toNat - 48) (P := fun c => isDigit c = true)
    dec_char (n + 1) n [] (Nat.lt_succ_self n)
  have : decText n = ds := by unfold decText; rw [h1, List.append_nil]
  rw [this]
  exact ⟨h2, h3, fun h => (h4 h).1, h5⟩

theorem upperHex_eq (n : Nat) : upperHex n ≠ [] ∧ (∀ c ∈ upperHex n, isHexDigit c = true) ∧ hexValue (upperHex n) = n := by
  obtain ⟨ds, h1, h2, h3, _, h5⟩ := digits_eq (base := 16) (by decide) (g := hexDigit) (P := fun c => isHexDigit c = true)
    hex_char (n + 1) n [] (Nat.lt_succ_self n)
  have : upperHex n = ds := by unfold upperHex; rw [h1, List.append_nil]
  rw [this]
  exact ⟨h2, h3, h5⟩

theorem numRest_all : ∀ (t : List Char) (p : Char), (∀ c ∈ t, isIdChar c = true) → (numRest p t).2 = []
  | [], p, _ => rfl
  | c :: t, p, h => by
    have hc := h c List.mem_cons_self
    have ih := numRest_all t c fun d hd => h d (List.mem_cons_of_mem _ hd)
    simp [numRest, hc, ih]

theorem digit_id {c : Char} (h : isDigit c = true) : isIdChar c = true := by simp [isIdChar, h]

theorem hex_id {c : Char} (h : isHexDigit c = true) : isIdChar c = true := by
  simp only [isHexDigit, isIdChar, isIdStart, Bool.or_eq_true, Bool.and_eq_true, decide_eq_true_eq] at h ⊢
  rcases h with (h | h) | h
  · exact .inr h
  · refine .inl (.inl (.inl ⟨h.1, ?_⟩))
    exact Char.le_trans h.2 (by decide)
  · refine .inl (.inl (.inr ⟨h.1, ?_⟩))
    exact Char.le_trans h.2 (by decide)

/-- A constant in decimal. -/
theorem lx_dec (n : Nat) (suffix : List Char) (hs : suffix = [] ∨ suffix = ['L']) (hn : n < 2 ^ 63) :
    Lx (decText n ++ suffix) [.num (decText n ++ suffix)] ∧ DecConst n (decText n ++ suffix) ∧
      ∃ c t, decText n ++ suffix = c :: t ∧ isDigit c = true := by
  obtain ⟨h1, h2, h3, h4⟩ := decText_eq n
  cases hd : decText n with
  | nil => exact absurd hd h1
  | cons c t =>
    rw [hd] at h1 h2 h3 h4
    refine ⟨?_, ⟨c :: t, suffix, rfl, hs, h1, h2, h3, h4, hn⟩, c, t ++ suffix, rfl, h2 c List.mem_cons_self⟩
    refine Lx.num (h2 c List.mem_cons_self) (numRest_all _ _ ?_)
    intro d hm
    rcases List.mem_append.1 hm with hm | hm
    · exact digit_id (h2 d (List.mem_cons_of_mem _ hm))
    · rcases hs with rfl | rfl
      · cases hm
      · rw [List.mem_singleton.1 hm]; decide

/- ### Constants -/

/-- The text of an expression, whatever may follow it, is what the expression says. -/
def Reading (syms : List Symbol) (fmtA : Nat → List Char) (e : AExpr) (text : List Char) : Prop :=
  (∃ c t, text = c :: t ∧ c ≠ '=') ∧ ∃ ts x, Lx text ts ∧ G 11 ts x ∧ Reads syms fmtA e x

theorem digit_ne {c : Char} (h : isDigit c = true) : c ≠ '=' ∧ c ≠ '-' ∧ c ≠ '>' := by
  refine ⟨?_, ?_, ?_⟩ <;> (rintro rfl; revert h; decide)

/-- A number, perhaps with a minus. -/
theorem reading_num {syms fmtA tok v c t} (hc : isDigit c = true) (h : Lx (c :: t) [.num (c :: t)])
    (hr : ReadsConst fmtA v (.num (c :: t))) : Reading syms fmtA (.const tok v) (c :: t) :=
  ⟨⟨c, t, rfl, (digit_ne hc).1⟩, _, _, h, G.num.down 11 (by decide), .const hr⟩

theorem reading_neg {syms fmtA tok v c t} (hc : isDigit c = true) (h : Lx (c :: t) [.num (c :: t)])
    (hr : ReadsConst fmtA v (.un ['-'] (.num (c :: t)))) : Reading syms fmtA (.const tok v) ('-' :: c :: t) := by
  refine ⟨⟨'-', _, rfl, by decide⟩, .p ['-'] :: [.num (c :: t)], _, ?_, .un (by decide) (G.num.down 11 (by decide)), .const hr⟩
  intro rest ts' hb hl
  obtain ⟨h1, h2, h3⟩ := digit_ne hc
  exact Lexes.minus h1 h2 h3 (h rest ts' hb hl)

theorem denotes_plain : ∀ s : List Nat, (∀ c ∈ s, PlainChar c) → Denotes (s.map Char.ofNat) s ∧
    ∀ c ∈ s.map Char.ofNat, c ≠ '"' ∧ c ≠ '\\' ∧ c ≠ '\n'
  | [], _ => ⟨.nil, fun c h => by cases h⟩
  | n :: s, h => by
    obtain ⟨h1, h2, h3, h4⟩ := h n List.mem_cons_self
    obtain ⟨i1, i2⟩ := denotes_plain s fun c hc => h c (List.mem_cons_of_mem _ hc)
    have e := toNat_ofNat_valid h1
    have k1 : Char.ofNat n ≠ '"' := by intro hx; rw [hx] at e; exact h2 e.symm
    have k2 : Char.ofNat n ≠ '\\' := by intro hx; rw [hx] at e; exact h3 e.symm
    have k3 : Char.ofNat n ≠ '\n' := by intro hx; rw [hx] at e; exact h4 e.symm
    refine ⟨.cons (c := n) (r := s.map Char.ofNat) ?_ i1, ?_⟩
    · simp only [List.map_cons, strChar]
      rw [if_neg (by simp [k1, k3]), if_pos k2, e]
    · intro c hc
      simp only [List.map_cons, List.mem_cons] at hc
      rcases hc with rfl | hc
      · exact ⟨k1, k2, k3⟩
      · exact i2 c hc

theorem reading_const {syms dbg fmtA tok v} (hf : FineConst fmtA v) : Reading syms fmtA (.const tok v) (genConstC ⟨syms, dbg, fmtA⟩ v) := by
  cases v with
  | int i =>
    obtain ⟨h1, h2⟩ := hf
    have key : ∀ suffix, suffix = [] ∨ suffix = ['L'] → Reading syms fmtA (.const tok (.int i)) (signedDecimal i ++ suffix) := by
      intro suffix hs
      obtain ⟨l1, l2, c, t, l3, l4⟩ := lx_dec i.natAbs suffix hs (by omega)
      rw [l3] at l1 l2
      unfold signedDecimal
      split
      · rename_i hi
        rw [List.cons_append, l3]
        have e : i = -(i.natAbs : Int) := by omega
        have := ReadsConst.neg (fmtA := fmtA) l2
        rw [← e] at this
        exact reading_neg l4 l1 this
      · rename_i hi
        rw [l3]
        have e : i = (i.natAbs : Int) := by omega
        have := ReadsConst.int (fmtA := fmtA) l2
        rw [← e] at this
        exact reading_num l4 l1 this
    simp only [genConstC]
    split
    · exact key _ (.inr rfl)
    · have := key [] (.inl rfl)
      rwa [List.append_nil] at this
  | float bits =>
    simp only [genConstC]
    split
    · rename_i h0
      subst h0
      exact reading_num (c := '0') (t := ".0".toList) (by decide) (Lx.num (by decide) (by decide)) .zero
    · rename_i h0
      rcases hf with hf | ⟨c, t, h1, h2, h3⟩ | ⟨t, h1, c, t', rfl, h2, h3⟩
      · exact absurd hf h0
      · have := ReadsConst.float (fmtA := fmtA) (bits := bits) (by
          rw [h1]
          rintro t ht
          cases ht
          exact absurd h2 (by decide))
        rw [h1] at this ⊢
        exact reading_num h2 (Lx.num h2 h3) this
      · have := ReadsConst.negFloat h1
        rw [h1]
        exact reading_neg h2 (Lx.num h2 h3) this
  | bool b =>
    cases b
    · exact reading_num (c := '0') (t := []) (by decide) (Lx.num (by decide) (by decide)) .false
    · exact reading_num (c := '1') (t := []) (by decide) (Lx.num (by decide) (by decide)) .true
  | rune r =>
    obtain ⟨h1, h2, h3⟩ := upperHex_eq r
    refine reading_num (c := '0') (t := 'x' :: upperHex r) (by decide) (Lx.num (by decide) (numRest_all _ _ ?_)) (.rune ⟨upperHex r, rfl, h1, h2, h3⟩)
    intro c hc
    rcases List.mem_cons.1 hc with rfl | hc
    · decide
    · exact hex_id (h2 c hc)
  | str s =>
    obtain ⟨h1, h2⟩ := denotes_plain s hf
    exact ⟨⟨'"', _, rfl, by decide⟩, _, _, Lx.str h2, G.str.down 11 (by decide), .const (.str h1)⟩

/- ### Expressions -/

theorem bd_close (r : List Char) : Bd (')' :: r) := Or.inr (Or.inl rfl)
theorem bd_open (r : List Char) : Bd ('(' :: r) := Or.inr (Or.inr (Or.inr (Or.inl rfl)))
theorem bd_comma (r : List Char) : Bd (',' :: r) := Or.inr (Or.inr (Or.inl rfl))
theorem bd_semi (r : List Char) : Bd (';' :: r) := Or.inr (Or.inr (Or.inr (Or.inr (Or.inl rfl))))
theorem bd_star (r : List Char) : Bd ('*' :: r) := Or.inr (Or.inr (Or.inr (Or.inr (Or.inr rfl))))
theorem bd_space (r : List Char) : Bd (' ' :: r) := Or.inl rfl

theorem name_ne {c : Char} (h : isIdStart c = true) : c ≠ '=' ∧ c ≠ '&' := by
  refine ⟨?_, ?_⟩ <;> (rintro rfl; revert h; decide)

theorem var_eq {syms dbg fmtA} {id : Nat} {sym : Symbol} {v : Variable} (h1 : syms[id]? = some sym) (h2 : sym.kind = .var v) :
    CCfg.var ⟨syms, dbg, fmtA⟩ id = some v := by
  unfold CCfg.var
  simp only
  rw [h1]
  cases sym
  cases h2
  rfl

theorem func_eq {syms dbg fmtA} {id : Nat} {sym : Symbol} {f : Func} (h1 : syms[id]? = some sym) (h2 : sym.kind = .func f) :
    CCfg.func ⟨syms, dbg, fmtA⟩ id = some (sym, f) := by
  unfold CCfg.func
  simp only
  rw [h1]
  simp only [h2]

theorem lx_name {n : List Char} (h : IsName n) : Lx n [.id n] ∧ G 13 [.id n] (.id n) ∧ ∃ c t, n = c :: t ∧ isIdStart c = true := by
  obtain ⟨c, t, rfl, h1, h2, h3⟩ := h
  exact ⟨.name h1 h2, .id h3, c, t, rfl, h1⟩

/-- A text in parentheses. -/
theorem lx_paren {text ts} (h : Lx text ts) : Lx ('(' :: (text ++ [')'])) (.p ['('] :: (ts ++ [.p [')']])) := by
  intro rest ts' hb hl
  have := (h (')' :: rest) _ (bd_close _) hl.close).open
  simpa using this

/-- A function applied to the text of its arguments. -/
theorem lx_call {n text ts} (hn : Lx n [.id n]) (h : Lx text ts) :
    Lx (n ++ '(' :: (text ++ [')'])) (.id n :: .p ['('] :: (ts ++ [.p [')']])) := by
  intro rest ts' hb hl
  have := hn _ _ (bd_open _) (lx_paren h rest ts' hb hl)
  simpa using this

/-- Two texts with a comma between. -/
theorem lx_comma {a b ta tb} (ha : Lx a ta) (hb : Lx b tb) : Lx (a ++ ", ".toList ++ b) (ta ++ .p [','] :: tb) := by
  intro rest ts' hr hl
  have h1 := (hb rest ts' hr hl).space.comma
  have := ha (',' :: ' ' :: (b ++ rest)) _ (bd_comma _) h1
  simpa using this

/-- Two texts with an operator between, in parentheses. -/
theorem lx_oper {o : Oper} {p : String} (ho : (o, p) ∈ operOf) {a b ta tb} (ha : Lx a ta) (hb : Lx b tb) :
    Lx ("(".toList ++ a ++ (' ' :: p.toList ++ " ".toList) ++ b ++ ")".toList) (.p ['('] :: ((ta ++ .p p.toList :: tb) ++ [.p [')']])) := by
  intro rest ts' hr hl
  have h1 := hb (')' :: rest) _ (bd_close _) hl.close
  have h2 := (Lexes.oper ho h1).space
  have h3 := (ha (' ' :: (p.toList ++ ' ' :: (b ++ ')' :: rest))) _ (bd_space _) h2).open
  simpa using h3

theorem operOf_prec {o : Oper} {p : String} (ho : (o, p) ∈ operOf) : ∃ k, binPrec p.toList = some k := by
  simp only [operOf, List.mem_cons, Prod.mk.injEq, List.not_mem_nil, or_false] at ho
  rcases ho with ⟨_, rfl⟩ | ⟨_, rfl⟩ | ⟨_, rfl⟩ | ⟨_, rfl⟩ | ⟨_, rfl⟩ | ⟨_, rfl⟩ | ⟨_, rfl⟩ | ⟨_, rfl⟩ | ⟨_, rfl⟩ | ⟨_, rfl⟩ | ⟨_, rfl⟩ |
    ⟨_, rfl⟩ | ⟨_, rfl⟩ | ⟨_, rfl⟩ | ⟨_, rfl⟩ | ⟨_, rfl⟩ <;>
  exact Option.isSome_iff_exists.1 (by decide)

/-- An operator between two operands. -/
theorem reading_oper {syms fmtA o p l r ty k lt rt} (ho : (o, p) ∈ operOf) (hs : o = .is ∨ o = .isnt → l.type ≠ .prim .str)
    (hl : Reading syms fmtA l lt) (hr : Reading syms fmtA r rt) :
    Reading syms fmtA (.bin o l r ty k) ("(".toList ++ lt ++ (' ' :: p.toList ++ " ".toList) ++ rt ++ ")".toList) := by
  obtain ⟨_, ta, xa, a1, a2, a3⟩ := hl
  obtain ⟨_, tb, xb, b1, b2, b3⟩ := hr
  obtain ⟨j, hj⟩ := operOf_prec ho
  have hj' := (binPrec_le hj).1
  refine ⟨⟨'(', _, rfl, by decide⟩, _, .paren (.bin p.toList xa xb), lx_oper ho a1 b1, ?_, .paren (.bin ho hs a3 b3)⟩
  exact (G.paren ((G.bin hj (a2.down j (by omega)) (b2.down (j + 1) (by omega))).down 0 (by omega))).down 11 (by decide)

/-- A function of the run time applied to two operands. -/
theorem lx_runtime {n : List Char} (hn : IsName n) {a b ta tb xa xb} (ha : Lx a ta) (hb : Lx b tb) (ga : G 11 ta xa) (gb : G 11 tb xb) :
    Lx (n ++ "(".toList ++ a ++ ", ".toList ++ b ++ ")".toList) (.id n :: .p ['('] :: ((ta ++ .p [','] :: tb) ++ [.p [')']])) ∧
      G 12 (.id n :: .p ['('] :: ((ta ++ .p [','] :: tb) ++ [.p [')']])) (.call (.id n) (.cons xa (.cons xb .nil))) := by
  obtain ⟨n1, n2, _⟩ := lx_name hn
  refine ⟨?_, ?_⟩
  · have := lx_call n1 (lx_comma ha hb)
    simpa using this
  · have := G.call (n2.down 12 (by decide)) (.some (.cons (ga.down 1 (by decide)) (.one (gb.down 1 (by decide)))))
    simpa using this

theorem reading_runtime {syms fmtA e} {n : List Char} (hn : IsName n) {a b l r} (ha : Reading syms fmtA l a) (hb : Reading syms fmtA r b)
    (h : ∀ xa xb, Reads syms fmtA l xa → Reads syms fmtA r xb → Reads syms fmtA e (.call (.id n) (.cons xa (.cons xb .nil)))) :
    Reading syms fmtA e (n ++ "(".toList ++ a ++ ", ".toList ++ b ++ ")".toList) := by
  obtain ⟨_, ta, xa, a1, a2, a3⟩ := ha
  obtain ⟨_, tb, xb, b1, b2, b3⟩ := hb
  obtain ⟨h1, h2⟩ := lx_runtime hn a1 b1 a2 b2
  obtain ⟨_, _, c, t, rfl, hc⟩ := lx_name hn
  exact ⟨⟨c, _, rfl, (name_ne hc).1⟩, _, _, h1, h2.down 11 (by decide), h xa xb a3 b3⟩

/-- `!` before a text. -/
theorem lx_bang {text ts} (h1 : ∃ c t, text = c :: t ∧ c ≠ '=') (h : Lx text ts) : Lx ('!' :: text) (.p ['!'] :: ts) := by
  obtain ⟨c, t, rfl, hc⟩ := h1
  intro rest ts' hb hl
  exact Lexes.bang hc (h rest ts' hb hl)

/-- The texts of the arguments. -/
def ReadingArgs (syms : List Symbol) (fmtA : Nat → List Char) (args : AArgs) (texts : List (List Char)) : Prop :=
  ∃ ts xs, Lx (joinArgs texts) ts ∧ ReadsArgs syms fmtA args xs ∧ (texts = [] → args = .nil ∧ xs = .nil ∧ ts = []) ∧ (texts ≠ [] → GList ts xs)

theorem strcmp_name : IsName "_strcmp".toList := ⟨'_', "strcmp".toList, rfl, by decide, by decide, by decide⟩
theorem intPow_name : IsName "_int_pow".toList := ⟨'_', "int_pow".toList, rfl, by decide, by decide, by decide⟩
theorem floatPow_name : IsName "_float_pow".toList := ⟨'_', "float_pow".toList, rfl, by decide, by decide, by decide⟩

/-- The texts around the operands of an operator. -/
theorem reading_bin {syms fmtA o l r ty k lt rt} (ht : l.type = r.type) (hb : binType o r.type = some ty)
    (hl : Reading syms fmtA l lt) (hr : Reading syms fmtA r rt) (s : CState) :
    ∃ f s', formatC o l.type ty s = some (f, s') ∧ Reading syms fmtA (.bin o l r ty k) (f.1 ++ lt ++ f.2 ++ rt ++ ")".toList) := by
  have plain : ∀ p : String, infixC o = some p.toList → (o, p) ∈ operOf → o ≠ .is → o ≠ .isnt → o ≠ .pow →
      ∃ f s', formatC o l.type ty s = some (f, s') ∧ Reading syms fmtA (.bin o l r ty k) (f.1 ++ lt ++ f.2 ++ rt ++ ")".toList) := by
    intro p hp ho h1 h2 h3
    refine ⟨("(".toList, ' ' :: p.toList ++ " ".toList), s, ?_, reading_oper ho (by simp [h1, h2]) hl hr⟩
    unfold formatC
    cases o <;> simp_all <;> rfl
  cases o with
  | add => exact plain "+" rfl (by decide) (by decide) (by decide) (by decide)
  | sub => exact plain "-" rfl (by decide) (by decide) (by decide) (by decide)
  | mult => exact plain "*" rfl (by decide) (by decide) (by decide) (by decide)
  | div => exact plain "/" rfl (by decide) (by decide) (by decide) (by decide)
  | mod => exact plain "%" rfl (by decide) (by decide) (by decide) (by decide)
  | lshift => exact plain "<<" rfl (by decide) (by decide) (by decide) (by decide)
  | rshift => exact plain ">>" rfl (by decide) (by decide) (by decide) (by decide)
  | lessThan => exact plain "<" rfl (by decide) (by decide) (by decide) (by decide)
  | gtrThan => exact plain ">" rfl (by decide) (by decide) (by decide) (by decide)
  | lessThanEq => exact plain "<=" rfl (by decide) (by decide) (by decide) (by decide)
  | gtrThanEq => exact plain ">=" rfl (by decide) (by decide) (by decide) (by decide)
  | and => exact plain "&&" rfl (by decide) (by decide) (by decide) (by decide)
  | or => exact plain "||" rfl (by decide) (by decide) (by decide) (by decide)
  | xor => exact plain "^" rfl (by decide) (by decide) (by decide) (by decide)
  | is =>
    by_cases h : l.type = .prim .str
    · refine ⟨("_strcmp(".toList, ", ".toList), { s with calledStrcmp := true }, by simp [formatC, h]; rfl, ?_⟩
      exact reading_runtime strcmp_name hl hr fun xa xb h1 h2 => .strIs h h1 h2
    · refine ⟨("(".toList, " == ".toList), s, by simp [formatC, h]; rfl, ?_⟩
      exact reading_oper (o := .is) (p := "==") (by decide) (fun _ => h) hl hr
  | isnt =>
    by_cases h : l.type = .prim .str
    · refine ⟨("!_strcmp(".toList, ", ".toList), { s with calledStrcmp := true }, by simp [formatC, h]; rfl, ?_⟩
      obtain ⟨_, ta, xa, a1, a2, a3⟩ := hl
      obtain ⟨_, tb, xb, b1, b2, b3⟩ := hr
      obtain ⟨h1, h2⟩ := lx_runtime strcmp_name a1 b1 a2 b2
      exact ⟨⟨'!', _, rfl, by decide⟩, _, _, lx_bang ⟨'_', _, rfl, by decide⟩ h1, .un (by decide) (h2.down 11 (by decide)), .strIsnt h a3 b3⟩
    · refine ⟨("(".toList, " != ".toList), s, by simp [formatC, h]; rfl, ?_⟩
      exact reading_oper (o := .isnt) (p := "!=") (by decide) (fun _ => h) hl hr
  | pow =>
    have ht' : ty = .prim .int ∨ ty = .prim .float := by
      revert hb
      generalize r.type = τ
      rcases τ with p | τ
      · cases p <;> simp [binType, Int', Float'] <;> intro h <;> simp [← h]
      · simp [binType]
    rcases ht' with rfl | rfl
    · refine ⟨("_int_pow(".toList, ", ".toList), { s with calledIntPow := true }, by simp [formatC]; rfl, ?_⟩
      exact reading_runtime intPow_name hl hr fun xa xb h1 h2 => .intPow h1 h2
    · refine ⟨("_float_pow(".toList, ", ".toList), { s with calledFloatPow := true }, by simp [formatC]; rfl, ?_⟩
      exact reading_runtime floatPow_name hl hr fun xa xb h1 h2 => .floatPow h1 h2
  | _ => revert hb; cases r.type <;> simp [binType]

theorem reading_un {syms fmtA o p r ty k rt} (ho : (o, p) ∈ prefixOf)
    (h2 : ∃ c t, rt = c :: t ∧ c ≠ '=' ∧ (p = "&" → c ≠ '&') ∧ (p = "-" → c = '(')) (hr : Reading syms fmtA r rt) :
    Reading syms fmtA (.un o r ty k) (p.toList ++ rt) := by
  obtain ⟨c, t, rfl, hc, ha, hm⟩ := h2
  obtain ⟨_, ts, x, h3, h4, h5⟩ := hr
  simp only [prefixOf, List.mem_cons, Prod.mk.injEq, List.not_mem_nil, or_false] at ho
  rcases ho with ⟨rfl, rfl⟩ | ⟨rfl, rfl⟩ | ⟨rfl, rfl⟩ | ⟨rfl, rfl⟩
  · refine ⟨⟨'-', _, rfl, by decide⟩, .p ['-'] :: ts, _, ?_, .un (by decide) h4, .un (p := "-") (by decide) h5⟩
    intro rest ts' hb hl
    have hc' := hm rfl
    exact Lexes.minus hc (by rw [hc']; decide) (by rw [hc']; decide) (h3 rest ts' hb hl)
  · refine ⟨⟨'!', _, rfl, by decide⟩, .p ['!'] :: ts, _, ?_, .un (by decide) h4, .un (p := "!") (by decide) h5⟩
    intro rest ts' hb hl
    exact Lexes.bang hc (h3 rest ts' hb hl)
  · refine ⟨⟨'&', _, rfl, by decide⟩, .p ['&'] :: ts, _, ?_, .un (by decide) h4, .un (p := "&") (by decide) h5⟩
    intro rest ts' hb hl
    exact Lexes.amp hc (ha rfl) (h3 rest ts' hb hl)
  · refine ⟨⟨'*', _, rfl, by decide⟩, .p ['*'] :: ts, _, ?_, .un (by decide) h4, .un (p := "*") (by decide) h5⟩
    intro rest ts' hb hl
    exact Lexes.star hc (h3 rest ts' hb hl)

theorem reading_paren {syms fmtA e t} (h : Reading syms fmtA e t) : Reading syms fmtA e ('(' :: (t ++ [')'])) := by
  obtain ⟨_, ts, x, h1, h2, h3⟩ := h
  exact ⟨⟨'(', _, rfl, by decide⟩, _, .paren x, lx_paren h1, (G.paren (h2.down 0 (by decide))).down 11 (by decide), .paren h3⟩

theorem cgen_bind {m : CGen α} {f : α → CGen β} {s a s'} (h : m s = some (a, s')) : (m >>= f) s = f a s' := by
  show CGen.bind m f s = _
  unfold CGen.bind
  rw [h]

theorem reading_ident {syms dbg fmtA t id sym v ty k} (h1 : syms[id]? = some sym) (h2 : sym.kind = .var v) (h3 : v.name = sym.name)
    (hf : ∀ sym, syms[id]? = some sym → IsName sym.name) (s : CState) :
    genExprC ⟨syms, dbg, fmtA⟩ (.ident t id ty k) s = some (sym.name, s) ∧ Reading syms fmtA (.ident t id ty k) sym.name ∧
      ∃ c t, sym.name = c :: t ∧ isIdStart c = true := by
  obtain ⟨n1, n2, c, t', n3, n4⟩ := lx_name (hf _ h1)
  refine ⟨?_, ⟨⟨c, t', n3, (name_ne n4).1⟩, _, _, n1, n2.down 11 (by decide), .ident h1⟩, c, t', n3, n4⟩
  unfold genExprC
  rw [cgen_bind (a := v) (s' := s) (by rw [var_eq h1 h2]; rfl), h3]
  rfl

mutual
theorem reading_expr {syms dbg fmtA} : ∀ {e : AExpr}, WtE syms e → Fine syms fmtA e → ∀ s, ∃ text s',
    genExprC ⟨syms, dbg, fmtA⟩ e s = some (text, s') ∧ Reading syms fmtA e text
  | .ident t id ty k, hw, hf, s => by
    cases hw with
    | ident h1 h2 h3 h4 =>
      unfold Fine at hf
      obtain ⟨g1, g2, _⟩ := reading_ident (fmtA := fmtA) h1 h2 h3 hf s
      exact ⟨_, _, g1, g2⟩
  | .const t v, hw, hf, s => by
    unfold Fine at hf
    exact ⟨_, s, by unfold genExprC; rfl, reading_const hf⟩
  | .call n args id ty, hw, hf, s => by
    cases hw with
    | @call _ _ _ sym f h1 h2 h3 h4 =>
      unfold Fine at hf
      obtain ⟨texts, s₁, a1, ts, xs, a2, a3, a4, a5⟩ := reading_args h4 hf.2 s
      obtain ⟨n1, n2, c, t', n3, n4⟩ := lx_name (hf.1 _ h1)
      refine ⟨sym.name ++ "(".toList ++ joinArgs texts ++ ")".toList, s₁, ?_, ⟨⟨c, t' ++ "(".toList ++ joinArgs texts ++ ")".toList, by rw [n3]; rfl, (name_ne n4).1⟩, .id sym.name :: .p ['('] :: (ts ++ [.p [')']]), .call (.id sym.name) xs, ?_, ?_, .call h1 a3⟩⟩
      · unfold genExprC
        rw [cgen_bind (a := (sym, f)) (s' := s) (by rw [func_eq h1 h2]; rfl)]
        rw [← h3] at a1
        rw [cgen_bind a1]
        rfl
      · have := lx_call n1 a2
        simpa using this
      · have g : GArgs ts xs := by
          by_cases he : texts = []
          · obtain ⟨_, b2, b3⟩ := a4 he
            rw [b2, b3]
            exact .none
          · exact .some (a5 he)
        have := G.call (n2.down 12 (by decide)) g
        exact G.down (by simpa using this) 11 (by decide)
  | .un o r ty k, hw, hf, s => by
    unfold Fine at hf
    cases hw with
    | un h1 h2 =>
      obtain ⟨rt, s₁, g1, g2⟩ := reading_expr h2 hf s
      cases o with
      | unaryNeg =>
        refine ⟨"-(".toList ++ rt ++ ")".toList, s₁, ?_, ?_⟩
        · unfold genExprC
          rw [cgen_bind (a := ("-(".toList, ")".toList)) (s' := s) rfl, cgen_bind g1]
          rfl
        · have := reading_un (o := .unaryNeg) (p := "-") (ty := ty) (k := r.isConstExpr) (by decide) ⟨'(', _, rfl, by decide, fun _ => by decide, fun _ => rfl⟩ (reading_paren g2)
          simpa using this
      | not =>
        obtain ⟨⟨c, t, rfl, hc⟩, _⟩ := id g2
        refine ⟨"!".toList ++ (c :: t), s₁, ?_, reading_un (p := "!") (by decide) ⟨c, t, rfl, hc, fun h => by simp at h, fun h => by simp at h⟩ g2⟩
        unfold genExprC
        rw [cgen_bind (a := ("!".toList, [])) (s' := s) rfl, cgen_bind g1]
        simp only [List.append_nil]
        rfl
      | _ => revert h1; cases r.type <;> simp [unType]
    | ref h1 =>
      rename_i t id ty'
      cases h1 with
      | ident h1 h2 h3 h4 =>
        unfold Fine at hf
        obtain ⟨g1, g2, c, t', g3, g4⟩ := reading_ident (t := t) (ty := _) (k := _) (fmtA := fmtA) h1 h2 h3 hf s
        refine ⟨"&".toList ++ _, s, ?_, reading_un (p := "&") (by decide) ⟨c, t', g3, (name_ne g4).1, fun _ => (name_ne g4).2, fun h => by simp at h⟩ g2⟩
        unfold genExprC
        rw [cgen_bind (a := ("&".toList, [])) (s' := s) rfl, cgen_bind g1]
        simp only [List.append_nil]
        rfl
    | deref h1 =>
      rename_i t id
      generalize hτ : ty.ref = τ at *
      cases h1 with
      | ident h1 h2 h3 h4 =>
        unfold Fine at hf
        obtain ⟨g1, g2, c, t', g3, g4⟩ := reading_ident (t := t) (ty := _) (k := _) (fmtA := fmtA) h1 h2 h3 hf s
        refine ⟨"*".toList ++ _, s, ?_, reading_un (p := "*") (by decide) ⟨c, t', g3, (name_ne g4).1, fun h => by simp at h, fun h => by simp at h⟩ g2⟩
        unfold genExprC
        rw [cgen_bind (a := ("*".toList, [])) (s' := s) rfl, cgen_bind g1]
        simp only [List.append_nil]
        rfl
  | .bin o l r ty k, hw, hf, s => by
    unfold Fine at hf
    cases hw with
    | bin h1 h2 h3 h4 h5 =>
      obtain ⟨lt, _, _, l1⟩ := reading_expr (dbg := dbg) h1 hf.1 s
      obtain ⟨rt, _, _, r1⟩ := reading_expr (dbg := dbg) h2 hf.2 s
      obtain ⟨f, s₁, f1, _⟩ := reading_bin (k := l.isConstExpr && r.isConstExpr) h3 h4 l1 r1 s
      obtain ⟨lt, s₂, l1, l2⟩ := reading_expr h1 hf.1 s₁
      obtain ⟨rt, s₃, r1, r2⟩ := reading_expr h2 hf.2 s₂
      obtain ⟨f', s₁', f1', f2⟩ := reading_bin (k := l.isConstExpr && r.isConstExpr) h3 h4 l2 r2 s
      rw [f1] at f1'
      cases f1'
      refine ⟨_, s₃, ?_, f2⟩
      unfold genExprC
      rw [cgen_bind f1, cgen_bind l1, cgen_bind r1]
      rfl
theorem reading_args {syms dbg fmtA} : ∀ {args : AArgs} {tys : List Ty}, WtA syms tys args → FineArgs syms fmtA args → ∀ s, ∃ texts s',
    genArgsC ⟨syms, dbg, fmtA⟩ tys.length args s = some (texts, s') ∧ ReadingArgs syms fmtA args texts
  | .nil, tys, hw, hf, s => by
    cases hw
    exact ⟨[], s, rfl, [], .nil, (fun rest ts' _ h => h), .nil, fun _ => ⟨rfl, rfl, rfl⟩, fun h => absurd rfl h⟩
  | .unchecked _, tys, hw, hf, s => by unfold FineArgs at hf; exact hf.elim
  | .cons t e next, tys, hw, hf, s => by
    unfold FineArgs at hf
    cases hw with
    | @cons _ _ _ ty tys h1 h2 h3 =>
      obtain ⟨text, s₁, g1, _, ta, xa, g2, g3, g4⟩ := reading_expr h1 hf.1 s
      obtain ⟨texts, s₂, a1, ts, xs, a2, a3, a4, a5⟩ := reading_args h3 hf.2 s₁
      refine ⟨text :: texts, s₂, ?_, ?_⟩
      · simp only [List.length_cons, genArgsC]
        rw [cgen_bind g1, cgen_bind a1]
        rfl
      · cases texts with
        | nil =>
          obtain ⟨b1, b2, b3⟩ := a4 rfl
          subst b1 b2
          exact ⟨ta, .cons xa .nil, g2, .cons g4 a3, (fun h => by cases h), fun _ => .one (g3.down 1 (by decide))⟩
        | cons a as =>
          exact ⟨_, .cons xa xs, lx_comma g2 a2, .cons g4 a3, (fun h => by cases h), fun _ => .cons (g3.down 1 (by decide)) (a5 (by simp))⟩
end

end Spec.C
end Skull
