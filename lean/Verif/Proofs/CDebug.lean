import Verif.Spec.CLines
import Verif.Proofs.CProgText
/-
Two runs of the C back end, with debug information and without.
-/
namespace Skull.CDebug
open Spec Spec.C

/- ### Lines -/

theorem lines_ne : ∀ s : List Char, ∃ l r, linesOf s = l :: r
  | [] => ⟨[], [], rfl⟩
  | c :: s => by
    obtain ⟨l, r, h⟩ := lines_ne s
    unfold linesOf
    rw [h]
    split
    · exact ⟨_, _, rfl⟩
    · exact ⟨_, _, rfl⟩

theorem lines_prefix : ∀ {p s : List Char} {l r}, OneLine p → linesOf s = l :: r → linesOf (p ++ s) = (p ++ l) :: r
  | [], _, _, _, _, h => h
  | c :: p, s, l, r, hp, h => by
    have h1 := lines_prefix (p := p) (fun hm => hp (List.mem_cons_of_mem _ hm)) h
    have h2 : c ≠ '\n' := fun e => hp (by rw [e]; exact List.mem_cons_self)
    rw [List.cons_append, linesOf, if_neg h2, h1]
    rfl

theorem lines_line {p : List Char} (hp : OneLine p) : linesOf p = [p] := by
  have := lines_prefix (p := p) (s := []) hp rfl
  simpa using this

theorem lines_join : ∀ (a b : List Char), linesOf (a ++ '\n' :: b) = linesOf a ++ linesOf b
  | [], b => rfl
  | c :: a, b => by
    have ih := lines_join a b
    show (if c = '\n' then [] :: linesOf (a ++ '\n' :: b) else match linesOf (a ++ '\n' :: b) with | l :: r => (c :: l) :: r | [] => [[c]]) =
      (if c = '\n' then [] :: linesOf a else match linesOf a with | l :: r => (c :: l) :: r | [] => [[c]]) ++ linesOf b
    rw [ih]
    obtain ⟨l, r, h⟩ := lines_ne a
    rw [h]
    split <;> rfl

/-- The line is no directive, wherever it is put. -/
def Calm (l : List Char) : Prop := (l.dropWhile isBlank).head? ≠ some '#'

theorem calm_directive {l : List Char} (h : Calm l) : directive l = none := by
  unfold directive
  unfold Calm at h
  split
  · rename_i r e
    rw [e] at h
    exact absurd rfl h
  · rfl

theorem Calm.tabs {l : List Char} (h : Calm l) : ∀ n, Calm (List.replicate n '\t' ++ l)
  | 0 => h
  | n + 1 => by
    have := Calm.tabs h n
    unfold Calm at this ⊢
    rw [List.replicate_succ, List.cons_append, List.dropWhile_cons_of_pos (by decide)]
    exact this

/-- A text without `#` before a character that ends it. -/
theorem calm_name : ∀ {p : List Char} {c : Char} {r : List Char}, '#' ∉ p → c ≠ '#' → c ≠ ' ' → c ≠ '\t' → Calm (p ++ c :: r)
  | [], c, r, _, h1, h2, h3 => by
    unfold Calm
    rw [List.nil_append, List.dropWhile_cons_of_neg (by simp [isBlank, h2, h3])]
    simpa using h1
  | d :: p, c, r, hp, h1, h2, h3 => by
    have ih := calm_name (r := r) (fun hm => hp (List.mem_cons_of_mem _ hm)) h1 h2 h3
    have hd : d ≠ '#' := fun e => hp (by rw [e]; exact List.mem_cons_self)
    unfold Calm at ih ⊢
    rw [List.cons_append]
    by_cases hb : isBlank d = true
    · rw [List.dropWhile_cons_of_pos hb]; exact ih
    · rw [List.dropWhile_cons_of_neg hb]; simpa using hd

theorem calm_cons {c : Char} {r : List Char} (h1 : c ≠ '#') (h2 : c ≠ ' ') (h3 : c ≠ '\t') : Calm (c :: r) :=
  calm_name (p := []) (by simp) h1 h2 h3

theorem calm_nil : Calm [] := by unfold Calm; simp

/-- Lines, and what is told about them. -/
inductive Deb : List (List Char) → List (Option Place × List Char) → Prop
  | nil : Deb [] []
  | plain {l ls out} : directive l = none → Deb ls out → Deb (l :: ls) ((none, l) :: out)
  | told {d p l ls out} : directive d = some p → directive l = none → Deb ls out → Deb (d :: l :: ls) ((some p, l) :: out)

theorem Deb.append {a oa b ob} (ha : Deb a oa) (hb : Deb b ob) : Deb (a ++ b) (oa ++ ob) := by
  induction ha with
  | nil => exact hb
  | plain h1 _ ih => exact .plain h1 ih
  | told h1 h2 _ ih => exact .told h1 h2 ih

theorem Deb.placed {a oa} (ha : Deb a oa) : placed none a = oa := by
  induction ha with
  | nil => rfl
  | plain h1 _ ih => rw [Spec.C.placed, h1, ih]
  | told h1 h2 _ ih => rw [Spec.C.placed, h1]; show Spec.C.placed _ (_ :: _) = _; rw [Spec.C.placed, h2, ih]

/-- The first text is the second one with directives, which tell `ms` about its lines. -/
def T (t t' : List Char) (ms : List (Option Place)) : Prop :=
  ∃ out, Deb (linesOf t) out ∧ linesOf t' = out.map (·.2) ∧ ms = out.map (·.1)

theorem T.join {a a' b b' m n} (ha : T a a' m) (hb : T b b' n) : T (a ++ '\n' :: b) (a' ++ '\n' :: b') (m ++ n) := by
  obtain ⟨oa, h1, h2, h3⟩ := ha
  obtain ⟨ob, g1, g2, g3⟩ := hb
  refine ⟨oa ++ ob, ?_, ?_, ?_⟩
  · rw [lines_join]; exact h1.append g1
  · rw [lines_join, h2, g2, List.map_append]
  · rw [h3, g3, List.map_append]

theorem T.line {t} (h1 : OneLine t) (h2 : Calm t) : T t t [none] :=
  ⟨[(none, t)], by rw [lines_line h1]; exact .plain (calm_directive h2) .nil, by rw [lines_line h1]; rfl, rfl⟩

/-- The same for texts that begin with the same line, about which nothing is told; `ms` is about the others. -/
def F (t t' : List Char) (ms : List (Option Place)) : Prop :=
  ∃ l ls out, linesOf t = l :: ls ∧ Calm l ∧ Deb ls out ∧ linesOf t' = l :: out.map (·.2) ∧ ms = out.map (·.1)

theorem F.line {t} (h1 : OneLine t) (h2 : Calm t) : F t t [] :=
  ⟨t, [], [], lines_line h1, h2, .nil, lines_line h1, rfl⟩

theorem F.toT {t t' ms} (h : F t t' ms) : T t t' (none :: ms) := by
  obtain ⟨l, ls, out, h1, h2, h3, h4, h5⟩ := h
  exact ⟨(none, l) :: out, by rw [h1]; exact .plain (calm_directive h2) h3, h4, by rw [h5]; rfl⟩

theorem F.join {a b b' n} (h1 : OneLine a) (h2 : Calm a) (hb : T b b' n) : F (a ++ '\n' :: b) (a ++ '\n' :: b') n := by
  obtain ⟨ob, g1, g2, g3⟩ := hb
  exact ⟨a, linesOf b, ob, by rw [lines_join, lines_line h1]; rfl, h2, g1, by rw [lines_join, lines_line h1, g2]; rfl, g3⟩

theorem F.tabs {t t' ms} (h : F t t' ms) (n : Nat) : F (List.replicate n '\t' ++ t) (List.replicate n '\t' ++ t') ms := by
  obtain ⟨l, ls, out, h1, h2, h3, h4, h5⟩ := h
  have ho : OneLine (List.replicate n '\t') := fun hm => absurd (List.mem_replicate.1 hm).2 (by decide)
  exact ⟨List.replicate n '\t' ++ l, ls, out, lines_prefix ho h1, h2.tabs n, h3, lines_prefix ho h4, h5⟩

/- ### Directives -/

theorem digits_only {s r : List Char} (h : ∀ c ∈ s, isDigit c = true) (hr : r.head?.all (fun c => !isDigit c) = true) :
    (s ++ r).takeWhile isDigit = s ∧ (s ++ r).dropWhile isDigit = r := by
  induction s with
  | nil =>
    cases r with
    | nil => exact ⟨rfl, rfl⟩
    | cons c r =>
      have hc : isDigit c = false := by simpa using hr
      exact ⟨List.takeWhile_cons_of_neg (by simp [hc]), List.dropWhile_cons_of_neg (by simp [hc])⟩
  | cons c s ih =>
    obtain ⟨i1, i2⟩ := ih fun d hd => h d (List.mem_cons_of_mem _ hd)
    have hc := h c List.mem_cons_self
    rw [List.cons_append, List.takeWhile_cons_of_pos hc, List.dropWhile_cons_of_pos hc, i1, i2]
    exact ⟨rfl, rfl⟩

theorem until_quote : ∀ {s r : List Char}, '"' ∉ s → (s ++ '"' :: r).takeWhile (· ≠ '"') = s
  | [], r, _ => List.takeWhile_cons_of_neg (by decide)
  | c :: s, r, h => by
    have hc : c ≠ '"' := fun e => h (by rw [e]; exact List.mem_cons_self)
    rw [List.cons_append, List.takeWhile_cons_of_pos (by simpa using hc), until_quote fun hm => h (List.mem_cons_of_mem _ hm)]

theorem behind_append : ∀ p s : List Char, behind p (p ++ s) = some s
  | [], _ => rfl
  | c :: p, s => by
    show (if c = c then behind p (p ++ s) else none) = _
    rw [if_pos rfl, behind_append p s]

/-- The text of a directive. -/
def dirText (n : Nat) (file : List Char) : List Char := "#line ".toList ++ decText n ++ " \"".toList ++ file ++ ['"']

theorem dir_ok (n : Nat) {file : List Char} (hf : PlainText file) : directive (dirText n file) = some (n, some file) ∧ OneLine (dirText n file) := by
  obtain ⟨h1, h2, _, h4⟩ := decText_eq n
  have hq : '"' ∉ file := fun hm => (hf _ hm).1 rfl
  constructor
  · have e : dirText n file = '#' :: ("line ".toList ++ (decText n ++ (' ' :: '"' :: (file ++ ['"'])))) := by
      unfold dirText
      have e1 : "#line ".toList = '#' :: "line ".toList := by decide
      have e2 : " \"".toList = [' ', '"'] := by decide
      rw [e1, e2]
      generalize "line ".toList = w
      simp
    unfold directive
    rw [e, List.dropWhile_cons_of_neg (by decide)]
    obtain ⟨d1, d2⟩ := digits_only (s := decText n) (r := ' ' :: '"' :: (file ++ ['"'])) h2 (show (!isDigit ' ') = true by decide)
    simp only [behind_append, d1, d2, if_neg h1, h4, until_quote hq]
  · intro hm
    unfold dirText at hm
    simp only [List.mem_append] at hm
    rcases hm with (((hm | hm) | hm) | hm) | hm
    · revert hm; decide
    · exact absurd (h2 _ hm) (by decide)
    · revert hm; decide
    · exact (hf _ hm).2.2 rfl
    · revert hm; decide

/-- A directive before a text. -/
theorem F.told {t t' ms} (h : F t t' ms) (n : Nat) {file : List Char} (hf : PlainText file) :
    T (dirText n file ++ '\n' :: t) t' (some (n, some file) :: ms) := by
  obtain ⟨l, ls, out, h1, h2, h3, h4, h5⟩ := h
  obtain ⟨d1, d2⟩ := dir_ok n hf
  refine ⟨(some (n, some file), l) :: out, ?_, h4, by rw [h5]; rfl⟩
  rw [lines_join, lines_line d2, h1]
  exact .told d1 (calm_directive h2) h3

/- ### Steps -/

/-- If the first step succeeds, so does the other one, and the results are as `P` says. -/
def Twin (m m' : CGen α) (s s' : CState) (P : α → CState → α → CState → Prop) : Prop :=
  ∀ a t, m s = some (a, t) → ∃ a' t', m' s' = some (a', t') ∧ P a t a' t'

namespace Twin

theorem bind {m m' : CGen α} {f f' : α → CGen β} {s s' : CState} {P : α → CState → α → CState → Prop} {Q : β → CState → β → CState → Prop}
    (hm : Twin m m' s s' P) (hf : ∀ a t a' t', P a t a' t' → Twin (f a) (f' a') t t' Q) : Twin (m >>= f) (m' >>= f') s s' Q := by
  intro b u h
  have h : CGen.bind m f s = some (b, u) := h
  unfold CGen.bind at h
  split at h
  · rename_i a t hm'
    obtain ⟨a', t', h1, h2⟩ := hm a t hm'
    obtain ⟨b', u', h3, h4⟩ := hf a t a' t' h2 b u h
    refine ⟨b', u', ?_, h4⟩
    show CGen.bind m' f' s' = _
    unfold CGen.bind
    rw [h1]
    exact h3
  · cases h

theorem pure {a a' : α} {s s' : CState} {P : α → CState → α → CState → Prop} (h : P a s a' s') :
    Twin (Pure.pure a : CGen α) (Pure.pure a') s s' P := by
  intro b t hb
  cases hb
  exact ⟨a', s', rfl, h⟩

theorem ub {m' : CGen α} {s s' : CState} {P : α → CState → α → CState → Prop} : Twin (CGen.ub : CGen α) m' s s' P := fun _ _ h => by cases h

theorem mono {m m' : CGen α} {s s' : CState} {P Q : α → CState → α → CState → Prop} (h : Twin m m' s s' P)
    (hq : ∀ a t a' t', P a t a' t' → Q a t a' t') : Twin m m' s s' Q := by
  intro a t ha
  obtain ⟨a', t', h1, h2⟩ := h a t ha
  exact ⟨a', t', h1, hq _ _ _ _ h2⟩

theorem modify {f f' : CState → CState} {s s' : CState} {P : Unit → CState → Unit → CState → Prop} (h : P () (f s) () (f' s')) :
    Twin (CGen.modify f) (CGen.modify f') s s' P := by
  intro b t hb
  cases hb
  exact ⟨(), f' s', rfl, h⟩

theorem get {s s' : CState} {P : CState → CState → CState → CState → Prop} (h : P s s s' s') :
    Twin (fun s => some (s, s) : CGen CState) (fun s => some (s, s)) s s' P := by
  intro b t hb
  cases hb
  exact ⟨s', s', rfl, h⟩

theorem option {o : Option α} {s s' : CState} {P : α → CState → α → CState → Prop} (h : ∀ a, o = some a → P a s a s') :
    Twin (CGen.ofOption o) (CGen.ofOption o) s s' P := by
  cases o with
  | none => exact .ub
  | some a => exact .pure (h a rfl)

end Twin

/-- The states of the two runs; `gs` is told about the lines of the globals, but for an empty one that may be the first. -/
structure Same (gs : List (Option Place)) (s s' : CState) : Prop where
  int : s.calledIntPow = s'.calledIntPow
  float : s.calledFloatPow = s'.calledFloatPow
  str : s.calledStrcmp = s'.calledStrcmp
  indent : s.indent = s'.indent
  globals : (s.globals = none ∧ s'.globals = none ∧ gs = []) ∨
    ∃ g g' ms, s.globals = some g ∧ s'.globals = some g' ∧ T g g' ms ∧ (ms = gs ∨ ms = none :: gs)

theorem Same.indent_eq {gs s s'} (h : Same gs s s') (n : Nat) : Same gs { s with indent := n } { s' with indent := n } :=
  ⟨h.int, h.float, h.str, rfl, h.globals⟩

/-- The results are the same. -/
def Eq1 (gs : List (Option Place)) (d : Nat) (a : α) (t : CState) (a' : α) (t' : CState) : Prop := a = a' ∧ Same gs t t' ∧ t.indent = d

theorem same_format {o l ty} {gs s s'} (h : Same gs s s') {d} (hd : s.indent = d) :
    Twin (formatC o l ty) (formatC o l ty) s s' (fun f t f' t' => Eq1 gs d f t f' t' ∧ OneLine f.1 ∧ OneLine f.2) := by
  have hi : ∀ op, infixC o = some op → OneLine (' ' :: op ++ " ".toList) := by
    intro op ho
    cases o <;> simp only [infixC] at ho <;> cases ho <;> (unfold OneLine; decide)
  have o1 : OneLine "(".toList := by unfold OneLine; decide
  have o2 : OneLine ", ".toList := by unfold OneLine; decide
  have key : Twin (match infixC o with | some op => pure ("(".toList, ' ' :: op ++ " ".toList) | none => CGen.ub)
      (match infixC o with | some op => pure ("(".toList, ' ' :: op ++ " ".toList) | none => CGen.ub) s s'
      (fun f t f' t' => Eq1 gs d f t f' t' ∧ OneLine f.1 ∧ OneLine f.2) := by
    cases ho : infixC o with
    | none => exact .ub
    | some op => exact .pure ⟨⟨rfl, h, hd⟩, o1, hi op ho⟩
  unfold formatC
  cases o <;> simp only [] <;> first
    | exact key
    | (split
       · exact .bind (P := fun _ t _ t' => Same gs t t' ∧ t.indent = d) (.modify ⟨⟨h.int, h.float, rfl, h.indent, h.globals⟩, hd⟩)
          fun _ _ _ _ hh => .pure ⟨⟨rfl, hh.1, hh.2⟩, by unfold OneLine; decide, o2⟩
       · exact .pure ⟨⟨rfl, h, hd⟩, o1, by unfold OneLine; decide⟩)
    | (split
       · exact .bind (P := fun _ t _ t' => Same gs t t' ∧ t.indent = d) (.modify ⟨⟨rfl, h.float, h.str, h.indent, h.globals⟩, hd⟩)
          fun _ _ _ _ hh => .pure ⟨⟨rfl, hh.1, hh.2⟩, by unfold OneLine; decide, o2⟩
       · split
         · exact .bind (P := fun _ t _ t' => Same gs t t' ∧ t.indent = d) (.modify ⟨⟨h.int, rfl, h.str, h.indent, h.globals⟩, hd⟩)
            fun _ _ _ _ hh => .pure ⟨⟨rfl, hh.1, hh.2⟩, by unfold OneLine; decide, o2⟩
         · exact .ub)

/- ### Texts in one line -/

theorem _root_.Skull.Spec.C.OneLine.app {a b : List Char} (ha : OneLine a) (hb : OneLine b) : OneLine (a ++ b) := fun h => (List.mem_append.1 h).elim ha hb

theorem one_cons {c : Char} {a : List Char} (hc : c ≠ '\n') (ha : OneLine a) : OneLine (c :: a) := by
  intro h
  rcases List.mem_cons.1 h with h | h
  · exact hc h.symm
  · exact ha h

theorem one_nil : OneLine [] := by unfold OneLine; simp

theorem one_dec (n : Nat) : OneLine (decText n) := fun h => absurd ((decText_eq n).2.1 _ h) (by decide)

theorem one_hex (n : Nat) : OneLine (upperHex n) := fun h => absurd ((upperHex_eq n).2.1 _ h) (by decide)

theorem one_signed (i : Int) : OneLine (signedDecimal i) := by
  unfold signedDecimal
  split
  · exact one_cons (by decide) (one_dec _)
  · exact one_dec _

theorem one_type : ∀ ty : Ty, OneLine (typeC ty)
  | .prim p => by cases p <;> (unfold OneLine; decide)
  | .ref i => OneLine.app (one_type i) (by unfold OneLine; decide)

theorem one_asm {l : List Char} (h : OneLine l) : OneLine (asmName l) :=
  .app (.app (by unfold OneLine; decide) h) (by unfold OneLine; decide)

theorem one_join : ∀ {as : List (List Char)}, (∀ a ∈ as, OneLine a) → OneLine (joinArgs as)
  | [], _ => one_nil
  | [a], h => h a List.mem_cons_self
  | a :: b :: as, h => .app (.app (h a List.mem_cons_self) (by unfold OneLine; decide)) (one_join fun x hx => h x (List.mem_cons_of_mem _ hx))

theorem char_nl {n : Nat} (h : Char.ofNat n = '\n') : n = 10 := by
  have h1 : (Char.ofNat n).toNat = 10 := by rw [h]; rfl
  unfold Char.ofNat at h1
  split at h1
  · exact h1
  · cases h1

theorem one_str {s : List Nat} (h : s.all (· ≠ 10) = true) : OneLine (s.map Char.ofNat) := by
  intro hm
  obtain ⟨n, h1, h2⟩ := List.mem_map.1 hm
  exact absurd (char_nl h2) (by simpa using List.all_eq_true.1 h n h1)

section
variable {syms : List Symbol} {dbg : Option (List Char)} {fmtA : Nat → List Char}

theorem one_const (hf : ∀ b, OneLine (fmtA b)) {tok v} (h : oneLineE (.const tok v) = true) : OneLine (genConstC ⟨syms, dbg, fmtA⟩ v) := by
  cases v with
  | int i =>
    show OneLine (if i > 2147483647 ∨ i < -2147483648 then signedDecimal i ++ ['L'] else signedDecimal i)
    split
    · exact (one_signed i).app (by unfold OneLine; decide)
    · exact one_signed i
  | float b =>
    show OneLine (if b = 0 then "0.0".toList else fmtA b)
    split
    · unfold OneLine; decide
    · exact hf b
  | bool b =>
    show OneLine (if b then ['1'] else ['0'])
    cases b <;> (unfold OneLine; decide)
  | rune r => exact one_cons (by decide) (one_cons (by decide) (one_hex r))
  | str s => exact OneLine.app (one_cons (by decide) (one_str (by simpa [oneLineE] using h))) (by unfold OneLine; decide)

theorem var_names (hn : OneLineNames syms) {id : Nat} {v : Variable} (h : CCfg.var ⟨syms, dbg, fmtA⟩ id = some v) :
    OneLine v.name ∧ '#' ∉ v.name ∧ OneLine v.linkageName := by
  unfold CCfg.var at h
  split at h
  · rename_i sym hs
    cases h
    exact (hn _ (List.mem_of_getElem? hs)).2.2 _ rfl
  · cases h

theorem func_names (hn : OneLineNames syms) {id : Nat} {p : Symbol × Func} (h : CCfg.func ⟨syms, dbg, fmtA⟩ id = some p) :
    OneLine p.1.name ∧ '#' ∉ p.1.name ∧ OneLine p.1.linkageName := by
  unfold CCfg.func at h
  split at h
  · rename_i sym hs
    split at h
    · rename_i f hk
      cases h
      exact ⟨(hn _ (List.mem_of_getElem? hs)).1, (hn _ (List.mem_of_getElem? hs)).2.1 f hk⟩
    · cases h
  · cases h

mutual
theorem twin_expr (hn : OneLineNames syms) (hf : ∀ b, OneLine (fmtA b)) : ∀ {e : AExpr}, oneLineE e = true → ∀ {gs s s' d}, Same gs s s' → s.indent = d →
    Twin (genExprC ⟨syms, dbg, fmtA⟩ e) (genExprC ⟨syms, none, fmtA⟩ e) s s' (fun t u t' u' => Eq1 gs d t u t' u' ∧ OneLine t)
  | .const tok v, h, gs, s, s', d, hs, hd => by
    unfold genExprC
    exact .pure ⟨⟨rfl, hs, hd⟩, one_const hf h⟩
  | .ident _ id _ _, h, gs, s, s', d, hs, hd => by
    unfold genExprC
    refine .bind (P := fun v t v' t' => Eq1 gs d v t v' t' ∧ OneLine v.name) (.option fun v hv => ⟨⟨rfl, hs, hd⟩, (var_names hn hv).1⟩) ?_
    rintro v t _ t' ⟨⟨rfl, h1, h2⟩, h3⟩
    exact .pure ⟨⟨rfl, h1, h2⟩, h3⟩
  | .bin o l r ty _, h, gs, s, s', d, hs, hd => by
    unfold genExprC
    simp only [oneLineE, Bool.and_eq_true] at h
    refine .bind (same_format hs hd) ?_
    rintro f t _ t' ⟨⟨rfl, h1, h2⟩, h3, h4⟩
    refine .bind (twin_expr hn hf h.1 h1 h2) ?_
    rintro a u _ u' ⟨⟨rfl, h5, h6⟩, h7⟩
    refine .bind (twin_expr hn hf h.2 h5 h6) ?_
    rintro b w _ w' ⟨⟨rfl, h8, h9⟩, h10⟩
    exact .pure ⟨⟨rfl, h8, h9⟩, .app (.app (.app (.app h3 h7) h4) h10) (by unfold OneLine; decide)⟩
  | .un o r _ _, h, gs, s, s', d, hs, hd => by
    unfold genExprC
    simp only [oneLineE] at h
    refine .bind (P := fun v t v' t' => Eq1 gs d v t v' t' ∧ OneLine v.1 ∧ OneLine v.2) (.option fun v hv => ⟨⟨rfl, hs, hd⟩, ?_⟩) ?_
    · cases o <;> simp only [prefixC] at hv <;> cases hv <;> (unfold OneLine; decide)
    · rintro v t _ t' ⟨⟨rfl, h1, h2⟩, h3, h4⟩
      refine .bind (twin_expr hn hf h h1 h2) ?_
      rintro a u _ u' ⟨⟨rfl, h5, h6⟩, h7⟩
      exact .pure ⟨⟨rfl, h5, h6⟩, .app (.app h3 h7) h4⟩
  | .call t args id ty, h, gs, s, s', d, hs, hd => by
    unfold genExprC
    simp only [oneLineE] at h
    refine .bind (P := fun v t v' t' => Eq1 gs d v t v' t' ∧ OneLine v.1.name) (.option fun v hv => ⟨⟨rfl, hs, hd⟩, (func_names hn hv).1⟩) ?_
    rintro v t _ t' ⟨⟨rfl, h1, h2⟩, h3⟩
    refine .bind (twin_args hn hf h h1 h2) ?_
    rintro as u _ u' ⟨⟨rfl, h4, h5⟩, h6⟩
    exact .pure ⟨⟨rfl, h4, h5⟩, .app (.app (.app h3 (by unfold OneLine; decide)) (one_join h6)) (by unfold OneLine; decide)⟩
theorem twin_args (hn : OneLineNames syms) (hf : ∀ b, OneLine (fmtA b)) : ∀ {a : AArgs}, oneLineA a = true → ∀ {n gs s s' d}, Same gs s s' → s.indent = d →
    Twin (genArgsC ⟨syms, dbg, fmtA⟩ n a) (genArgsC ⟨syms, none, fmtA⟩ n a) s s' (fun t u t' u' => Eq1 gs d t u t' u' ∧ ∀ x ∈ t, OneLine x)
  | .nil, _, n, gs, s, s', d, hs, hd => by
    cases n <;> unfold genArgsC
    · exact .pure ⟨⟨rfl, hs, hd⟩, by simp⟩
    · exact .ub
  | .unchecked _, _, n, gs, s, s', d, hs, hd => by
    cases n <;> unfold genArgsC
    · exact .pure ⟨⟨rfl, hs, hd⟩, by simp⟩
    · exact .ub
  | .cons _ e next, h, n, gs, s, s', d, hs, hd => by
    cases n <;> unfold genArgsC
    · exact .pure ⟨⟨rfl, hs, hd⟩, by simp⟩
    · simp only [oneLineA, Bool.and_eq_true] at h
      refine .bind (twin_expr hn hf h.1 hs hd) ?_
      rintro a u _ u' ⟨⟨rfl, h5, h6⟩, h7⟩
      refine .bind (twin_args hn hf h.2 h5 h6) ?_
      rintro as w _ w' ⟨⟨rfl, h8, h9⟩, h10⟩
      refine .pure ⟨⟨rfl, h8, h9⟩, fun x hx => ?_⟩
      rcases List.mem_cons.1 hx with rfl | hx
      · exact h7
      · exact h10 x hx
end

/- ### Statements -/

/-- The texts of a statement, without the first line; `none` if it has none. -/
def Res (gs : List (Option Place)) (d : Nat) (ms : Option (List (Option Place))) (r : Option (List Char)) (t : CState) (r' : Option (List Char))
    (t' : CState) : Prop :=
  Same gs t t' ∧ t.indent = d ∧
    match ms with
    | none => r = none ∧ r' = none
    | some ms => ∃ x x', r = some x ∧ r' = some x' ∧ F x x' ms

/-- The texts of statements. -/
def Texts (ms : List (Option Place)) (r r' : Option (List Char)) : Prop :=
  (r = none ∧ r' = none ∧ ms = []) ∨ ∃ x x', r = some x ∧ r' = some x' ∧ T x x' ms

def TRes (gs : List (Option Place)) (d : Nat) (ms : List (Option Place)) (r : Option (List Char)) (t : CState) (r' : Option (List Char)) (t' : CState) : Prop :=
  Same gs t t' ∧ t.indent = d ∧ Texts ms r r'

theorem same_append {gs s s'} (h : Same gs s s') {t : List Char} (h1 : OneLine t) (h2 : Calm t) {d} (hd : s.indent = d) :
    Twin (appendGlobal t) (appendGlobal t) s s' (fun _ u _ u' => Same (gs ++ [none]) u u' ∧ u.indent = d) := by
  refine .modify ⟨⟨h.int, h.float, h.str, h.indent, .inr ?_⟩, hd⟩
  rcases h.globals with ⟨g1, g2, g3⟩ | ⟨g, g', ms, g1, g2, g3, g4⟩
  · refine ⟨_, _, [none, none], rfl, rfl, ?_, .inr (by rw [g3]; rfl)⟩
    rw [g1, g2]
    exact T.join (T.line one_nil calm_nil) (T.line h1 h2)
  · refine ⟨_, _, ms ++ [none], rfl, rfl, ?_, ?_⟩
    · rw [g1, g2]
      exact g3.join (T.line h1 h2)
    · rcases g4 with rfl | rfl
      · exact .inl rfl
      · exact .inr rfl

theorem twin_assign (hn : OneLineNames syms) (hf : ∀ b, OneLine (fmtA b)) {e : AExpr} (h : oneLineE e = true) {name : List Char} (h1 : OneLine name)
    (h2 : '#' ∉ name) {gs s s' d} (hs : Same gs s s') (hd : s.indent = d) :
    Twin (assignC ⟨syms, dbg, fmtA⟩ name e) (assignC ⟨syms, none, fmtA⟩ name e) s s' (fun t u t' u' => Eq1 gs d t u t' u' ∧ OneLine t ∧ Calm t) := by
  unfold assignC
  refine .bind (twin_expr hn hf h hs hd) ?_
  rintro a u _ u' ⟨⟨rfl, h5, h6⟩, h7⟩
  refine .pure ⟨⟨rfl, h5, h6⟩, .app (.app (.app h1 (by unfold OneLine; decide)) h7) (by unfold OneLine; decide), ?_⟩
  have e : name ++ " = ".toList ++ a ++ ";".toList = (name ++ [' ']) ++ '=' :: (' ' :: a ++ ";".toList) := by
    have : " = ".toList = [' ', '=', ' '] := by decide
    rw [this]
    simp
  rw [e]
  refine calm_name ?_ (by decide) (by decide) (by decide)
  intro hm
  rcases List.mem_append.1 hm with hm | hm
  · exact h2 hm
  · revert hm; decide

theorem calm_type : ∀ (ty : Ty) (r : List Char), Calm (typeC ty ++ r)
  | .prim p, r => by cases p <;> exact calm_cons (by decide) (by decide) (by decide)
  | .ref i, r => by
    unfold typeC
    rw [List.append_assoc]
    exact calm_type i _

theorem twin_varDef (hn : OneLineNames syms) (hf : ∀ b, OneLine (fmtA b)) {id : Nat} {e : AExpr} (h : oneLineE e = true) {gs s s' d} (hs : Same gs s s')
    (hd : s.indent = d) :
    Twin (varDefC ⟨syms, dbg, fmtA⟩ id e) (varDefC ⟨syms, none, fmtA⟩ id e) s s'
      (Res (gs ++ if d = 1 then [none] else []) d (if (d != 1 || !e.isConstExpr) = true then some [] else none)) := by
  unfold varDefC
  refine .bind (P := fun v t v' t' => Eq1 gs d v t v' t' ∧ OneLine v.name ∧ '#' ∉ v.name ∧ OneLine v.linkageName)
    (.option fun v hv => ⟨⟨rfl, hs, hd⟩, var_names hn hv⟩) ?_
  rintro v t _ t' ⟨⟨rfl, h1, h2⟩, h3, h4, h5⟩
  refine .bind (P := fun x w x' w' => x = w ∧ x' = w' ∧ Same gs w w' ∧ w.indent = d) (.get ⟨rfl, rfl, h1, h2⟩) ?_
  rintro x w x' w' ⟨rfl, rfl, h6, h7⟩
  rw [← h6.indent, h7]
  have hstat : ∀ r, Calm ("static ".toList ++ r) := fun r => calm_cons (by decide) (by decide) (by decide)
  have hconst : ∀ r, Calm ("const ".toList ++ r) := fun r => calm_cons (by decide) (by decide) (by decide)
  have hsc : ∀ r, Calm ("static const ".toList ++ r) := fun r => calm_cons (by decide) (by decide) (by decide)
  by_cases hd1 : d = 1
  · rw [if_pos hd1, if_pos hd1, if_pos hd1]
    unfold globalVarC
    by_cases hc : e.isConstExpr = true
    · rw [if_pos hc, if_pos hc, if_neg (by simp [hd1, hc])]
      refine .bind (P := fun _ u _ u' => Same (gs ++ [none]) u u' ∧ u.indent = d) ?_ ?_
      · unfold constGlobalC
        refine .bind (twin_expr hn hf h h6 h7) ?_
        rintro a u _ u' ⟨⟨rfl, h8, h9⟩, h10⟩
        have o1 : OneLine (" = ".toList ++ a ++ ";".toList) := .app (.app (by unfold OneLine; decide) h10) (by unfold OneLine; decide)
        split
        · split
          · refine same_append h8 ?_ ?_ h9
            · exact .app (.app (.app (.app (.app (.app (by unfold OneLine; decide) (one_type _)) (one_cons (by decide) h3)) (one_asm h5)) (by unfold OneLine; decide)) h10) (by unfold OneLine; decide)
            · simp only [List.append_assoc]; exact hconst _
          · exact .ub
        · refine same_append h8 ?_ ?_ h9
          · refine .app (.app (.app (.app (.app ?_ (one_type _)) (one_cons (by decide) h3)) (by unfold OneLine; decide)) h10) (by unfold OneLine; decide)
            split <;> (unfold OneLine; decide)
          · simp only [List.append_assoc]
            split
            · exact hsc _
            · exact hstat _
      · rintro _ u _ u' ⟨h8, h9⟩
        exact .pure ⟨h8, h9, rfl, rfl⟩
    · rw [if_neg hc, if_neg hc, if_pos (show (d != 1 || !e.isConstExpr) = true by simp [hc])]
      have key : ∀ u u', Same (gs ++ [none]) u u' → u.indent = d → Twin
          (do let t ← assignC ⟨syms, dbg, fmtA⟩ v.name e; pure (some t)) (do let t ← assignC ⟨syms, none, fmtA⟩ v.name e; pure (some t)) u u'
          (Res (gs ++ [none]) d (some [])) := by
        intro u u' hu hu'
        refine .bind (twin_assign hn hf h h3 h4 hu hu') ?_
        rintro a u _ u' ⟨⟨rfl, h8, h9⟩, h10, h11⟩
        exact .pure ⟨h8, h9, _, _, rfl, rfl, .line h10 h11⟩
      by_cases hx : v.isExported = true
      · rw [if_pos hx, if_pos hx]
        refine .bind (same_append h6 ?_ ?_ h7) fun _ u _ u' hu => key u u' hu.1 hu.2
        · exact .app (.app (.app (one_type _) (one_cons (by decide) h3)) (one_asm h5)) (by unfold OneLine; decide)
        · simp only [List.append_assoc]; exact calm_type _ _
      · rw [if_neg hx, if_neg hx]
        refine .bind (same_append h6 ?_ ?_ h7) fun _ u _ u' hu => key u u' hu.1 hu.2
        · exact .app (.app (.app (by unfold OneLine; decide) (one_type _)) (one_cons (by decide) h3)) (by unfold OneLine; decide)
        · simp only [List.append_assoc]; exact hstat _
  · rw [if_neg hd1, if_neg hd1, if_neg hd1, if_pos (by simp [hd1]), List.append_nil]
    unfold stackVarC
    refine .bind (P := fun a u a' u' => Eq1 gs d a u a' u' ∧ OneLine a ∧ Calm a) (.bind (twin_expr hn hf h h6 h7) ?_) ?_
    · rintro a u _ u' ⟨⟨rfl, h8, h9⟩, h10⟩
      refine .pure ⟨⟨rfl, h8, h9⟩, ?_, ?_⟩
      · refine .app (.app (.app (.app (.app ?_ (one_type _)) (one_cons (by decide) h3)) (by unfold OneLine; decide)) h10) (by unfold OneLine; decide)
        split <;> (unfold OneLine; decide)
      · simp only [List.append_assoc]
        split
        · exact hconst _
        · exact calm_type _ _
    · rintro a u _ u' ⟨⟨rfl, h8, h9⟩, h10, h11⟩
      exact .pure ⟨h8, h9, _, _, rfl, rfl, .line h10 h11⟩

end

end Skull.CDebug
