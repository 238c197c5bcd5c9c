import Verif.Spec.CSyntax
/-
The grammar of C expressions is unambiguous: a parser that follows it returns whatever expression the grammar gives.
-/
namespace Skull.Spec.C

mutual
def parse : Nat → Nat → List Tok → Option (Exp × List Tok)
  | 0, _, _ => none
  | n + 1, k, t =>
    if k ≤ 10 then
      match parse n (k + 1) t with
      | some (e, r) => loop n k e r
      | none => none
    else if k = 11 then
      match t with
      | .p p :: t' =>
        if isPrefix p then
          match parse n 11 t' with
          | some (e, r) => some (.un p e, r)
          | none => none
        else parse n 12 t
      | _ => parse n 12 t
    else if k = 12 then
      match parse n 13 t with
      | some (e, r) => loop n 12 e r
      | none => none
    else
      match t with
      | .id s :: r => some (.id s, r)
      | .num s :: r => some (.num s, r)
      | .str s :: r => some (.str s, r)
      | .p p :: t' =>
        if p = ['('] then
          match parse n 0 t' with
          | some (e, .p q :: r) => if q = [')'] then some (.paren e, r) else none
          | _ => none
        else none
      | [] => none
def loop : Nat → Nat → Exp → List Tok → Option (Exp × List Tok)
  | 0, _, _, _ => none
  | n + 1, k, e, r =>
    if k ≤ 10 then
      match r with
      | .p p :: r' =>
        if binPrec p = some k then
          match parse n (k + 1) r' with
          | some (e2, r2) => loop n k (.bin p e e2) r2
          | none => none
        else some (e, r)
      | _ => some (e, r)
    else if k = 12 then
      match r with
      | .p p :: r' =>
        if p = ['('] then
          match pargs n r' with
          | some (args, r2) => loop n 12 (.call e args) r2
          | none => none
        else some (e, r)
      | _ => some (e, r)
    else some (e, r)
def pargs : Nat → List Tok → Option (Exps × List Tok)
  | 0, _ => none
  | n + 1, t =>
    match t with
    | .p p :: r => if p = [')'] then some (.nil, r) else plist n t
    | _ => plist n t
def plist : Nat → List Tok → Option (Exps × List Tok)
  | 0, _ => none
  | n + 1, t =>
    match parse n 1 t with
    | some (e, .p p :: r) =>
      if p = [')'] then some (.cons e .nil, r)
      else if p = [','] then
        match plist n r with
        | some (args, r) => some (.cons e args, r)
        | none => none
      else none
    | _ => none
end

/-- Holds from some number on. -/
def Ev (f : Nat → α) (x : α) : Prop := ∃ n0, ∀ n, n0 ≤ n → f n = x

theorem Ev.uniq {f : Nat → α} {x y : α} (h : Ev f x) (h' : Ev f y) : x = y := by
  obtain ⟨n, h⟩ := h
  obtain ⟨m, h'⟩ := h'
  rw [← h (n + m) (by omega), h' (n + m) (by omega)]

theorem Ev.step {f g : Nat → α} {x : α} (h : Ev f x) (e : ∀ n, g (n + 1) = f n) : Ev g x := by
  obtain ⟨n, h⟩ := h
  refine ⟨n + 1, fun m hm => ?_⟩
  obtain ⟨m, rfl⟩ : ∃ k, m = k + 1 := ⟨m - 1, by omega⟩
  rw [e, h m (by omega)]

theorem Ev.step2 {f : Nat → β} {f' g : Nat → α} {x : α} {y : β} (h : Ev f y) (h' : Ev f' x)
    (e : ∀ n, f n = y → g (n + 1) = f' n) : Ev g x := by
  obtain ⟨n, h⟩ := h
  obtain ⟨n', h'⟩ := h'
  refine ⟨n + n' + 1, fun m hm => ?_⟩
  obtain ⟨m, rfl⟩ : ∃ k, m = k + 1 := ⟨m - 1, by omega⟩
  rw [e m (h m (by omega)), h' m (by omega)]

theorem Ev.now {g : Nat → α} {x : α} (e : ∀ n, g (n + 1) = x) : Ev g x := by
  refine ⟨1, fun m hm => ?_⟩
  obtain ⟨m, rfl⟩ : ∃ k, m = k + 1 := ⟨m - 1, by omega⟩
  exact e m

/-- Nothing that binds tighter than level `k` follows. -/
def Follow (k : Nat) : List Tok → Prop
  | .p p :: _ => (∀ j, binPrec p = some j → j ≤ k) ∧ (p = ['('] → 12 ≤ k)
  | _ => True

theorem Follow.mono {k j : Nat} {r : List Tok} (h : Follow k r) (hk : k ≤ j) : Follow j r := by
  match r with
  | [] => trivial
  | .id _ :: _ => trivial
  | .num _ :: _ => trivial
  | .str _ :: _ => trivial
  | .p p :: _ => exact ⟨fun i hi => Nat.le_trans (h.1 i hi) hk, fun e => Nat.le_trans (h.2 e) hk⟩

/-- A loop of a tighter level stops at once. -/
theorem loop_stop {k : Nat} {e : Exp} {r : List Tok} (h : Follow k r) :
    Ev (fun n => loop n (k + 1) e r) (some (e, r)) := by
  refine Ev.now fun n => ?_
  match r, h with
  | [], _ => simp [loop]
  | .id _ :: _, _ => simp [loop]
  | .num _ :: _, _ => simp [loop]
  | .str _ :: _, _ => simp [loop]
  | .p p :: t, h =>
    have h1 : binPrec p ≠ some (k + 1) := fun e => by have := h.1 _ e; omega
    have h2 : k + 1 = 12 → p ≠ ['('] := by
      intro hk' e
      have := h.2 e
      omega
    unfold loop
    split
    · simp [h1]
    · split
      · next h3 => simp [h2 h3]
      · rfl

theorem loop_13 (e : Exp) (r : List Tok) : Ev (fun n => loop n 13 e r) (some (e, r)) := Ev.now fun n => by simp [loop]

/-- What an expression begins with. -/
def Starts (k : Nat) : Tok → Prop
  | .p p => p = ['('] ∨ (k ≤ 11 ∧ isPrefix p = true)
  | _ => True

theorem G.starts {k : Nat} {t : List Tok} {e : Exp} (h : G k t e) : ∃ a t', t = a :: t' ∧ Starts k a := by
  induction h using G.rec (motive_2 := fun _ _ _ => True) (motive_3 := fun _ _ _ => True) with
  | up hk _ ih =>
    obtain ⟨a, t', rfl, h⟩ := ih
    refine ⟨a, t', rfl, ?_⟩
    cases a with
    | p p => exact h.imp (fun x => x) fun ⟨x, y⟩ => ⟨by omega, y⟩
    | _ => trivial
  | bin _ _ _ ih _ =>
    obtain ⟨a, t', rfl, h⟩ := ih
    exact ⟨a, _, rfl, h⟩
  | un hp _ _ => exact ⟨_, _, rfl, Or.inr ⟨Nat.le_refl _, hp⟩⟩
  | call _ _ ih _ =>
    obtain ⟨a, t', rfl, h⟩ := ih
    exact ⟨a, _, rfl, h⟩
  | id _ => exact ⟨_, _, rfl, trivial⟩
  | num => exact ⟨_, _, rfl, trivial⟩
  | str => exact ⟨_, _, rfl, trivial⟩
  | paren _ _ => exact ⟨_, _, rfl, Or.inl rfl⟩
  | none => trivial
  | some _ _ => trivial
  | one _ _ => trivial
  | cons _ _ _ _ => trivial

theorem binPrec_le {p : List Char} {k : Nat} (h : binPrec p = some k) : k ≤ 10 ∧ p ≠ ['('] ∧ p ≠ [')'] := by
  obtain ⟨x, hx, h⟩ := List.exists_of_findSome?_eq_some h
  split at h
  · next e =>
    cases h
    subst e
    revert x
    decide
  · cases h

theorem binPrec_paren : binPrec ['('] = none ∧ binPrec [')'] = none ∧ binPrec [','] = some 0 := by decide

theorem not_prefix_paren : isPrefix ['('] = false ∧ isPrefix [')'] = false := by decide

theorem follow_close (k : Nat) (rest : List Tok) : Follow k (.p [')'] :: rest) :=
  ⟨fun j h => (by rw [binPrec_paren.2.1] at h; cases h), fun h => (by cases h)⟩

theorem starts_close {k : Nat} {a : Tok} (h : Starts k a) : a ≠ .p [')'] := by
  rintro rfl
  rcases h with h | ⟨_, h⟩
  · cases h
  · rw [not_prefix_paren.2] at h; cases h

theorem G.parse_ev {k : Nat} {t : List Tok} {e : Exp} (h : G k t e) : ∀ rest out, Follow k rest →
    Ev (fun n => loop n k e rest) out → Ev (fun n => parse n k (t ++ rest)) out := by
  induction h using G.rec
    (motive_2 := fun t as _ => ∀ rest, Ev (fun n => pargs n (t ++ .p [')'] :: rest)) (some (as, rest)))
    (motive_3 := fun t as _ => (∃ a t', t = a :: t' ∧ Starts 1 a) ∧
      ∀ rest, Ev (fun n => plist n (t ++ .p [')'] :: rest)) (some (as, rest))) with
  | @up k t e hk hg ih =>
    intro rest out hf ho
    have hs := ih rest _ (hf.mono (Nat.le_succ k)) (loop_stop hf)
    rcases Nat.lt_or_ge k 11 with h | h
    · refine Ev.step2 hs ho fun n hn => ?_
      simp only [parse, hn]
      rw [if_pos (by omega)]
    · rcases Nat.lt_or_ge 11 k with h' | h'
      · obtain rfl : k = 12 := by omega
        refine Ev.step2 hs ho fun n hn => ?_
        simp [parse, hn]
      · obtain rfl : k = 11 := by omega
        have ho' : out = some (e, rest) := ho.uniq (Ev.now fun n => by simp [loop])
        subst ho'
        refine Ev.step hs fun n => ?_
        obtain ⟨a, t', rfl, ha⟩ := hg.starts
        cases a with
        | p p =>
          have : isPrefix p = false := by
            rcases ha with rfl | ⟨h, _⟩
            · exact not_prefix_paren.1
            · omega
          simp [parse, this]
        | _ => simp [parse]
  | @bin k p tl tr l r hp hl hr ihl ihr =>
    intro rest out hf ho
    have hk := (binPrec_le hp).1
    have hs := ihr rest _ (hf.mono (Nat.le_succ k)) (loop_stop hf)
    rw [List.append_assoc]
    refine ihl _ _ ⟨fun j hj => (by rw [hp] at hj; cases hj; exact Nat.le_refl _), fun h => absurd h (binPrec_le hp).2.1⟩ ?_
    refine Ev.step2 hs ho fun n hn => ?_
    simp [loop, hp, hk, hn]
  | @un p t e hp hg ih =>
    intro rest out hf ho
    have ho' : out = some (.un p e, rest) := ho.uniq (Ev.now fun n => by simp [loop])
    subst ho'
    have hs := ih rest (some (e, rest)) hf (Ev.now fun n => by simp [loop])
    obtain ⟨m, hs⟩ := hs
    refine ⟨m + 1, fun n hn => ?_⟩
    obtain ⟨n, rfl⟩ : ∃ k, n = k + 1 := ⟨n - 1, by omega⟩
    simp [parse, hp, hs n (by omega)]
  | @call t f ta args hg ha ihf iha =>
    intro rest out hf ho
    rw [List.append_assoc]
    refine ihf _ _ ⟨fun j hj => (by rw [binPrec_paren.1] at hj; cases hj), fun _ => Nat.le_refl _⟩ ?_
    have hs := iha rest
    refine Ev.step2 hs ho fun n hn => ?_
    simp [loop, hn]
  | id _ =>
    intro rest out hf ho
    rw [ho.uniq (loop_13 _ _)]
    exact Ev.now fun n => by simp [parse]
  | num =>
    intro rest out hf ho
    rw [ho.uniq (loop_13 _ _)]
    exact Ev.now fun n => by simp [parse]
  | str =>
    intro rest out hf ho
    rw [ho.uniq (loop_13 _ _)]
    exact Ev.now fun n => by simp [parse]
  | @paren t e hg ih =>
    intro rest out hf ho
    rw [ho.uniq (loop_13 _ _)]
    have hs := ih (.p [')'] :: rest) (some (e, .p [')'] :: rest)) (follow_close _ _)
      (Ev.now fun n => by simp [loop, binPrec_paren.2.1])
    obtain ⟨m, hs⟩ := hs
    refine ⟨m + 1, fun n hn => ?_⟩
    obtain ⟨n, rfl⟩ : ∃ k, n = k + 1 := ⟨n - 1, by omega⟩
    simp [parse, hs n (by omega)]
  | none =>
    rename_i rest
    exact Ev.now fun n => by simp [pargs]
  | some _ ih =>
    rename_i rest
    obtain ⟨⟨a, t', rfl, ha⟩, ih⟩ := ih
    refine Ev.step (ih rest) fun n => ?_
    cases a with
    | p p =>
      have : p ≠ [')'] := fun e => starts_close ha (by rw [e])
      simp [pargs, this]
    | _ => simp [pargs]
  | @one t e hg ih =>
    refine ⟨hg.starts, fun rest => ?_⟩
    have hs := ih (.p [')'] :: rest) (some (e, .p [')'] :: rest)) (follow_close _ _)
      (Ev.now fun n => by simp [loop, binPrec_paren.2.1])
    obtain ⟨m, hs⟩ := hs
    refine ⟨m + 1, fun n hn => ?_⟩
    obtain ⟨n, rfl⟩ : ∃ k, n = k + 1 := ⟨n - 1, by omega⟩
    simp [plist, hs n (by omega)]
  | @cons t e ta args hg ha ih iha =>
    refine ⟨?_, fun rest => ?_⟩
    · obtain ⟨a, t', rfl, h⟩ := hg.starts
      exact ⟨a, _, rfl, h⟩
    · have hs := ih (.p [','] :: (ta ++ .p [')'] :: rest)) (some (e, .p [','] :: (ta ++ .p [')'] :: rest)))
        ⟨fun j hj => (by rw [binPrec_paren.2.2] at hj; cases hj; exact Nat.zero_le _), fun h => (by cases h)⟩
        (Ev.now fun n => by simp [loop, binPrec_paren.2.2])
      obtain ⟨m, hs⟩ := hs
      obtain ⟨m', ha'⟩ := iha.2 rest
      refine ⟨m + m' + 1, fun n hn => ?_⟩
      obtain ⟨n, rfl⟩ : ∃ k, n = k + 1 := ⟨n - 1, by omega⟩
      simp [plist, hs n (by omega), ha' n (by omega)]

theorem G.le {k : Nat} {t : List Tok} {e : Exp} (h : G k t e) : k ≤ 13 := by
  cases h with
  | up h _ => omega
  | bin h _ _ => have := (binPrec_le h).1; omega
  | _ => decide

theorem G.down {k : Nat} {t : List Tok} {e : Exp} (h : G k t e) : ∀ j, j ≤ k → G j t e := by
  induction k with
  | zero => 
    intro j hj
    obtain rfl : j = 0 := (by omega)
    exact h
  | succ k ih =>
    intro j hj
    rcases Nat.lt_or_ge j (k + 1) with h' | h'
    · exact ih (.up (by have := h.le; omega) h) j (by omega)
    · obtain rfl : j = k + 1 := by omega
      exact h

/-- Tokens have one reading, whatever the level. -/
theorem G.uniq {t : List Tok} {k k' : Nat} {e e' : Exp} (h : G k t e) (h' : G k' t e') : e = e' := by
  have ev : ∀ e, G 0 t e → Ev (fun n => parse n 0 t) (some (e, [])) := by
    intro e h
    have := h.parse_ev [] (some (e, [])) trivial (Ev.now fun n => by simp [loop])
    simpa using this
  have := (ev e (h.down 0 (Nat.zero_le _))).uniq (ev e' (h'.down 0 (Nat.zero_le _)))
  simpa using this

end Skull.Spec.C
