import Verif.Model.ParseHeap
/-
The blocks the parts of the syntax tree own, and what the functions that free them do to the memory.
-/
namespace Skull.PHeap

open Skull.Spec

/-- Blocks are counted: `c b` is 1 for a block that is there and 0 for one that is not. -/
abbrev Count := Block → Nat

def one (b : Block) : Count := fun x => if x = b then 1 else 0

def Lives (m : Block → Life) (c : Count) : Prop := ∀ b, c b = if m b = .live then 1 else 0

/-- The memory after a log: the blocks that are there are those of `c`, and the numbers from `next` on have not been used. -/
def HoldsAt (evs : List Event) (next : Nat) (c : Count) : Prop :=
  ∃ m, memRun (fun _ => .fresh) evs = some m ∧ Lives m c ∧ ∀ i, next ≤ i → m (.mem i) = .fresh

def Holds (h : HS) (c : Count) : Prop := HoldsAt h.evs h.next c

/-- Events that turn a memory with the blocks of `c` into one with those of `c'`, and allocate nothing. -/
def Runs (es : List Event) (c c' : Count) : Prop :=
  ∀ m, Lives m c → ∃ m', memRun m es = some m' ∧ Lives m' c' ∧ ∀ b, m b = .fresh → m' b = .fresh

theorem memRun_cons (m : Block → Life) (e : Event) (es : List Event) : memRun m (e :: es) = (memStep m e).bind fun m => memRun m es := by
  rw [memRun]
  cases memStep m e <;> rfl

theorem setLife_self (m : Block → Life) (b : Block) (l : Life) : setLife m b l b = l := by simp [setLife]

theorem setLife_ne {m : Block → Life} {b x : Block} {l : Life} (h : x ≠ b) : setLife m b l x = m x := by simp [setLife, h]

theorem memRun_append (es es' : List Event) : ∀ m : Block → Life,
    memRun m (es ++ es') = (memRun m es).bind fun m => memRun m es' := by
  induction es with
  | nil => intro m; rfl
  | cons e es ih =>
    intro m
    rw [List.cons_append, memRun_cons, memRun_cons]
    cases memStep m e with
    | none => rfl
    | some m => exact ih m

theorem Lives.cast {m c c'} (h : Lives m c) (e : ∀ b, c b = c' b) : Lives m c' := fun b => by rw [← e]; exact h b

theorem Runs.nil (c) : Runs [] c c := fun m h => ⟨m, rfl, h, fun _ h => h⟩

theorem Runs.cast {es c c' d d'} (h : Runs es c c') (e : ∀ b, d b = c b) (e' : ∀ b, c' b = d' b) : Runs es d d' := by
  intro m hm
  obtain ⟨m', h1, h2, h3⟩ := h m (hm.cast e)
  exact ⟨m', h1, h2.cast e', h3⟩

theorem Runs.append {es es' c d e} (h : Runs es c d) (h' : Runs es' d e) : Runs (es ++ es') c e := by
  intro m hm
  obtain ⟨m1, h1, h2, h3⟩ := h m hm
  obtain ⟨m2, h4, h5, h6⟩ := h' m1 h2
  exact ⟨m2, by rw [memRun_append, h1]; exact h4, h5, fun b hb => h6 b (h3 b hb)⟩

theorem Runs.use {b : Block} {es c d} (hb : 1 ≤ c b) (h : Runs es c d) : Runs (.use b :: es) c d := by
  intro m hm
  obtain ⟨m', h1, h2, h3⟩ := h m hm
  refine ⟨m', ?_, h2, h3⟩
  have : m b = .live := by
    have := hm b
    by_cases hl : m b = .live
    · exact hl
    · rw [if_neg hl] at this; omega
  rw [memRun_cons]
  simp only [memStep, if_pos this]
  exact h1

theorem Runs.free {b : Block} {es c d} (h : Runs es c d) : Runs (.free b :: es) (fun x => one b x + c x) d := by
  intro m hm
  have hb := hm b
  have hl : m b = .live := by
    by_cases hl : m b = .live
    · exact hl
    · rw [if_neg hl] at hb; simp [one] at hb
  have hm' : Lives (setLife m b .freed) c := by
    intro x
    have hx := hm x
    by_cases e : x = b
    · subst e
      rw [if_pos hl] at hx
      simp [one] at hx
      rw [setLife_self]
      simp [hx]
    · simp only [one, if_neg e, Nat.zero_add] at hx
      rw [setLife_ne e]; exact hx
  obtain ⟨m', h1, h2, h3⟩ := h _ hm'
  refine ⟨m', ?_, h2, ?_⟩
  · rw [memRun_cons]
    simp only [memStep, if_pos hl]
    exact h1
  · intro x hx
    apply h3
    rw [setLife_ne]
    · exact hx
    · rintro rfl; rw [hl] at hx; cases hx

theorem HoldsAt.cast {evs n c c'} (h : HoldsAt evs n c) (e : ∀ b, c b = c' b) : HoldsAt evs n c' := by
  obtain ⟨m, h1, h2, h3⟩ := h
  exact ⟨m, h1, h2.cast e, h3⟩

theorem Holds.cast {h c c'} (hh : Holds h c) (e : ∀ b, c b = c' b) : Holds h c' := HoldsAt.cast hh e

theorem Holds.log {h c c' es} (hh : Holds h c) (r : Runs es c c') : Holds (h.log es) c' := by
  obtain ⟨m, h1, h2, h3⟩ := hh
  obtain ⟨m', h4, h5, h6⟩ := r m h2
  exact ⟨m', by show memRun _ (h.evs ++ es) = _; rw [memRun_append, h1]; exact h4, h5, fun i hi => h6 _ (h3 i hi)⟩

theorem Holds.alloc {h c} (hh : Holds h c) : Holds h.alloc (fun b => one (.mem h.next) b + c b) := by
  obtain ⟨m, h1, h2, h3⟩ := hh
  have hf := h3 h.next (Nat.le_refl _)
  refine ⟨setLife m (.mem h.next) .live, ?_, ?_, ?_⟩
  · show memRun _ (h.evs ++ _) = _
    rw [memRun_append, h1]
    show memRun m _ = _
    rw [memRun_cons]
    simp only [memStep, if_pos hf]
    rfl
  · intro x
    have hx := h2 x
    by_cases e : x = .mem h.next
    · subst e
      rw [if_neg (by rw [hf]; simp)] at hx
      rw [setLife_self]
      simp [one, hx]
    · rw [setLife_ne e]
      simp only [one, if_neg e, Nat.zero_add]; exact hx
  · intro i hi
    have hi' : h.next + 1 ≤ i := hi
    rw [setLife_ne (by simp; omega)]
    exact h3 i (by omega)

theorem Holds.use {h c b} (hh : Holds h c) (hb : 1 ≤ c b) : Holds (h.log [.use b]) c := hh.log (Runs.use hb (Runs.nil _))

@[simp] theorem one_self (b : Block) : one b b = 1 := by simp [one]

mutual
/-- The blocks of an expression. -/
def HExpr.cnt : HExpr → Count
  | .missing => fun _ => 0
  | .ident b _ => one (.mem b)
  | .const b _ _ => one (.mem b)
  | .call b c _ as _ => fun x => one (.mem b) x + one (.mem c) x + as.cnt x
  | .un b _ r => fun x => one (.mem b) x + r.cnt x
  | .bin b _ l r => fun x => one (.mem b) x + l.cnt x + r.cnt x
def HArgs.cnt : HArgs → Count
  | .last b => one (.mem b)
  | .cons b _ e n => fun x => one (.mem b) x + e.cnt x + n.cnt x
end

mutual
/-- The tokens an expression looks at when it is freed are among the first `n`, counted from the end. -/
def HExpr.Within (n : Nat) : HExpr → Prop
  | .missing => True
  | .ident _ _ => True
  | .const _ _ left => 1 ≤ left ∧ left ≤ n
  | .call _ _ _ as _ => as.Within n
  | .un _ _ r => r.Within n
  | .bin _ _ l r => l.Within n ∧ r.Within n
def HArgs.Within (n : Nat) : HArgs → Prop
  | .last _ => True
  | .cons _ _ e r => e.Within n ∧ r.Within n
end

/-- The last `n` tokens are there. -/
def Toks (n : Nat) (c : Count) : Prop := ∀ p, 1 ≤ p → p ≤ n → 1 ≤ c (.tok p)

theorem Toks.add {n c} (h : Toks n c) (d : Count) : Toks n (fun x => d x + c x) := fun p h1 h2 => by
  have := h p h1 h2
  show 1 ≤ d _ + c _
  omega

theorem Toks.mono {n c d} (h : Toks n c) (hd : ∀ b, c b ≤ d b) : Toks n d := fun p h1 h2 => by
  have := h p h1 h2
  have := hd (.tok p)
  omega

theorem le_one (b : Block) : 1 ≤ one b b := by simp

mutual
theorem HExpr.runs_free {n : Nat} : ∀ (e : HExpr) (c : Count), e.Within n → Toks n c → Runs e.free (fun x => e.cnt x + c x) c
  | .missing, c, _, _ => (Runs.nil c).cast (fun b => by simp [HExpr.cnt]) (fun _ => rfl)
  | .ident b _, c, _, _ => by
    refine Runs.use ?_ ((Runs.free (Runs.nil c)).cast (fun _ => rfl) fun _ => rfl)
    simp [HExpr.cnt]
  | .const b _ left, c, hw, ht => by
    refine Runs.use ?_ (Runs.use ?_ ((Runs.free (Runs.nil c)).cast (fun _ => rfl) fun _ => rfl))
    · simp [HExpr.cnt]
    · have := ht left hw.1 hw.2
      show 1 ≤ _ + _
      omega
  | .call b k _ as _, c, hw, ht => by
    have h1 := as.runs_free (fun x => one (.mem b) x + one (.mem k) x + c x) hw (ht.mono fun x => by simp)
    refine Runs.use ?_ (Runs.use ?_ (Runs.append (h1.cast (fun x => ?_) fun _ => rfl) (Runs.use ?_ ((Runs.free (Runs.free (Runs.nil c))).cast (fun x => ?_) fun _ => rfl))))
    · simp only [HExpr.cnt, one_self]; omega
    · simp only [HExpr.cnt, one_self]; omega
    · simp only [HExpr.cnt]; omega
    · simp only [one_self]; omega
    · show _ = one (.mem k) x + (one (.mem b) x + c x)
      omega
  | .un b _ r, c, hw, ht => by
    have h1 := r.runs_free (fun x => one (.mem b) x + c x) hw (ht.mono fun x => by simp)
    refine Runs.use ?_ (Runs.append (h1.cast (fun x => ?_) fun _ => rfl) (Runs.free (Runs.nil c)))
    · simp only [HExpr.cnt, one_self]; omega
    · simp only [HExpr.cnt]; omega
  | .bin b _ l r, c, hw, ht => by
    have h1 := l.runs_free (fun x => one (.mem b) x + (r.cnt x + c x)) hw.1 (ht.mono fun x => by omega)
    have h2 := r.runs_free (fun x => one (.mem b) x + c x) hw.2 (ht.mono fun x => by omega)
    show Runs (_ :: (l.free ++ _ :: r.free ++ _)) _ _
    rw [List.append_assoc]
    refine Runs.use ?_ (Runs.append (h1.cast (fun x => ?_) fun _ => rfl) (Runs.use ?_ (Runs.append (h2.cast (fun x => ?_) fun _ => rfl) (Runs.free (Runs.nil c)))))
    · simp only [HExpr.cnt, one_self]; omega
    · simp only [HExpr.cnt]; omega
    · simp only [one_self]; omega
    · omega
theorem HArgs.runs_free {n : Nat} : ∀ (as : HArgs) (c : Count), as.Within n → Toks n c → Runs as.free (fun x => as.cnt x + c x) c
  | .last b, c, _, _ => by
    refine Runs.use ?_ ((Runs.free (Runs.nil c)).cast (fun _ => rfl) fun _ => rfl)
    simp [HArgs.cnt]
  | .cons b _ e r, c, hw, ht => by
    have h1 := e.runs_free (fun x => one (.mem b) x + (r.cnt x + c x)) hw.1 (ht.mono fun x => by omega)
    have h2 := r.runs_free c hw.2 ht
    refine Runs.use ?_ (Runs.append (h1.cast (fun x => ?_) fun _ => rfl) (Runs.use ?_ (Runs.free h2)))
    · simp only [HArgs.cnt, one_self]; omega
    · simp only [HArgs.cnt]; omega
    · simp only [one_self]; omega
end

/-- What is at an address from `e` down is part of `e`. -/
theorem HExpr.at?_part {p : Option Nat} {n : Nat} : ∀ {e e' : HExpr}, e.at? p = some e' →
    (∃ r : Count, ∀ x, e.cnt x = e'.cnt x + r x) ∧ (e.Within n → e'.Within n) := by
  intro e
  induction e using HExpr.rec (motive_2 := fun _ => True) with
  | un b o r ih =>
    intro e' h
    unfold HExpr.at? at h
    split at h
    · cases h; exact ⟨⟨fun _ => 0, fun _ => rfl⟩, id⟩
    · obtain ⟨⟨d, hd⟩, hw⟩ := ih h
      exact ⟨⟨fun x => one (.mem b) x + d x, fun x => by simp only [HExpr.cnt, hd]; omega⟩, hw⟩
  | bin b o l r ihl ihr =>
    intro e' h
    unfold HExpr.at? at h
    split at h
    · cases h; exact ⟨⟨fun _ => 0, fun _ => rfl⟩, id⟩
    · dsimp only at h
      cases hl : l.at? p with
      | some a =>
        rw [hl] at h
        cases h
        obtain ⟨⟨d, hd⟩, hw⟩ := ihl hl
        exact ⟨⟨fun x => one (.mem b) x + d x + r.cnt x, fun x => by simp only [HExpr.cnt, hd]; omega⟩, fun h => hw h.1⟩
      | none =>
        rw [hl] at h
        obtain ⟨⟨d, hd⟩, hw⟩ := ihr h
        exact ⟨⟨fun x => one (.mem b) x + d x + l.cnt x, fun x => by simp only [HExpr.cnt, hd]; omega⟩, fun h => hw h.2⟩
  | _ =>
    first
    | trivial
    | (intro e' h
       unfold HExpr.at? at h
       split at h
       · cases h; exact ⟨⟨fun _ => 0, fun _ => rfl⟩, id⟩
       · cases h)

theorem HExpr.at?_self (e : HExpr) : e.at? e.block = some e := by
  unfold HExpr.at?
  rw [if_pos rfl]

theorem at?_un {p b o r} (h : ((HExpr.un b o r).at? p).isSome) (r' : HExpr) (hr : (r.at? p).isSome → (r'.at? p).isSome) :
    ((HExpr.un b o r').at? p).isSome := by
  unfold HExpr.at? at h ⊢
  by_cases e : some b = p
  · simp [HExpr.block, e]
  · simp [HExpr.block, e] at h ⊢
    exact hr h

theorem at?_bin {p b o l r} (h : ((HExpr.bin b o l r).at? p).isSome) (r' : HExpr) (hr : (r.at? p).isSome → (r'.at? p).isSome) :
    ((HExpr.bin b o l r').at? p).isSome := by
  unfold HExpr.at? at h ⊢
  by_cases e : some b = p
  · simp [HExpr.block, e]
  · simp [HExpr.block, e] at h ⊢
    rcases h with h | h
    · exact Or.inl h
    · exact Or.inr (hr h)

theorem at?_left {p b o l r} (h : (l.at? p).isSome) : ((HExpr.bin b o l r).at? p).isSome := by
  unfold HExpr.at?
  split
  · rfl
  · dsimp only
    cases hl : l.at? p with
    | some a => rfl
    | none => rw [hl] at h; cases h

/-- The head of an expression stays part of it. -/
theorem attachH_at? {p b o} {cur rhs : HExpr} (h : (cur.at? p).isSome) : ((attachH cur b o rhs).at? p).isSome := by
  unfold attachH
  split
  · cases cur with
    | un b' o' r => exact at?_un h _ fun h => at?_left h
    | bin b' o' l r => exact at?_bin h _ fun h => at?_left h
    | _ => exact at?_left h
  · exact at?_left h

theorem attachH_cnt (cur : HExpr) (b : Nat) (o : Oper) (rhs : HExpr) (x : Block) :
    (attachH cur b o rhs).cnt x = one (.mem b) x + cur.cnt x + rhs.cnt x := by
  unfold attachH
  split
  · cases cur <;> simp only [HExpr.cnt] <;> omega
  · rfl

theorem attachH_within {n} {cur : HExpr} {b : Nat} {o : Oper} {rhs : HExpr} (h1 : cur.Within n) (h2 : rhs.Within n) :
    (attachH cur b o rhs).Within n := by
  unfold attachH
  split
  · cases cur with
    | un b' o' r => exact ⟨h1, h2⟩
    | bin b' o' l r => exact ⟨h1.1, h1.2, h2⟩
    | _ => exact ⟨h1, h2⟩
  · exact ⟨h1, h2⟩

theorem attachH_plain (cur : HExpr) (b : Nat) (o : Oper) (rhs : HExpr) :
    (attachH cur b o rhs).plain = attach cur.plain o rhs.plain := by
  unfold attachH attach
  by_cases h : operToPrecedence cur.plain.oper > operToPrecedence o
  · rw [if_pos h, if_pos h]
    cases cur <;> rfl
  · rw [if_neg h, if_neg h]; rfl

theorem attachH_ne {cur : HExpr} {b : Nat} {o : Oper} {rhs : HExpr} : attachH cur b o rhs ≠ .missing := by
  unfold attachH
  split
  · cases cur <;> simp
  · simp

theorem block_cnt {e : HExpr} {b : Nat} (h : e.block = some b) : 1 ≤ e.cnt (.mem b) := by
  cases e <;> simp only [HExpr.block, Option.some.injEq, reduceCtorEq] at h <;> subst h <;> simp only [HExpr.cnt, one_self] <;> omega

theorem runs_attachLog {cur : HExpr} {b : Nat} {c : Count} (h1 : ∀ x, cur.cnt x ≤ c x) (h2 : 1 ≤ c (.mem b)) :
    Runs (attachLog cur b) c c := by
  unfold attachLog
  split
  · rename_i b' hb
    refine Runs.use ?_ (Runs.use h2 (Runs.nil c))
    have := block_cnt hb
    have := h1 (.mem b')
    omega
  · exact Runs.use h2 (Runs.nil c)

theorem HArgs.snoc_cnt (t : Token) (e : HExpr) (b : Nat) (x : Block) : ∀ as : HArgs, (as.snoc t e b).cnt x = as.cnt x + e.cnt x + one (.mem b) x
  | .last b' => by simp only [HArgs.snoc, HArgs.cnt]
  | .cons b' t' e' n => by simp only [HArgs.snoc, HArgs.cnt, n.snoc_cnt t e b x]; omega

theorem HArgs.snoc_within {n : Nat} {t : Token} {e : HExpr} {b : Nat} (he : e.Within n) : ∀ as : HArgs, as.Within n → (as.snoc t e b).Within n
  | .last _, _ => ⟨he, trivial⟩
  | .cons _ _ _ r, h => ⟨h.1, r.snoc_within he h.2⟩

theorem HArgs.snoc_plain (t : Token) (e : HExpr) (b : Nat) : ∀ as : HArgs, (as.snoc t e b).plain = as.plain.snoc t e.plain
  | .last _ => rfl
  | .cons _ _ _ r => by simp only [HArgs.snoc, HArgs.plain, Args.snoc, r.snoc_plain t e b]

theorem HArgs.lastBlock_cnt : ∀ as : HArgs, 1 ≤ as.cnt (.mem as.lastBlock)
  | .last b => by simp [HArgs.cnt, HArgs.lastBlock]
  | .cons b t e r => by
    have := r.lastBlock_cnt
    simp only [HArgs.cnt, HArgs.lastBlock]
    omega

end Skull.PHeap
