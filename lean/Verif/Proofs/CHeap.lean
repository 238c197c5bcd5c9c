import Verif.Model.CHeap
import Verif.Spec.Checked
/-
The C back end with its memory does what the one without does, and owns what it should.
-/
namespace Skull.CHeap

open Skull.Spec

/- ### Memory -/

/-- The blocks that are live are those of `L`, once each. -/
def Lives (m : Nat → Life) (L : List Nat) : Prop := ∀ b, L.count b = if m b = .live then 1 else 0

def Holds (h : HC) (L : List Nat) : Prop :=
  ∃ m, memRun (fun _ => .fresh) h.evs = some m ∧ Lives m L ∧ ∀ i, h.next ≤ i → m i = .fresh

def Same (L L' : List Nat) : Prop := ∀ b, L.count b = L'.count b

theorem memRun_append (es es' : List Event) : ∀ m : Nat → Life, memRun m (es ++ es') = (memRun m es).bind fun m => memRun m es' := by
  induction es with
  | nil => intro m; rfl
  | cons e es ih =>
    intro m
    rw [List.cons_append, memRun, memRun]
    cases memStep m e with
    | none => rfl
    | some m => exact ih m

theorem Holds.cast {h L L'} (hh : Holds h L) (e : Same L L') : Holds h L' := by
  obtain ⟨m, h1, h2, h3⟩ := hh
  exact ⟨m, h1, fun b => by rw [← e b]; exact h2 b, h3⟩

theorem live_of {m L b} (h : Lives m L) (hb : b ∈ L) : m b = .live := by
  have := h b
  have hc := List.count_pos_iff.2 hb
  by_cases hl : m b = .live
  · exact hl
  · rw [if_neg hl] at this; omega

theorem Holds.uses {h L} (hh : Holds h L) {bs : List Nat} (hb : ∀ b ∈ bs, b ∈ L) : Holds { h with evs := h.evs ++ bs.map .use } L := by
  obtain ⟨m, h1, h2, h3⟩ := hh
  refine ⟨m, ?_, h2, h3⟩
  show memRun _ (h.evs ++ _) = _
  rw [memRun_append, h1]
  show memRun m _ = _
  clear h1
  induction bs with
  | nil => rfl
  | cons b bs ih =>
    rw [List.map_cons, memRun]
    simp only [memStep, if_pos (live_of h2 (hb b (List.mem_cons_self ..)))]
    exact ih fun x hx => hb x (List.mem_cons_of_mem _ hx)

theorem Holds.use {h L} (hh : Holds h L) {b : Nat} (hb : b ∈ L) : Holds { h with evs := h.evs ++ [.use b] } L :=
  hh.uses (bs := [b]) (by simpa using hb)

theorem Holds.free {h L b} (hh : Holds h (b :: L)) : Holds { h with evs := h.evs ++ [.free b] } L := by
  obtain ⟨m, h1, h2, h3⟩ := hh
  have hl := live_of h2 (List.mem_cons_self ..)
  have hlt : b < h.next := by
    rcases Nat.lt_or_ge b h.next with h | h
    · exact h
    · rw [h3 b h] at hl; cases hl
  refine ⟨setLife m b .freed, ?_, ?_, ?_⟩
  · show memRun _ (h.evs ++ _) = _
    rw [memRun_append, h1]
    simp [memRun, memStep, hl]
  · intro x
    have hx := h2 x
    rw [List.count_cons] at hx
    by_cases e : x = b
    · subst e
      simp only [beq_self_eq_true, if_true, hl] at hx
      simp only [setLife, if_true]
      rw [if_neg (by simp)]; omega
    · have e' : (b == x) = false := by simp; exact fun h => e h.symm
      simp only [e', setLife, if_neg e] at hx ⊢
      simpa using hx
  · intro i hi
    have : i ≠ b := by intro e; subst e; exact absurd hi (by show ¬ h.next ≤ _; omega)
    simp only [setLife, if_neg this]
    exact h3 i hi

theorem Holds.alloc {h L} (hh : Holds h L) : Holds { h with next := h.next + 1, evs := h.evs ++ [.alloc h.next] } (h.next :: L) := by
  obtain ⟨m, h1, h2, h3⟩ := hh
  have hf := h3 h.next (Nat.le_refl _)
  refine ⟨setLife m h.next .live, ?_, ?_, ?_⟩
  · show memRun _ (h.evs ++ _) = _
    rw [memRun_append, h1]
    simp [memRun, memStep, hf]
  · intro x
    have hx := h2 x
    rw [List.count_cons]
    by_cases e : x = h.next
    · subst e
      rw [if_neg (by rw [hf]; simp)] at hx
      simp [setLife, hx]
    · have e' : (h.next == x) = false := by simp; exact fun h => e h.symm
      simp only [e', setLife, if_neg e]
      simpa using hx
  · intro i hi
    have hi' : h.next + 1 ≤ i := hi
    simp only [setLife, if_neg (show i ≠ h.next by omega)]
    exact h3 i (by omega)

/- ### Steps -/

/-- The block of `globals`. -/
def globals (h : HC) : List Nat := if h.s.globals.isSome then [h.glob] else []

/-- What the state itself owns. -/
def own (h : HC) : List Nat := 0 :: globals h

/-- A step that only deals with memory: it turns the blocks `pre` into `post`. -/
def Silent (f : HGen α) (Q : α → Prop) (pre : List Nat) (post : α → List Nat) : Prop :=
  ∀ h, ∃ a h', f h = some (a, h') ∧ h'.s = h.s ∧ h'.glob = h.glob ∧ Q a ∧
    ∀ L, Holds h (L ++ pre) → Holds h' (L ++ post a)

/-- The outcomes of a step with memory and of the one without. -/
def Agree (R : α → β → Prop) (keeps : HC → α → Prop) : Option (α × HC) → Option (β × CState) → Prop
  | some (a, h), some (b, s) => R a b ∧ s = h.s ∧ keeps h a
  | none, none => True
  | _, _ => False

/-- `f` does what `g` does, and turns the blocks `pre` into `post`. -/
def Does (f : HGen α) (g : CGen β) (R : α → β → Prop) (pre : List Nat) (post : α → List Nat) : Prop :=
  ∀ h, Agree R (fun h' a => ∀ L, Holds h (L ++ (own h ++ pre)) → Holds h' (L ++ (own h' ++ post a))) (f h) (g h.s)

theorem blocks_some (s : CStr) : blocks (some s) = [s.b] := rfl
theorem blocks_none : blocks none = [] := rfl

/-- Two lists with the same blocks. -/
macro "same" : tactic =>
  `(tactic| (intro x; simp only [List.count_cons, List.count_append, List.count_nil, List.cons_append, List.nil_append, List.append_nil,
    List.append_assoc, blocks_some, blocks_none] <;> omega))

theorem Silent.cast {f : HGen α} {Q pre pre' post post'} (h : Silent f Q pre post) (e : Same pre' pre) (e' : ∀ a, Same (post a) (post' a)) :
    Silent f Q pre' post' := by
  intro h0
  obtain ⟨a, h', h1, h2, h3, h4, h5⟩ := h h0
  refine ⟨a, h', h1, h2, h3, h4, fun L hL => ?_⟩
  refine (h5 L (hL.cast ?_)).cast ?_
  · intro b; rw [List.count_append, List.count_append, e b]
  · intro b; rw [List.count_append, List.count_append, e' a b]

theorem Does.cast {f : HGen α} {g : CGen β} {R pre pre' post post'} (h : Does f g R pre post) (e : Same pre' pre)
    (e' : ∀ a, Same (post a) (post' a)) : Does f g R pre' post' := by
  intro h0
  have := h h0
  revert this
  cases f h0 <;> cases g h0.s
  · exact id
  · exact id
  · exact id
  · rintro ⟨h1, h2, h3⟩
    refine ⟨h1, h2, fun L hL => ?_⟩
    refine (h3 L (hL.cast ?_)).cast ?_
    · intro b; simp only [List.count_append, e b]
    · intro b; simp only [List.count_append, e' _ b]

theorem Does.mono {f : HGen α} {g : CGen β} {R R' pre post} (h : Does f g R pre post) (hr : ∀ a b, R a b → R' a b) : Does f g R' pre post := by
  intro h0
  have := h h0
  revert this
  cases f h0 <;> cases g h0.s
  · exact id
  · exact id
  · exact id
  · rintro ⟨h1, h2, h3⟩
    exact ⟨hr _ _ h1, h2, h3⟩

theorem Does.pure {a : α} {b : β} {R : α → β → Prop} {post} (h : R a b) : Does (Pure.pure a) (Pure.pure b) R (post a) post :=
  fun _ => ⟨h, rfl, fun _ hL => hL⟩

theorem Does.ret {a : α} {b : β} {R : α → β → Prop} {pre post} (h : R a b) (e : Same pre (post a)) : Does (Pure.pure a) (Pure.pure b) R pre post :=
  (Does.pure (post := post) h).cast e fun _ _ => rfl

theorem Silent.does {f : HGen α} {b : β} {Q} {R : α → β → Prop} {pre post} (h : Silent f Q pre post) (hr : ∀ a, Q a → R a b) :
    Does f (Pure.pure b) R pre post := by
  intro h0
  obtain ⟨a, h1, k1, k2, k3, k4, k5⟩ := h h0
  rw [k1]
  refine ⟨hr a k4, k2.symm, fun L hL => ?_⟩
  have ho : own h1 = own h0 := by simp only [own, globals, k2, k3]
  rw [ho, ← List.append_assoc]
  exact k5 _ (by rw [List.append_assoc]; exact hL)

theorem Does.ub {R : α → β → Prop} {pre post} : Does HGen.ub CGen.ub R pre post := fun _ => trivial

theorem Does.bind {f : HGen α} {g : CGen β} {f' : α → HGen γ} {g' : β → CGen δ} {R R' pre mid post} (h : Does f g R pre mid)
    (h' : ∀ a b, R a b → Does (f' a) (g' b) R' (mid a) post) : Does (f >>= f') (g >>= g') R' pre post := by
  intro h0
  have := h h0
  show Agree R' _ (HGen.bind f f' h0) (CGen.bind g g' h0.s)
  unfold HGen.bind CGen.bind
  revert this
  cases hf : f h0 <;> cases hg : g h0.s
  · exact id
  · exact False.elim
  · exact False.elim
  · rename_i x y
    obtain ⟨a, h1⟩ := x
    obtain ⟨b, s1⟩ := y
    rintro ⟨k1, rfl, k3⟩
    have := h' a b k1 h1
    dsimp only
    revert this
    cases f' a h1 <;> cases g' b h1.s
    · exact id
    · exact id
    · exact id
    · rintro ⟨j1, j2, j3⟩
      exact ⟨j1, j2, fun L hL => j3 L (k3 L hL)⟩

theorem Does.silent {f : HGen α} {g : CGen δ} {f' : α → HGen γ} {Q R' pre mid post} (h : Silent f Q pre mid)
    (h' : ∀ a, Q a → Does (f' a) g R' (mid a) post) : Does (f >>= f') g R' pre post := by
  intro h0
  obtain ⟨a, h1, k1, k2, k3, k4, k5⟩ := h h0
  show Agree R' _ (HGen.bind f f' h0) (g h0.s)
  unfold HGen.bind
  rw [k1]
  dsimp only
  have := h' a k4 h1
  rw [k2] at this
  revert this
  have ho : own h1 = own h0 := by simp only [own, globals, k2, k3]
  cases f' a h1 <;> cases g h0.s
  · exact id
  · exact id
  · exact id
  · rintro ⟨j1, j2, j3⟩
    refine ⟨j1, j2, fun L hL => j3 L ?_⟩
    rw [ho, ← List.append_assoc]
    exact k5 _ (by rw [List.append_assoc]; exact hL)

/-- A generator that is given nothing, among other blocks. -/
theorem Does.gen {f : HGen α} {g : CGen β} {f' : α → HGen γ} {g' : β → CGen δ} {R R' pre mid post} (h : Does f g R [] mid)
    (h' : ∀ a b, R a b → Does (f' a) (g' b) R' (mid a ++ pre) post) : Does (f >>= f') (g >>= g') R' pre post := by
  refine Does.bind (mid := fun a => mid a ++ pre) (R := R) ?_ h'
  intro h0
  have := h h0
  revert this
  cases f h0 <;> cases g h0.s
  · exact id
  · exact id
  · exact id
  · rintro ⟨j1, j2, j3⟩
    refine ⟨j1, j2, fun L hL => ?_⟩
    refine (j3 (L ++ pre) (hL.cast ?_)).cast ?_ <;> same

/- ### The steps that there are -/

/-- The text of a string. -/
abbrev Text (s : CStr) (t : List Char) : Prop := s.text = t

theorem strdup_s (text : List Char) (pre : List Nat) : Silent (strdup text) (Text · text) pre (fun s => s.b :: pre) := by
  intro h
  refine ⟨_, _, rfl, rfl, rfl, rfl, fun L hL => ?_⟩
  exact (Holds.alloc hL).cast (by same)

theorem format_s {args : List Nat} (text : List Char) {pre : List Nat} (ha : ∀ b ∈ args, b ∈ pre) :
    Silent (format args text) (Text · text) pre (fun s => s.b :: pre) := by
  intro h
  refine ⟨_, _, rfl, rfl, rfl, rfl, fun L hL => ?_⟩
  exact (Holds.alloc (hL.uses fun b hb => List.mem_append_right _ (ha b hb))).cast (by same)

theorem free_s {s : CStr} {pre post : List Nat} (e : Same pre (s.b :: post)) : Silent (free s) (fun _ => True) pre (fun _ => post) := by
  intro h
  refine ⟨_, _, rfl, rfl, rfl, trivial, fun L hL => ?_⟩
  refine Holds.free (hL.cast ?_)
  intro b
  simp only [List.count_append, e b, List.count_cons]
  omega

theorem freeOpt_s {s : Option CStr} {pre post : List Nat} (e : Same pre (blocks s ++ post)) :
    Silent (freeOpt s) (fun _ => True) pre (fun _ => post) := by
  cases s with
  | some s => exact free_s e
  | none => exact fun h => ⟨(), h, rfl, rfl, rfl, trivial, fun L hL => hL.cast fun b => by
    simp only [List.count_append, e b]; simp [blocks]⟩

theorem uses_s {bs pre : List Nat} (ha : ∀ b ∈ bs, b ∈ pre) : Silent (log (bs.map .use)) (fun _ => True) pre (fun _ => pre) := by
  intro h
  exact ⟨_, _, rfl, rfl, rfl, trivial, fun L hL => hL.uses fun b hb => List.mem_append_right _ (ha b hb)⟩

/-- A step that changes neither memory nor `globals`. -/
theorem lift_d {m : CGen α} {pre : List Nat} (hm : ∀ s a s', m s = some (a, s') → s'.globals = s.globals) :
    Does (lift m) m Eq pre (fun _ => pre) := by
  intro h
  unfold lift
  cases hs : m h.s with
  | none => trivial
  | some x =>
    obtain ⟨a, s'⟩ := x
    refine ⟨rfl, rfl, fun L hL => ?_⟩
    have hg := hm _ _ _ hs
    have ho : own { h with s := s', evs := h.evs ++ [.use 0] } = own h := by simp only [own, globals, hg]
    rw [ho]
    have := hL.use (b := 0) (by simp [own])
    exact this

theorem ofOption_d {o : Option α} {pre : List Nat} : Does (lift (CGen.ofOption o)) (CGen.ofOption o) Eq pre (fun _ => pre) := by
  apply lift_d
  intro s a s' h
  cases o with
  | none => cases h
  | some x => cases h; rfl

theorem modify_d {f : CState → CState} {pre : List Nat} (hf : ∀ s, (f s).globals = s.globals) :
    Does (lift (CGen.modify f)) (CGen.modify f) Eq pre (fun _ => pre) := by
  apply lift_d
  intro s a s' h
  cases h
  exact hf s

theorem formatC_d {o lt ty} {pre : List Nat} : Does (lift (formatC o lt ty)) (formatC o lt ty) Eq pre (fun _ => pre) := by
  apply lift_d
  intro s a s' h
  have hp : ∀ {x : List Char × List Char} {s s'}, (Pure.pure x : CGen _) s = some (a, s') → s'.globals = s.globals := by
    intro x s s' h; cases h; rfl
  have hm : ∀ {x : List Char × List Char} {f : CState → CState}, (CGen.modify f >>= fun _ => Pure.pure x) s = some (a, s') →
      (f s).globals = s.globals → s'.globals = s.globals := by
    intro x f h e; cases h; exact e
  cases o
  case is => exact (if e : lt = .prim .str then by rw [formatC] at h; simp only [e, if_true] at h; exact hm h rfl
    else by rw [formatC] at h; simp only [e, if_false] at h; exact hp h)
  case isnt => exact (if e : lt = .prim .str then by rw [formatC] at h; simp only [e, if_true] at h; exact hm h rfl
    else by rw [formatC] at h; simp only [e, if_false] at h; exact hp h)
  case pow =>
    rw [formatC] at h
    by_cases e : ty = .prim .int
    · simp only [e, if_true] at h; exact hm h rfl
    · simp only [e, if_false] at h
      by_cases e' : ty = .prim .float
      · simp only [e', if_true] at h; exact hm h rfl
      · simp only [e', if_false] at h; cases h
  all_goals (rw [formatC] at h; (first | exact hp h | cases h); all_goals nofun)

theorem state_d {pre : List Nat} : Does state (fun s => some (s, s)) (fun h s => h.s = s) pre (fun _ => pre) := by
  intro h
  refine ⟨rfl, rfl, fun L hL => ?_⟩
  exact hL.use (b := 0) (by simp [own])

/- ### Expressions -/

/-- The texts of more arguments. -/
def moreArgs (as : List (List Char)) : List Char := as.flatMap (", ".toList ++ ·)

theorem joinArgs_cons (a : List Char) (as : List (List Char)) : joinArgs (a :: as) = a ++ moreArgs as := by
  induction as generalizing a with
  | nil => simp [joinArgs, moreArgs]
  | cons b as ih => rw [joinArgs, ih]; simp [moreArgs]; simp

/-- A generator of a string. -/
abbrev Gives (f : HGen CStr) (g : CGen (List Char)) : Prop := Does f g Text [] (fun s => [s.b])

/-- The list of the arguments, if there are any. -/
def IsList : Option CStr → List (List Char) → Prop
  | none, as => [] = as
  | some s, as => s.text = joinArgs as

theorem CGen.assoc {m : CGen α} {f : α → CGen β} {g : β → CGen γ} : (m >>= f) >>= g = m >>= fun a => f a >>= g := by
  funext s
  show CGen.bind (CGen.bind m f) g s = CGen.bind m _ s
  unfold CGen.bind
  cases m s <;> rfl

theorem CGen.pure_bind {a : α} {g : α → CGen γ} : (Pure.pure a : CGen α) >>= g = g a := rfl

mutual

theorem expr_d (cfg : CCfg) : ∀ e : AExpr, Gives (exprH cfg e) (genExprC cfg e)
  | .const t v => by
    rw [exprH, genExprC]
    exact (strdup_s _ []).does fun _ h => h
  | .ident t id ty c => by
    rw [exprH, genExprC]
    refine Does.bind ofOption_d ?_
    rintro v _ rfl
    exact (strdup_s _ []).does fun _ h => h
  | .bin o l r ty c => by
    rw [exprH, genExprC]
    refine Does.bind formatC_d ?_
    rintro f _ rfl
    refine Does.gen (expr_d cfg l) ?_
    rintro lt _ rfl
    refine Does.gen (expr_d cfg r) ?_
    rintro rt _ rfl
    refine Does.silent (format_s _ (by simp)) fun out ho => ?_
    refine Does.silent (free_s (post := [out.b, rt.b]) (by same)) fun _ _ => ?_
    refine Does.silent (free_s (post := [out.b]) (by same)) fun _ _ => ?_
    exact Does.ret ho (by same)
  | .un o r ty c => by
    rw [exprH, genExprC]
    refine Does.bind ofOption_d ?_
    rintro f _ rfl
    refine Does.gen (expr_d cfg r) ?_
    rintro rt _ rfl
    refine Does.silent (format_s _ (by simp)) fun out ho => ?_
    refine Does.silent (free_s (post := [out.b]) (by same)) fun _ _ => ?_
    exact Does.ret ho (by same)
  | .call t args id ty => by
    rw [exprH, genExprC]
    refine Does.bind ofOption_d ?_
    rintro f _ rfl
    refine Does.gen (list_d cfg _ args) ?_
    rintro (_ | list) as ha
    · refine (strdup_s _ []).does fun s h => ?_
      show s.text = _
      rw [h, ← show [] = as from ha]
      simp [joinArgs]
    · refine Does.silent (format_s _ (by simp [blocks])) fun out ho => ?_
      refine Does.silent (free_s (post := [out.b]) (by same)) fun _ _ => ?_
      refine Does.ret ?_ (by same)
      show out.text = _
      rw [ho, show list.text = joinArgs as from ha]

theorem list_d (cfg : CCfg) : ∀ (n : Nat) (args : AArgs), Does (listH cfg n args) (genArgsC cfg n args) IsList [] blocks
  | 0, args => by
    rw [listH, genArgsC]
    exact Does.pure (post := blocks) rfl
  | n + 1, .cons t e next => by
    rw [listH, genArgsC]
    refine Does.gen (expr_d cfg e) ?_
    rintro t _ rfl
    refine Does.bind (args_d cfg n next t) ?_
    rintro list as ha
    refine Does.ret ?_ (by same)
    show list.text = _
    rw [joinArgs_cons, ha]
  | n + 1, .nil => by rw [listH, genArgsC]; exact Does.ub; all_goals (intro _ _ _ h; cases h)
  | n + 1, .unchecked x => by rw [listH, genArgsC]; exact Does.ub; all_goals (intro _ _ _ h; cases h)

theorem args_d (cfg : CCfg) : ∀ (n : Nat) (args : AArgs) (list : CStr), Does (argsH cfg n args list) (genArgsC cfg n args)
    (fun s as => s.text = list.text ++ moreArgs as) [list.b] (fun s => [s.b])
  | 0, args, list => by
    rw [argsH, genArgsC]
    exact Does.ret (show list.text = list.text ++ moreArgs [] by simp [moreArgs]) (by same)
  | n + 1, .cons t e next, list => by
    rw [argsH, genArgsC]
    refine Does.gen (expr_d cfg e) ?_
    rintro t _ rfl
    refine Does.silent (format_s _ (by simp)) fun new hn => ?_
    refine Does.silent (free_s (post := [new.b, t.b]) (by same)) fun _ _ => ?_
    refine Does.silent (free_s (post := [new.b]) (by same)) fun _ _ => ?_
    have := args_d cfg n next new
    intro h
    have := this h
    show Agree _ _ _ (CGen.bind _ _ h.s)
    unfold CGen.bind
    revert this
    cases argsH cfg n next new h <;> cases genArgsC cfg n next h.s
    · exact id
    · exact id
    · exact id
    · rename_i x y
      rintro ⟨j1, j2, j3⟩
      refine ⟨?_, j2, j3⟩
      show x.1.text = _
      rw [j1, hn]
      simp [moreArgs]
  | n + 1, .nil, list => by rw [argsH, genArgsC]; exact Does.ub; all_goals (intro _ _ _ h; cases h)
  | n + 1, .unchecked x, list => by rw [argsH, genArgsC]; exact Does.ub; all_goals (intro _ _ _ h; cases h)

end

/- ### Types and variables -/

theorem type_s (pre : List Nat) : ∀ ty : Ty, Silent (typeH ty) (Text · (typeC ty)) pre (fun s => s.b :: pre)
  | .prim p => by cases p <;> exact strdup_s _ _
  | .ref inner => by
    intro h
    obtain ⟨t, h1, k1, k2, k3, k4, k5⟩ := type_s pre inner h
    refine ⟨⟨h1.next, t.text ++ ['*']⟩, { h1 with
      next := h1.next + 1, evs := h1.evs ++ [.use t.b] ++ [.alloc h1.next] ++ [.free t.b] ++ [.use h1.next] }, ?_, k2, k3, ?_, fun L hL => ?_⟩
    · show HGen.bind (typeH inner) _ h = _
      unfold HGen.bind
      rw [k1]
      rfl
    · show t.text ++ ['*'] = typeC inner ++ ['*']
      rw [show t.text = _ from k4]
    · have a1 := (k5 L hL).use (b := t.b) (by simp)
      have a2 := a1.alloc
      have a3 := Holds.free (b := t.b) (L := h1.next :: (L ++ pre)) (a2.cast (by same))
      have a4 := a3.use (b := h1.next) (by simp)
      exact a4.cast (by same)

theorem appendGlobal_d {args pre : List Nat} (ha : ∀ b ∈ args, b ∈ pre) (text : List Char) :
    Does (appendGlobalH args text) (appendGlobal text) (fun _ _ => True) pre (fun _ => pre) := by
  intro h
  cases hg : h.s.globals with
  | none =>
    have e : appendGlobalH args text h = some ((), { h with
        s := { h.s with globals := some ('\n' :: text) }, glob := h.next, next := h.next + 1
        evs := h.evs ++ [.use 0] ++ args.map .use ++ [.alloc h.next] ++ [.use 0] }) := by
      unfold appendGlobalH
      simp [HGen.bind, Bind.bind, state, format, log, strdup, freeOpt, hg, blocks, Pure.pure]
    rw [e]
    refine ⟨trivial, ?_, fun L hL => ?_⟩
    · simp [hg]
    · have a1 := hL.use (b := 0) (by simp [own])
      have a2 := a1.uses (bs := args) fun b hb => by simp [ha b hb]
      have a3 := a2.alloc.use (b := 0) (by simp [own])
      refine a3.cast ?_
      simp only [own, globals, hg, Option.isSome, if_true, Bool.false_eq_true, if_false]
      same
  | some g =>
    have e : appendGlobalH args text h = some ((), { h with
        s := { h.s with globals := some (g ++ '\n' :: text) }, glob := h.next, next := h.next + 1
        evs := h.evs ++ [.use 0] ++ (h.glob :: args).map .use ++ [.alloc h.next] ++ [.use 0] ++ [.free h.glob] }) := by
      unfold appendGlobalH
      simp [HGen.bind, Bind.bind, state, format, log, strdup, freeOpt, free, hg, blocks]
    rw [e]
    refine ⟨trivial, ?_, fun L hL => ?_⟩
    · simp [hg]
    · have a1 := hL.use (b := 0) (by simp [own])
      have a2 := a1.uses (bs := h.glob :: args) fun b hb => by
        rcases List.mem_cons.1 hb with rfl | hb
        · simp [own, globals, hg]
        · simp [ha b hb]
      have a3 := a2.alloc.use (b := 0) (by simp [own])
      refine (Holds.free (b := h.glob) (a3.cast ?_))
      simp only [own, globals, hg, Option.isSome, if_true]
      same

theorem assign_d (cfg : CCfg) (name : List Char) (e : AExpr) : Gives (assignH cfg name e) (assignC cfg name e) := by
  unfold assignH assignC
  refine Does.gen (expr_d cfg e) ?_
  rintro t _ rfl
  refine Does.silent (format_s _ (by simp)) fun out ho => ?_
  refine Does.silent (free_s (post := [out.b]) (by same)) fun _ _ => ?_
  exact Does.ret ho (by same)

theorem Does.thenPure {f : HGen α} {g : CGen β} {R pre post} {a : γ} {b : δ} {R' : γ → δ → Prop} (h : Does f g R pre fun _ => post) (hr : R' a b) :
    Does (f >>= fun _ => Pure.pure a) (g >>= fun _ => Pure.pure b) R' pre fun _ => post :=
  h.bind fun _ _ _ => Does.ret hr fun _ => rfl

/-- A step that owns something else, followed by a silent one. -/
theorem Does.andThen {f : HGen α} {g : CGen β} {f' : α → HGen γ} {R R' pre mid post} (h : Does f g R pre mid)
    (h' : ∀ a b, R a b → Does (f' a) (Pure.pure b) R' (mid a) post) : Does (f >>= f') g R' pre post := by
  have := Does.bind (g' := fun b => (Pure.pure b : CGen β)) h h'
  have e : (g >>= fun b => Pure.pure b) = g := by
    funext s
    show CGen.bind g _ s = _
    unfold CGen.bind
    cases g s <;> rfl
  rwa [e] at this

theorem constGlobal_d (cfg : CCfg) (v : Variable) (ty : CStr) (ht : ty.text = typeC v.type) (e : AExpr) :
    Does (constGlobalH cfg v ty e) (constGlobalC cfg v e) (fun _ _ => True) [ty.b] (fun _ => [ty.b]) := by
  unfold constGlobalH constGlobalC
  rw [← ht]
  refine Does.gen (expr_d cfg e) ?_
  rintro t _ rfl
  have hf : ∀ x, Does (do appendGlobalH [ty.b, t.b] x; free t) (appendGlobal x) (fun _ _ => True) ([t.b] ++ [ty.b]) (fun _ => [ty.b]) := by
    intro x
    refine Does.andThen (appendGlobal_d (by simp) x) fun _ _ _ => ?_
    exact (free_s (by same)).does fun _ _ => trivial
  split
  · split
    · exact hf _
    · exact Does.ub
  · exact hf _

/-- A string that may not be there. -/
abbrev TextO (s : Option CStr) (t : Option (List Char)) : Prop := s.map (·.text) = t

abbrev GivesO (f : HGen (Option CStr)) (g : CGen (Option (List Char))) : Prop := Does f g TextO [] blocks

theorem globalVar_d (cfg : CCfg) (v : Variable) (ty : CStr) (ht : ty.text = typeC v.type) (e : AExpr) :
    Does (globalVarH cfg v ty e) (globalVarC cfg v e) TextO [ty.b] (fun s => blocks s ++ [ty.b]) := by
  unfold globalVarH globalVarC
  split
  · refine Does.bind (constGlobal_d cfg v ty ht e) fun _ _ _ => ?_
    exact Does.ret rfl (by same)
  · have hf : ∀ x, Does (do appendGlobalH [ty.b] x; let t ← assignH cfg v.name e; pure (some t))
        (do appendGlobal x; let t ← assignC cfg v.name e; pure (some t)) TextO [ty.b] (fun s => blocks s ++ [ty.b]) := by
      intro x
      refine Does.bind (appendGlobal_d (by simp) x) fun _ _ _ => ?_
      refine Does.gen (assign_d cfg v.name e) ?_
      rintro t _ rfl
      exact Does.ret rfl (by same)
    rw [← ht]
    dsimp only
    split
    · exact hf _
    · exact hf _

theorem stackVar_d (cfg : CCfg) (v : Variable) (ty : CStr) (ht : ty.text = typeC v.type) (e : AExpr) :
    Does (stackVarH cfg v ty e) (stackVarC cfg v e) Text [ty.b] (fun s => [s.b, ty.b]) := by
  unfold stackVarH stackVarC
  rw [← ht]
  refine Does.gen (expr_d cfg e) ?_
  rintro t _ rfl
  refine Does.silent (format_s _ (by simp)) fun out ho => ?_
  refine Does.silent (free_s (post := [out.b, ty.b]) (by same)) fun _ _ => ?_
  exact Does.ret ho (by same)

theorem varDef_d (cfg : CCfg) (id : Nat) (e : AExpr) : GivesO (varDefH cfg id e) (varDefC cfg id e) := by
  unfold varDefH varDefC
  refine Does.bind ofOption_d ?_
  rintro v _ rfl
  refine Does.silent (type_s [] v.type) fun ty ht => ?_
  refine Does.bind state_d ?_
  rintro h _ rfl
  split
  · refine Does.andThen (globalVar_d cfg v ty ht e) ?_
    rintro s _ rfl
    refine Does.silent (free_s (post := blocks s) (by same)) fun _ _ => ?_
    exact Does.ret rfl (by same)
  · refine Does.bind (stackVar_d cfg v ty ht e) ?_
    rintro s _ rfl
    refine Does.silent (free_s (post := blocks (some s)) (by same)) fun _ _ => ?_
    exact Does.ret rfl (by same)

/- ### Functions -/

theorem param_d (cfg : CCfg) (id : Nat) : Gives (paramH cfg id) (paramC cfg id) := by
  unfold paramH paramC
  refine Does.bind ofOption_d ?_
  rintro v _ rfl
  refine Does.silent (type_s [] v.type) fun ty ht => ?_
  rw [← show ty.text = typeC v.type from ht]
  refine Does.silent (format_s _ (by simp)) fun out ho => ?_
  refine Does.silent (free_s (post := [out.b]) (by same)) fun _ _ => ?_
  exact Does.ret ho (by same)

theorem moreParams_d (cfg : CCfg) : ∀ (ids : List Nat) (list : CStr), Does (paramsH cfg ids (some list)) (mapGen (paramC cfg) ids)
    (fun s ps => ∃ x, s = some x ∧ x.text = list.text ++ moreArgs ps) [list.b] blocks
  | [], list => by
    rw [paramsH, mapGen]
    exact Does.ret ⟨list, rfl, by simp [moreArgs]⟩ (by same)
  | id :: ids, list => by
    rw [paramsH, mapGen]
    refine Does.gen (param_d cfg id) ?_
    rintro t _ rfl
    dsimp only
    refine Does.silent (format_s _ (by simp)) fun new hn => ?_
    refine Does.silent (free_s (post := [new.b, list.b]) (by same)) fun _ _ => ?_
    refine Does.silent (free_s (post := [new.b]) (by same)) fun _ _ => ?_
    have := moreParams_d cfg ids new
    intro h
    have := this h
    show Agree _ _ _ (CGen.bind _ _ h.s)
    unfold CGen.bind
    revert this
    cases paramsH cfg ids (some new) h <;> cases mapGen (paramC cfg) ids h.s
    · exact fun x => x
    · exact fun x => x
    · exact fun x => x
    · rename_i x y
      rintro ⟨⟨z, hz, j1⟩, j2, j3⟩
      refine ⟨⟨z, hz, ?_⟩, j2, j3⟩
      rw [j1, hn]
      simp [moreArgs]

theorem params_d (cfg : CCfg) (ids : List Nat) : Does (paramsH cfg ids none) (mapGen (paramC cfg) ids)
    (fun s ps => (ids = [] ∧ s = none) ∨ (ids ≠ [] ∧ ∃ x, s = some x ∧ x.text = joinArgs ps)) [] blocks := by
  cases ids with
  | nil =>
    rw [paramsH, mapGen]
    exact Does.ret (.inl ⟨rfl, rfl⟩) (by same)
  | cons id ids =>
    rw [paramsH, mapGen]
    refine Does.gen (param_d cfg id) ?_
    rintro t _ rfl
    dsimp only
    have := moreParams_d cfg ids t
    intro h
    have := this h
    show Agree _ _ _ (CGen.bind _ _ h.s)
    unfold CGen.bind
    revert this
    cases paramsH cfg ids (some t) h <;> cases mapGen (paramC cfg) ids h.s
    · exact fun x => x
    · exact fun x => x
    · exact fun x => x
    · rename_i x y
      rintro ⟨⟨z, hz, j1⟩, j2, j3⟩
      refine ⟨.inr ⟨nofun, z, hz, ?_⟩, j2, j3⟩
      rw [j1, joinArgs_cons]

theorem debug_d (cfg : CCfg) (tok : List Token) (t : CStr) {pre : List Nat} :
    Does (debugH cfg tok t) (debugC cfg tok t.text) Text (t.b :: pre) (fun s => s.b :: pre) := by
  unfold debugH debugC
  cases cfg.debug with
  | none => exact Does.ret rfl (by same)
  | some file =>
    cases tok with
    | nil => exact Does.ub
    | cons k tok =>
      refine Does.silent (format_s _ (by simp)) fun out ho => ?_
      refine Does.silent (free_s (post := out.b :: pre) (by same)) fun _ _ => ?_
      exact Does.ret ho (by same)

theorem notNull_d (t : Option CStr) {pre : List Nat} : Does (notNullH t) (notNull (t.map (·.text))) Text (blocks t ++ pre) (fun s => s.b :: pre) := by
  cases t with
  | none => exact Does.ub
  | some t => exact Does.ret rfl (by same)

theorem freeParams_s {f : Func} {list : Option CStr} (hl : (f.numParams = 0 ∧ list = none) ∨ (f.numParams ≠ 0 ∧ ∃ x, list = some x))
    {pre post : List Nat} (e : Same pre (blocks list ++ post)) : Silent (freeParamsH f list) (fun _ => True) pre (fun _ => post) := by
  rcases hl with ⟨h0, rfl⟩ | ⟨h0, x, rfl⟩
  · have e' : freeParamsH f none = freeOpt none := by
      unfold freeParamsH freeOpt
      rw [if_neg (by simp [h0])]
    rw [e']
    exact freeOpt_s e
  · have e' : freeParamsH f (some x) = freeOpt (some x) := by
      unfold freeParamsH freeOpt
      dsimp only
      rw [if_pos h0]
    rw [e']
    exact freeOpt_s e

/-- The parameters of a function are all there. -/
def FullParams (cfg : CCfg) (id : Nat) (params : List Nat) : Prop := ∀ sym f, cfg.func id = some (sym, f) → params.length = f.numParams

theorem ofOption_some_d {o : Option α} {pre : List Nat} : Does (lift (CGen.ofOption o)) (CGen.ofOption o) (fun a b => a = b ∧ o = some a) pre (fun _ => pre) := by
  intro h
  have := ofOption_d (o := o) (pre := pre) h
  revert this
  cases o with
  | none => exact id
  | some x => rintro ⟨h1, h2, h3⟩; exact ⟨⟨rfl, rfl⟩, h2, h3⟩

theorem prototype_d (cfg : CCfg) (id : Nat) (params : List Nat) (tok : List Token) {body : HGen (Option CStr)} {body' : CGen (Option (List Char))}
    (hb : GivesO body body') (hp : FullParams cfg id params) : Gives (prototypeH cfg id params tok body) (prototypeC cfg id params tok body') := by
  unfold prototypeH prototypeC paramsC
  refine Does.bind ofOption_some_d ?_
  rintro ⟨sym, f⟩ _ ⟨rfl, hf⟩
  have hlen := hp sym f hf
  dsimp only
  rw [CGen.assoc]
  refine Does.bind (params_d cfg _) ?_
  intro list ps hl
  rw [CGen.pure_bind]
  have hl' : (f.numParams = 0 ∧ list = none) ∨ (f.numParams ≠ 0 ∧ ∃ x, list = some x) := by
    rcases hl with ⟨h0, h1⟩ | ⟨h0, x, h1, _⟩
    · refine .inl ⟨?_, h1⟩
      have := congrArg List.length h0
      rw [List.length_take, hlen, Nat.min_self] at this
      exact this
    · refine .inr ⟨fun h => h0 (by rw [h]; rfl), x, h1⟩
  have hps : textOr "void".toList list = if f.numParams = 0 then "void".toList else joinArgs ps := by
    rcases hl' with ⟨h0, rfl⟩ | ⟨h0, x, rfl⟩
    · rw [if_pos h0]; rfl
    · rw [if_neg h0]
      rcases hl with ⟨_, h1⟩ | ⟨_, y, h1, h2⟩
      · cases h1
      · cases h1; exact h2
  refine Does.silent (type_s _ f.returnType) fun ret hr => ?_
  rw [← show ret.text = typeC f.returnType from hr, ← hps]
  clear hps hl hr
  generalize textOr "void".toList list = pt
  by_cases hx : f.isExternal = true
  · rw [if_pos hx, if_pos hx]
    by_cases he : f.isExport = true
    · rw [if_pos he, if_pos he]
      refine Does.silent (format_s _ (by simp)) fun out ho => ?_
      refine Does.silent (free_s (post := out.b :: blocks list) (by same)) fun _ _ => ?_
      refine Does.silent (freeParams_s hl' (post := [out.b]) (by same)) fun _ _ => ?_
      exact Does.ret ho (by same)
    · rw [if_neg he, if_neg he]
      refine Does.silent (format_s _ (by simp)) fun out ho => ?_
      refine Does.silent (free_s (post := out.b :: blocks list) (by same)) fun _ _ => ?_
      refine Does.silent (freeParams_s hl' (post := [out.b]) (by same)) fun _ _ => ?_
      exact Does.ret ho (by same)
  · rw [if_neg hx, if_neg hx]
    have hfwd : Silent (forwardH f (ret.b :: blocks list)
          (ret.text ++ ' ' :: sym.name ++ '(' :: pt ++ [')'] ++ asmName sym.linkageName ++ ";\n".toList))
        (fun s => textOr "static ".toList s =
          if f.isExport then ret.text ++ ' ' :: sym.name ++ '(' :: pt ++ [')'] ++ asmName sym.linkageName ++ ";\n".toList else "static ".toList)
        (ret.b :: blocks list) (fun s => blocks s ++ ret.b :: blocks list) := by
      unfold forwardH
      intro h
      by_cases he : f.isExport = true
      · obtain ⟨a, h', k1, k2, k3, k4, k5⟩ := format_s (args := ret.b :: blocks list)
          (ret.text ++ ' ' :: sym.name ++ '(' :: pt ++ [')'] ++ asmName sym.linkageName ++ ";\n".toList) (pre := ret.b :: blocks list) (by simp) h
        rw [if_pos he]
        refine ⟨some a, h', ?_, k2, k3, ?_, k5⟩
        · show HGen.bind _ _ h = _
          unfold HGen.bind
          rw [k1]
          rfl
        · rw [if_pos he]; exact k4
      · rw [if_neg he]
        refine ⟨none, h, rfl, rfl, rfl, ?_, fun L hL => hL⟩
        rw [if_neg he]; rfl
    refine Does.silent hfwd fun fwd hw => ?_
    rw [← hw]
    clear hw hfwd
    generalize textOr "static ".toList fwd = wt
    refine Does.bind state_d ?_
    rintro h _ rfl
    refine Does.bind (modify_d fun _ => rfl) fun _ _ _ => ?_
    refine Does.gen hb ?_
    rintro tree _ rfl
    refine Does.bind (modify_d fun _ => rfl) fun _ _ _ => ?_
    refine Does.bind (notNull_d tree) ?_
    rintro tree _ rfl
    refine Does.silent (format_s _ (by
      intro b hb'
      simp at hb' ⊢
      rcases hb' with h | h | h | h <;> simp [h])) fun out ho => ?_
    rw [← show out.text = _ from ho]
    refine Does.andThen (debug_d cfg tok out) ?_
    rintro out' _ rfl
    refine Does.silent (free_s (post := out'.b :: (blocks fwd ++ ret.b :: blocks list)) (by same)) fun _ _ => ?_
    refine Does.silent (free_s (post := out'.b :: (blocks fwd ++ blocks list)) (by same)) fun _ _ => ?_
    refine Does.silent (freeOpt_s (post := out'.b :: blocks list) (by same)) fun _ _ => ?_
    refine Does.silent (freeParams_s hl' (post := [out'.b]) (by same)) fun _ _ => ?_
    exact Does.ret rfl (by same)

theorem functionDef_d (cfg : CCfg) (id : Nat) (params : List Nat) (tok : List Token) {body : HGen (Option CStr)} {body' : CGen (Option (List Char))}
    (hb : GivesO body body') (hp : FullParams cfg id params) :
    Does (functionDefH cfg id params tok body) (functionDefC cfg id params tok body') (fun _ _ => True) [] (fun _ => []) := by
  unfold functionDefH functionDefC
  refine Does.bind (prototype_d cfg id params tok hb hp) ?_
  rintro func _ rfl
  intro h
  show Agree _ _ (HGen.bind state _ h) _
  simp only [HGen.bind, state]
  cases hg : h.s.globals with
  | none =>
    refine ⟨trivial, ?_, fun L hL => ?_⟩
    · simp [hg]
    · have a1 := (hL.use (b := 0) (by simp [own])).use (b := 0) (by simp [own])
      refine a1.cast ?_
      simp only [own, globals, hg, Option.isSome, if_true, Bool.false_eq_true, if_false]
      same
  | some g =>
    refine ⟨trivial, ?_, fun L hL => ?_⟩
    · simp [hg]
    · have a1 := hL.use (b := 0) (by simp [own])
      have a2 := a1.uses (bs := [h.glob, func.b]) fun b hb => by
        simp at hb
        rcases hb with rfl | rfl
        · simp [own, globals, hg]
        · simp
      have a3 := a2.alloc.use (b := 0) (by simp [own])
      have a4 := Holds.free (b := h.glob) (L := func.b :: (L ++ [0, h.next])) (a3.cast (by
        simp only [own, globals, hg, Option.isSome, if_true]
        same))
      refine a4.free.cast ?_
      simp only [own, globals, Option.isSome, if_true]
      same

/- ### Statements and trees -/

theorem control_d (cfg : CCfg) (word : List Char) (e : AExpr) {body : HGen (Option CStr)} {body' : CGen (Option (List Char))}
    (hb : GivesO body body') : Gives (controlH cfg word e body) (controlC cfg word e body') := by
  unfold controlH controlC
  refine Does.gen (expr_d cfg e) ?_
  rintro t _ rfl
  refine Does.gen hb ?_
  rintro tree _ rfl
  refine Does.bind state_d ?_
  rintro h _ rfl
  refine Does.bind (notNull_d tree) ?_
  rintro tree _ rfl
  refine Does.silent (format_s _ (by simp)) fun out ho => ?_
  refine Does.silent (free_s (post := [out.b, t.b]) (by same)) fun _ _ => ?_
  refine Does.silent (free_s (post := [out.b]) (by same)) fun _ _ => ?_
  exact Does.ret ho (by same)

theorem plainBlock_d (word : List Char) {body : HGen (Option CStr)} {body' : CGen (Option (List Char))} (hb : GivesO body body') :
    Gives (plainBlockH word body) (plainBlockC word body') := by
  unfold plainBlockH plainBlockC
  refine Does.gen hb ?_
  rintro tree _ rfl
  refine Does.bind state_d ?_
  rintro h _ rfl
  refine Does.bind (notNull_d tree) ?_
  rintro tree _ rfl
  refine Does.silent (format_s _ (by simp)) fun out ho => ?_
  refine Does.silent (free_s (post := [out.b]) (by same)) fun _ _ => ?_
  exact Does.ret ho (by same)

theorem some_d {f : HGen CStr} {g : CGen (List Char)} (h : Gives f g) : GivesO (someH f) (g >>= fun t => Pure.pure (some t)) := by
  unfold someH
  refine Does.bind h ?_
  rintro t _ rfl
  exact Does.ret rfl (by same)

theorem strdup_d (text : List Char) : GivesO (someH (strdup text)) (Pure.pure (some text)) :=
  some_d (g := Pure.pure text) ((strdup_s text []).does fun _ h => h)

theorem stmt_d (cfg : CCfg) (ann : Ann) (stmt : Stmt) (tok : List Token) {body : HGen (Option CStr)} {body' : CGen (Option (List Char))}
    (hb : GivesO body body') (hp : ∀ id params, ann = .func id params → FullParams cfg id params) :
    GivesO (stmtH cfg ann stmt tok body) (genStmtC cfg ann stmt tok body') := by
  have hnone : GivesO (Pure.pure none) (Pure.pure none) := Does.ret rfl (by same)
  have hub : GivesO HGen.ub CGen.ub := Does.ub
  have hline : ∀ (e : AExpr) (a b : List Char), GivesO
      (do let t ← exprH cfg e; let stmt ← format [t.b] (a ++ t.text ++ b); free t; pure (some stmt))
      (do let t ← genExprC cfg e; pure (some (a ++ t ++ b))) := by
    intro e a b
    refine Does.gen (expr_d cfg e) ?_
    rintro t _ rfl
    refine Does.silent (format_s _ (by simp)) fun out ho => ?_
    refine Does.silent (free_s (post := [out.b]) (by same)) fun _ _ => ?_
    exact Does.ret (congrArg some ho) (by same)
  unfold stmtH genStmtC
  cases stmt
  case varDef => cases ann <;> first | exact hub | exact hnone | exact varDef_d _ _ _
  case varAssign =>
    cases ann <;> first | exact hub | skip
    refine Does.bind ofOption_d ?_
    rintro v _ rfl
    exact some_d (assign_d _ _ _)
  case ret => cases ann <;> first | exact hub | exact strdup_d _ | exact hline _ _ _
  case noop => exact strdup_d _
  case expr => cases ann <;> first | exact hub | exact hline _ [] _
  case ifs => cases ann <;> first | exact hub | exact some_d (control_d _ _ _ hb)
  case elifs => cases ann <;> first | exact hub | exact some_d (control_d _ _ _ hb)
  case elses => exact some_d (plainBlock_d _ hb)
  case whiles => cases ann <;> first | exact hub | exact some_d (control_d _ _ _ hb)
  case unreachable => exact strdup_d _
  case funcProto =>
    cases ann <;> first | exact hub | skip
    rename_i id params
    refine Does.bind (functionDef_d cfg id params tok hb (hp _ _ rfl)) fun _ _ _ => ?_
    exact hnone
  case namespaces =>
    cases ann <;> first | exact hub | skip
    refine Does.bind ofOption_d ?_
    rintro v _ rfl
    exact some_d (plainBlock_d _ hb)
  case breaks => exact strdup_d _
  case continues => exact strdup_d _
  all_goals exact hnone

theorem indent_d (cfg : CCfg) (tok : List Token) (t : Option CStr) {pre : List Nat} :
    Does (indentH cfg tok t) (indentC cfg tok (t.map (·.text))) TextO (blocks t ++ pre) (fun s => blocks s ++ pre) := by
  cases t with
  | none => exact Does.ret rfl (by same)
  | some t =>
    unfold indentH indentC
    refine Does.bind state_d ?_
    rintro h _ rfl
    refine Does.silent (format_s _ (by simp [blocks])) fun out ho => ?_
    refine Does.silent (free_s (post := out.b :: pre) (by same)) fun _ _ => ?_
    rw [← show out.text = _ from ho]
    refine Does.bind (debug_d cfg tok out) ?_
    rintro new _ rfl
    exact Does.ret rfl (by same)

theorem join_s (a b : Option CStr) : Silent (joinH a b) (fun s => s.map (·.text) = joinStmts (a.map (·.text)) (b.map (·.text))) (blocks b ++ blocks a) blocks := by
  intro h
  cases a with
  | none =>
    cases b with
    | none => exact ⟨none, h, rfl, rfl, rfl, rfl, fun L hL => hL.cast (by same)⟩
    | some b => exact ⟨some b, h, rfl, rfl, rfl, rfl, fun L hL => hL.cast (by same)⟩
  | some a =>
    cases b with
    | none => exact ⟨some a, h, rfl, rfl, rfl, rfl, fun L hL => hL.cast (by same)⟩
    | some b =>
      refine ⟨_, _, rfl, rfl, rfl, rfl, fun L hL => ?_⟩
      have a1 := hL.uses (bs := [a.b, b.b]) fun x hx => by
        simp at hx
        rcases hx with rfl | rfl <;> simp [blocks]
      have a2 := a1.alloc
      have a3 := Holds.free (b := a.b) (L := b.b :: (L ++ [h.next])) (a2.cast (by same))
      exact a3.free

/-- All functions have the parameters that they should. -/
def FullTree (cfg : CCfg) : ATree → Prop
  | .node ann _ _ child next => (∀ id params, ann = .func id params → FullParams cfg id params) ∧ FullTree cfg child ∧ FullTree cfg next
  | _ => True

theorem nodes_d (cfg : CCfg) : ∀ (t : ATree), FullTree cfg t → ∀ acc : Option CStr,
    Does (nodesH cfg acc t) (genNodesC cfg (acc.map (·.text)) t) TextO (blocks acc) blocks
  | .nil, _, acc => by
    rw [nodesH, genNodesC]
    exact Does.ret rfl (by same)
  | .unchecked _, _, acc => by
    rw [nodesH, genNodesC]
    exact Does.ub
  | .node ann stmt tok child next, hf, acc => by
    obtain ⟨h1, h2, h3⟩ := hf
    rw [nodesH, genNodesC]
    refine Does.gen (stmt_d cfg ann stmt tok ?_ h1) ?_
    · refine Does.bind (modify_d fun _ => rfl) fun _ _ _ => ?_
      refine Does.bind (nodes_d cfg child h2 none) ?_
      rintro t _ rfl
      refine Does.bind (modify_d fun _ => rfl) fun _ _ _ => ?_
      exact Does.ret rfl (by same)
    rintro t _ rfl
    refine Does.bind (indent_d cfg tok t) ?_
    rintro t _ rfl
    refine Does.silent (join_s acc t) fun acc' ha => ?_
    rw [← ha]
    exact nodes_d cfg next h3 acc'

theorem module_d (cfg : CCfg) (t : ATree) (hf : FullTree cfg t) :
    Agree TextO (fun h s => Holds h (own h ++ blocks s)) (moduleH cfg t {}) (genModuleC cfg t) := by
  have hd : Does (moduleH cfg t) (do
      CGen.modify fun s => { s with indent := s.indent + 1 }
      let t ← genNodesC cfg none t
      CGen.modify fun s => { s with indent := s.indent - 1 }
      pure t : CGen (Option (List Char))) TextO [] blocks := by
    unfold moduleH
    refine Does.bind (modify_d fun _ => rfl) fun _ _ _ => ?_
    refine Does.bind (nodes_d cfg t hf none) ?_
    rintro t _ rfl
    refine Does.bind (modify_d fun _ => rfl) fun _ _ _ => ?_
    exact Does.ret rfl (by same)
  have := hd {}
  unfold genModuleC
  revert this
  generalize (do
      CGen.modify fun s => { s with indent := s.indent + 1 }
      let t ← genNodesC cfg none t
      CGen.modify fun s => { s with indent := s.indent - 1 }
      pure t : CGen (Option (List Char))) ({} : HC).s = y
  cases moduleH cfg t {} <;> cases y
  · exact id
  · exact id
  · exact id
  · rintro ⟨k1, k2, k3⟩
    refine ⟨k1, k2, ?_⟩
    refine (k3 [] ⟨_, rfl, ?_, ?_⟩)
    · intro b
      by_cases e : b = 0
      · subst e; simp [own, globals, setLife]
      · have e' : (0 == b) = false := by simp; exact fun h => e h.symm
        simp [own, globals, setLife, e, e', List.count_cons]
    · intro i hi
      have : i ≠ 0 := by intro e; subst e; exact absurd hi (by decide)
      simp [setLife, this]

/- ### Writing and cleaning up -/

theorem write_holds (tree : Option CStr) (h : HC) (hh : Holds h (own h ++ blocks tree)) :
    ∃ h', writeH tree h = some ((), h') ∧ h'.s = h.s ∧ h'.glob = h.glob ∧ Holds h' (own h ++ blocks tree) := by
  refine ⟨{ h with
    next := h.next + 1 + 1
    evs := h.evs ++ [.alloc h.next] ++ [.use h.next] ++ [.free h.next] ++ [.use 0] ++ (globals h).map .use ++ [.alloc (h.next + 1)] ++
      ([0, h.next + 1] ++ blocks tree).map .use ++ [.free (h.next + 1)] }, ?_, rfl, rfl, ?_⟩
  · unfold writeH
    simp [HGen.bind, Bind.bind, state, log, strdup, free, globals]
  · have a1 := hh.alloc.use (b := h.next) (by simp)
    have a2 := a1.free.use (b := 0) (by simp [own])
    have a3 := a2.uses (bs := globals h) fun b hb => by simp [own, hb]
    have a4 := a3.alloc.uses (bs := [0, h.next + 1] ++ blocks tree) fun b hb => by
      simp at hb
      rcases hb with rfl | rfl | hb
      · simp [own]
      · simp
      · simp [hb]
    exact a4.free

theorem cleanup_holds (tree : Option CStr) (h : HC) (hh : Holds h (own h ++ blocks tree)) :
    ∃ h', cleanupH tree h = some ((), h') ∧ Holds h' [] := by
  have a1 := hh.use (b := 0) (by simp [own])
  have a2 : Holds { h with evs := h.evs ++ [.use 0] ++ (if h.s.globals.isSome then [.free h.glob] else []) } (0 :: blocks tree) := by
    unfold own globals at a1
    split at a1
    · rename_i hg
      rw [if_pos hg]
      exact Holds.free (a1.cast (by same))
    · rename_i hg
      rw [if_neg hg]
      simp only [List.append_nil]
      exact a1
  cases tree with
  | none =>
    refine ⟨{ h with evs := h.evs ++ [.use 0] ++ (if h.s.globals.isSome then [.free h.glob] else []) ++ [.use 0] ++ [.free 0] }, ?_, ?_⟩
    · unfold cleanupH
      simp [HGen.bind, Bind.bind, state, log, freeOpt, Pure.pure]
    · exact (a2.use (b := 0) (by simp)).free
  | some t =>
    refine ⟨{ h with evs := h.evs ++ [.use 0] ++ (if h.s.globals.isSome then [.free h.glob] else []) ++ [.free t.b] ++ [.use 0] ++ [.free 0] }, ?_, ?_⟩
    · unfold cleanupH
      simp [HGen.bind, Bind.bind, state, log, freeOpt, free]
    · have a3 := Holds.free (b := t.b) (L := [0]) (a2.cast (by same))
      exact (a3.use (b := 0) (by simp)).free

theorem holds_clean {h : HC} (hh : Holds h []) : MemClean h.evs := by
  obtain ⟨m, h1, h2, _⟩ := hh
  refine ⟨m, h1, fun b hb => ?_⟩
  have := h2 b
  rw [if_pos hb] at this
  simp at this

/-- The back end with its memory does what the one without does, and its log is clean. -/
theorem backend_runs (cfg : CCfg) (t : ATree) (hf : FullTree cfg t) :
    match genModuleC cfg t with
    | some (tree, s) => ∃ evs, backendH cfg t = some (tree, s, evs) ∧ MemClean evs
    | none => backendH cfg t = none := by
  have := module_d cfg t hf
  unfold backendH
  revert this
  cases moduleH cfg t {} <;> cases genModuleC cfg t
  · exact fun _ => rfl
  · exact False.elim
  · exact False.elim
  · rename_i x y
    obtain ⟨tree, h⟩ := x
    obtain ⟨tree', s⟩ := y
    rintro ⟨k1, rfl, k3⟩
    obtain ⟨h1, j1, j2, j3, j4⟩ := write_holds tree h k3
    have ho : own h1 = own h := by simp only [own, globals, j2, j3]
    obtain ⟨h2, i1, i2⟩ := cleanup_holds tree h1 (by rw [ho]; exact j4)
    refine ⟨h2.evs, ?_, holds_clean i2⟩
    show (match HGen.bind (writeH tree) (fun _ => cleanupH tree) h with
      | some (_, h') => some (tree.map (fun x : CStr => x.text), h.s, h'.evs)
      | none => none) = _
    unfold HGen.bind
    rw [j1]
    dsimp only
    rw [i1, show tree.map (·.text) = tree' from k1]

theorem full_of_wt {cfg : CCfg} : ∀ {t : ATree} {loop : Bool} {before : List Stmt}, WtTree cfg.syms loop before t → FullTree cfg t
  | .nil, _, _, _ => trivial
  | .unchecked _, _, _, _ => trivial
  | .node ann stmt tok child next, _, _, .node h1 h2 h3 => by
    refine ⟨?_, full_of_wt h2, full_of_wt h3⟩
    rintro id params rfl sym f hf
    cases h1 with
    | func a1 a2 a3 a4 a5 a6 a7 a8 a9 =>
      unfold CCfg.func at hf
      rw [a1] at hf
      simp only [a2] at hf
      cases hf
      exact a7

end Skull.CHeap
