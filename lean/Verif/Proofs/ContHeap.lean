import Verif.Spec.ContHeap
import Verif.Proofs.CHeap
import Verif.Proofs.Containers
/-
What the containers own (C90).
-/
namespace Skull.ContHeap
open Skull Skull.Spec
open Skull.CHeap (Same)

def Holds (h : Mem) (L : List Nat) : Prop := CHeap.Holds { next := h.next, evs := h.evs } L

/-- The step succeeds, with a result for which `Q` holds, and turns the blocks `pre` into `post`. -/
def Does (f : M α) (Q : α → Prop) (pre : List Nat) (post : α → List Nat) : Prop :=
  ∀ h L, Holds h (L ++ pre) → ∃ a h', f h = some (a, h') ∧ Q a ∧ Holds h' (L ++ post a)

macro "same" : tactic => `(tactic| (intro _; simp only [List.count_append, List.count_cons, List.count_nil]; omega))

theorem Same.rfl' (L : List Nat) : Same L L := fun _ => rfl

theorem Holds.cast {h L L'} (hh : Holds h L) (e : Same L L') : Holds h L' := CHeap.Holds.cast hh e

theorem Does.pure {a : α} {Q : α → Prop} {pre : List Nat} {post : α → List Nat} (hq : Q a) (e : Same pre (post a)) :
    Does (Pure.pure a : M α) Q pre post :=
  fun h L hh => ⟨a, h, rfl, hq, hh.cast (fun b => by have := e b; simp only [List.count_append]; omega)⟩

theorem Does.bind {f : M α} {g : α → M β} {Q : α → Prop} {R : β → Prop} {pre : List Nat} {mid : α → List Nat} {post : β → List Nat}
    (hf : Does f Q pre mid) (hg : ∀ a, Q a → Does (g a) R (mid a) post) : Does (f >>= g) R pre post := by
  intro h L hh
  obtain ⟨a, h', e, q, hh'⟩ := hf h L hh
  obtain ⟨b, h'', e', r, hh''⟩ := hg a q h' L hh'
  refine ⟨b, h'', ?_, r, hh''⟩
  show M.bind f g h = _
  unfold M.bind
  rw [e]
  exact e'

theorem Does.cast {f : M α} {Q : α → Prop} {pre pre' : List Nat} {post post' : α → List Nat} (h : Does f Q pre post) (e : Same pre' pre)
    (e' : ∀ a, Q a → Same (post a) (post' a)) : Does f Q pre' post' := by
  intro m L hh
  obtain ⟨a, m', h1, h2, h3⟩ := h m L (hh.cast fun b => by have := e b; simp only [List.count_append]; omega)
  exact ⟨a, m', h1, h2, h3.cast fun b => by have := e' a h2 b; simp only [List.count_append]; omega⟩

theorem Does.mono {f : M α} {Q Q' : α → Prop} {pre : List Nat} {post : α → List Nat} (h : Does f Q pre post) (hq : ∀ a, Q a → Q' a) :
    Does f Q' pre post := by
  intro m L hh
  obtain ⟨a, m', h1, h2, h3⟩ := h m L hh
  exact ⟨a, m', h1, hq a h2, h3⟩

theorem Does.frame {f : M α} {Q : α → Prop} {pre : List Nat} {post : α → List Nat} (h : Does f Q pre post) (F : List Nat) :
    Does f Q (pre ++ F) (fun a => post a ++ F) := by
  intro m L hh
  obtain ⟨a, m', h1, h2, h3⟩ := h m (L ++ F) (hh.cast (by same))
  exact ⟨a, m', h1, h2, h3.cast (by same)⟩

theorem use_d {b : Nat} {pre : List Nat} (hb : b ∈ pre) : Does (use b) (fun _ => True) pre (fun _ => pre) :=
  fun _ _ hh => ⟨(), _, rfl, trivial, CHeap.Holds.use hh (List.mem_append_right _ hb)⟩

theorem free_d {b : Nat} {pre post : List Nat} (e : Same pre (b :: post)) : Does (free b) (fun _ => True) pre (fun _ => post) :=
  fun _ L hh => ⟨(), _, rfl, trivial, CHeap.Holds.free (b := b) (L := L ++ post)
    (Holds.cast hh fun x => by have := e x; simp only [List.count_append, List.count_cons] at this ⊢; omega)⟩

theorem alloc_d (pre : List Nat) : Does alloc (fun _ => True) pre (fun b => b :: pre) :=
  fun h L hh => ⟨h.next, _, rfl, trivial, Holds.cast (CHeap.Holds.alloc hh) (by same)⟩

theorem option_d {o : Option α} {a : α} (h : o = some a) (pre : List Nat) : Does (ofOption o) (· = a) pre (fun _ => pre) := by
  subst h
  exact .pure rfl (Same.rfl' _)

/- ### Vectors -/

def elemBlocks (h : HVec α) : List Nat := if h.v.elements.isSome then [h.elems] else []

/-- The blocks of a vector itself. -/
def vb (h : HVec α) : List Nat := h.self :: elemBlocks h

/-- The vector stores `l`, and is not frozen. -/
def VOk (h : HVec α) (l : List α) : Prop := VRep h.v l ∧ h.v.frozen = false

theorem self_mem {h : HVec α} {F : List Nat} : h.self ∈ vb h ++ F := by simp [vb]

theorem elems_mem {h : HVec α} {F : List Nat} (he : h.v.elements.isSome = true) : h.elems ∈ vb h ++ F := by simp [vb, elemBlocks, he]

theorem make_d (α : Type) (pre : List Nat) : Does (makeVectorH α) (fun v => VOk v []) pre (fun v => vb v ++ pre) := by
  refine .bind (alloc_d pre) fun b _ => .bind (use_d (by simp)) fun _ _ => .pure ⟨vrep_make, rfl⟩ ?_
  exact Same.rfl' _

theorem elements_d (h : HVec α) (F : List Nat) :
    Does (elementsH h) (fun _ => True) (vb h ++ F) (fun e => h.self :: e :: F) := by
  unfold elementsH
  split
  · rename_i he
    refine .pure trivial ?_
    simp only [vb, elemBlocks, he, if_true]
    same
  · rename_i he
    refine (alloc_d _).cast (Same.rfl' _) fun b _ => ?_
    simp only [vb, elemBlocks, if_neg he]
    same

theorem grow_d (h : HVec α) (e : Nat) (F : List Nat) : Does (growH h e) (fun _ => True) (h.self :: e :: F) (fun e => h.self :: e :: F) := by
  unfold growH
  split
  · refine .bind (free_d (b := e) (post := h.self :: F) (by same)) fun _ _ => (alloc_d _).cast (Same.rfl' _) fun b _ => by same
  · exact .pure trivial (Same.rfl' _)

theorem push_elements {v v' : CVector α} {x : α} (hf : v.frozen = false) (h : vectorPush v x = some v') : v'.elements.isSome = true := by
  unfold vectorPush at h
  rw [hf] at h
  simp only [Bool.false_eq_true, if_false, Option.map_eq_some_iff] at h
  obtain ⟨c, _, rfl⟩ := h
  rfl

theorem push_d {h : HVec α} {l : List α} (hv : VOk h l) (x : α) (F : List Nat) :
    Does (vectorPushH h x) (fun h' => VOk h' (l ++ [x])) (vb h ++ F) (fun h' => vb h' ++ F) := by
  obtain ⟨v', h1, h2, h3⟩ := vrep_push hv.1 hv.2 x
  unfold vectorPushH
  refine .bind (use_d self_mem) fun _ _ => ?_
  rw [hv.2, if_neg (by decide)]
  refine .bind (elements_d h F) fun e _ => .bind (grow_d h e F) fun e _ => .bind (use_d (by simp)) fun _ _ =>
    .bind (option_d h1 _) fun v hv' => ?_
  subst hv'
  refine .bind (use_d (by simp)) fun _ _ => .pure ⟨h2, h3⟩ ?_
  simp only [vb, elemBlocks, push_elements hv.2 h1, if_true]
  same

theorem read_d (h : HVec α) (c : Bool) (F : List Nat) : Does (readElems h c) (fun _ => True) (vb h ++ F) (fun _ => vb h ++ F) := by
  unfold readElems
  split
  · rename_i he
    simp only [Bool.and_eq_true] at he
    exact use_d (elems_mem he.1)
  · exact .pure trivial (Same.rfl' _)

theorem pop_elements {v v' : CVector α} {r : Option α} (h : vectorPop v = some (v', r)) : v'.elements = v.elements := by
  unfold vectorPop at h
  split at h
  · cases h; rfl
  · split at h
    · cases h; rfl
    · simp only [Option.map_eq_some_iff] at h
      obtain ⟨_, _, h⟩ := h
      cases h
      rfl

theorem pop_d {h : HVec α} {l : List α} (hv : VOk h l) (F : List Nat) :
    Does (vectorPopH h) (fun r => VOk r.1 l.dropLast ∧ r.2 = l.getLast?) (vb h ++ F) (fun r => vb r.1 ++ F) := by
  obtain ⟨v', h1, h2, h3⟩ := vrep_pop hv.1 hv.2
  unfold vectorPopH
  refine .bind (use_d self_mem) fun _ _ => .bind (option_d h1 _) fun r hr => ?_
  subst hr
  refine .bind (read_d h _ F) fun _ _ => .pure ⟨⟨h2, h3⟩, rfl⟩ ?_
  simp only [vb, elemBlocks, pop_elements h1]
  exact Same.rfl' _

theorem at_d {h : HVec α} {l : List α} (hv : VOk h l) (i : Nat) (F : List Nat) :
    Does (vectorAtH h i) (fun r => r = l[i]?) (vb h ++ F) (fun _ => vb h ++ F) := by
  unfold vectorAtH
  refine .bind (use_d self_mem) fun _ _ => .bind (option_d (vrep_at hv.1 i) _) fun r hr => ?_
  subst hr
  exact .bind (read_d h _ F) fun _ _ => .pure rfl (Same.rfl' _)

/-- The blocks of a list of elements. -/
def owned (own : α → List Nat) : List α → List Nat
  | [] => []
  | x :: l => own x ++ owned own l

theorem owned_append (own : α → List Nat) : ∀ l l' : List α, owned own (l ++ l') = owned own l ++ owned own l'
  | [], _ => rfl
  | x :: l, l' => by rw [List.cons_append, owned, owned, owned_append own l l', List.append_assoc]

theorem load_of {h : HVec α} {l : List α} (hv : VRep h.v l) {i : Nat} (hi : i < l.length) :
    ∃ cells, h.v.elements = some cells ∧ loadCell cells i = some l[i] := by
  obtain ⟨h1, h2, h3⟩ := hv
  cases he : h.v.elements with
  | none => rw [he] at h3; simp [h3.1] at hi
  | some cells =>
    rw [he] at h3
    refine ⟨cells, rfl, ?_⟩
    unfold loadCell
    rw [h3.2.2 i hi, List.getElem?_eq_getElem hi]
    rfl

theorem each_d {own : α → List Nat} {fn : α → M Unit} (hfn : ∀ x F, Does (fn x) (fun _ => True) (own x ++ F) (fun _ => F)) {h : HVec α}
    {l : List α} (hv : VRep h.v l) (F : List Nat) : ∀ (n i : Nat), i + n = l.length →
    Does (freeEach (some fn) h i n) (fun _ => True) (owned own (l.drop i) ++ (vb h ++ F)) (fun _ => vb h ++ F)
  | 0, i, hi => by
    rw [List.drop_eq_nil_of_le (by omega)]
    exact (use_d (pre := vb h ++ F) self_mem).cast (Same.rfl' _) fun _ _ => Same.rfl' _
  | n + 1, i, hi => by
    have hlt : i < l.length := by omega
    obtain ⟨cells, h1, h2⟩ := load_of hv hlt
    unfold freeEach
    refine .bind (use_d (List.mem_append_right _ self_mem)) fun _ _ => .bind (Q := fun _ => True) (mid := fun _ => owned own (l.drop (i + 1)) ++ (vb h ++ F)) ?_
      fun _ _ => each_d hfn hv F n (i + 1) (by omega)
    unfold freeOne
    simp only [h1, Option.isSome_some, if_true]
    refine .bind (Q := (· = l[i])) (mid := fun _ => owned own (l.drop i) ++ (vb h ++ F)) ?_ fun x hx => ?_
    · unfold elementAt
      rw [h1]
      exact .bind (use_d (List.mem_append_right _ (elems_mem (by rw [h1]; rfl)))) fun _ _ => option_d h2 _
    · subst hx
      rw [List.drop_eq_getElem_cons hlt]
      refine (hfn l[i] (owned own (l.drop (i + 1)) ++ (vb h ++ F))).cast ?_ fun _ _ => Same.rfl' _
      simp only [owned]
      same

theorem none_d (h : HVec α) (F : List Nat) : ∀ (n i : Nat), Does (freeEach none h i n) (fun _ => True) (vb h ++ F) (fun _ => vb h ++ F)
  | 0, _ => use_d self_mem
  | n + 1, i => .bind (use_d self_mem) fun _ _ => .bind (Q := fun _ => True) (.pure trivial (Same.rfl' _)) fun _ _ => none_d h F n (i + 1)

theorem freeElems_d (h : HVec α) (F : List Nat) :
    Does (freeElems h) (fun _ => True) (vb h ++ F) (fun _ => h.self :: ((if h.v.frozen then elemBlocks h else []) ++ F)) := by
  unfold freeElems
  refine .bind (use_d self_mem) fun _ _ => ?_
  cases hf : h.v.frozen <;> cases he : h.v.elements.isSome
  · refine .pure trivial ?_
    simp only [vb, elemBlocks, he]
    exact Same.rfl' _
  · refine free_d ?_
    simp only [vb, elemBlocks, he, if_true]
    simp only [Bool.false_eq_true, if_false]
    same
  · refine .pure trivial ?_
    simp only [vb, elemBlocks, he]
    exact Same.rfl' _
  · refine .pure trivial ?_
    simp only [vb, elemBlocks, he]
    exact Same.rfl' _

theorem freeVector_d {own : α → List Nat} {fn : α → M Unit} (hfn : ∀ x F, Does (fn x) (fun _ => True) (own x ++ F) (fun _ => F)) {h : HVec α}
    {l : List α} (hv : VOk h l) (F : List Nat) : Does (freeVectorH (some fn) h) (fun _ => True) (vb h ++ (owned own l ++ F)) (fun _ => F) := by
  unfold freeVectorH
  have hl : h.v.length = l.length := hv.1.1
  have he := each_d hfn hv.1 F h.v.length 0 (by omega)
  rw [List.drop_zero] at he
  refine .bind (he.cast (by same) fun _ _ => Same.rfl' _) fun _ _ => .bind (freeElems_d h F) fun _ _ => free_d ?_
  rw [hv.2]
  exact Same.rfl' _

/- ### The life of a vector -/

theorem free_own (x : Nat) (F : List Nat) : Does (free x) (fun _ => True) ([x] ++ F) (fun _ => F) := free_d (Same.rfl' _)

theorem owned_self : ∀ l : List Nat, owned (fun x => [x]) l = l
  | [] => rfl
  | x :: l => by rw [owned, owned_self l]; rfl

/-- What a vector stores. -/
def items (h : HVec α) : List α := ((h.v.elements.getD []).take h.v.length).filterMap id

theorem cells_eq : ∀ {cells : List (Option α)} {l : List α}, (∀ i, i < l.length → cells[i]? = some l[i]?) →
    (cells.take l.length).filterMap id = l
  | _, [], _ => by simp
  | [], x :: l, h => by
    have := h 0 (by simp)
    simp at this
  | c :: cells, x :: l, h => by
    have h0 := h 0 (by simp)
    simp only [List.getElem?_cons_zero, Option.some.injEq] at h0
    subst h0
    have ih := cells_eq (cells := cells) (l := l) fun i hi => by
      have := h (i + 1) (by simpa using hi)
      simpa using this
    simp only [List.length_cons, List.take_succ_cons, List.filterMap_cons, id]
    rw [ih]

theorem items_eq {h : HVec α} {l : List α} (hv : VRep h.v l) : items h = l := by
  obtain ⟨h1, _, h3⟩ := hv
  unfold items
  cases he : h.v.elements with
  | none => rw [he] at h3; simp [h3.1]
  | some cells =>
    rw [he] at h3
    rw [h1]
    exact cells_eq h3.2.2

/-- The vector is in order. -/
def Fine (h : HVec α) : Prop := VOk h (items h)

theorem VOk.fine {h : HVec α} {l : List α} (hv : VOk h l) : Fine h ∧ items h = l := by
  have := items_eq hv.1
  exact ⟨by unfold Fine; rw [this]; exact hv, this⟩

theorem stepV_d {v : HVec Nat} (hv : Fine v) (op : VOp) : Does (stepV v op) Fine (vb v ++ items v) (fun v' => vb v' ++ items v') := by
  cases op with
  | push =>
    refine .bind (alloc_d _) fun b _ => ?_
    refine Does.mono (Does.cast (push_d hv b (b :: items v)) (by same) fun v' h' => ?_) fun v' h' => h'.fine.1
    rw [h'.fine.2]
    same
  | pop =>
    refine .bind (pop_d hv (items v)) fun r hr => ?_
    obtain ⟨h1, h2⟩ := hr
    refine .bind (Q := fun _ => True) (mid := fun _ => vb r.1 ++ items r.1) ?_ fun _ _ => .pure h1.fine.1 (Same.rfl' _)
    rw [h1.fine.2, h2]
    cases hl : (items v).getLast? with
    | none =>
      rw [List.getLast?_eq_none_iff] at hl
      rw [hl]
      exact .pure trivial (Same.rfl' _)
    | some b =>
      have : items v = (items v).dropLast ++ [b] := by
        have hne : items v ≠ [] := by intro e; rw [e] at hl; cases hl
        rw [List.getLast?_eq_some_getLast hne] at hl
        rw [← Option.some.inj hl]
        exact (List.dropLast_concat_getLast hne).symm
      refine Does.cast (free_d (b := b) (post := vb r.1 ++ (items v).dropLast) (Same.rfl' _)) ?_ fun _ _ => Same.rfl' _
      intro x
      rw [this]
      simp only [List.dropLast_concat, List.count_append, List.count_cons, List.count_nil]
      omega
  | «at» i =>
    refine .bind (at_d hv i (items v)) fun r hr => ?_
    subst hr
    refine .bind (Q := fun _ => True) (mid := fun _ => vb v ++ items v) ?_ fun _ _ => .pure hv (Same.rfl' _)
    cases hi : (items v)[i]? with
    | none => exact .pure trivial (Same.rfl' _)
    | some b => exact use_d (List.mem_append_right _ (List.mem_of_getElem? hi))

theorem runV_d : ∀ (ops : List VOp) {v : HVec Nat}, Fine v → Does (runV v ops) Fine (vb v ++ items v) (fun v' => vb v' ++ items v')
  | [], _, hv => .pure hv (Same.rfl' _)
  | op :: ops, _, hv => .bind (stepV_d hv op) fun _ h => runV_d ops h

theorem makeV_d : Does (makeVectorH Nat) Fine [] (fun v => vb v ++ items v) :=
  Does.mono (Does.cast (make_d Nat []) (Same.rfl' _) fun v hv => by rw [hv.fine.2]; exact Same.rfl' _) fun _ hv => hv.fine.1

theorem vectorLife_d (ops : List VOp) : Does (vectorLife ops) (fun _ => True) [] (fun _ => []) := by
  refine .bind makeV_d fun v hv => .bind (runV_d ops hv) fun v hv => ?_
  refine (freeVector_d (own := fun x => [x]) free_own hv []).cast ?_ fun _ _ => Same.rfl' _
  rw [owned_self]
  same

theorem frozen_blocks (v : HVec Nat) : (if v.v.elements.isSome then some v.elems else none).toList = (if v.v.elements.isSome then [v.elems] else []) := by
  by_cases h : v.v.elements.isSome = true
  · rw [if_pos h, if_pos h]; rfl
  · rw [if_neg h, if_neg h]; rfl

theorem frozenLife_d (ops : List VOp) : Does (frozenLife ops) (fun _ => True) [] (fun r => r.1.toList ++ r.2) := by
  refine .bind makeV_d fun v hv => .bind (runV_d ops hv) fun v hv => ?_
  refine .bind (Q := fun r => r.1.v.frozen = true ∧ r.2.toList = elemBlocks r.1) (mid := fun r => vb r.1 ++ items v) ?_ fun r hr => ?_
  · refine .bind (use_d self_mem) fun _ _ => .pure ⟨rfl, ?_⟩ (Same.rfl' _)
    exact frozen_blocks v
  · refine .bind (Q := fun _ => True) (mid := fun _ => elemBlocks r.1 ++ items v) ?_ fun _ _ => .pure trivial ?_
    · refine .bind (none_d r.1 (items v) _ 0) fun _ _ => .bind (freeElems_d r.1 (items v)) fun _ _ => free_d ?_
      rw [hr.1, if_pos rfl]
      exact Same.rfl' _
    · rw [← hr.2]
      exact Same.rfl' _

/- ### Tables -/

/-- The blocks of an item and its value. -/
def ib (it : HItem (List Nat)) : List Nat := it.self :: it.data

def slotBlocks : Option (HVec (HItem (List Nat))) → List Nat
  | none => []
  | some v => vb v ++ owned ib (items v)

def slotsBlocks : List (Option (HVec (HItem (List Nat)))) → List Nat
  | [] => []
  | s :: ss => slotBlocks s ++ slotsBlocks ss

def tb (t : HTable (List Nat)) : List Nat := t.self :: slotsBlocks t.slots

def SlotOk (s : Option (HVec (HItem (List Nat)))) : Prop := ∀ v, s = some v → Fine v

/-- The block belongs to a value. -/
def Val (ss : List (Option (HVec (HItem (List Nat))))) (b : Nat) : Prop := ∃ v, some v ∈ ss ∧ ∃ it ∈ items v, b ∈ it.data

/-- All keys are in blocks of values, or in none. -/
def KeysIn (ss : List (Option (HVec (HItem (List Nat))))) : Prop :=
  ∀ v, some v ∈ ss → ∀ it ∈ items v, ∀ b, it.keyB = some b → Val ss b

/-- The table is in order. -/
def TOk (t : HTable (List Nat)) : Prop := t.slots.length = maxSlots ∧ (∀ s ∈ t.slots, SlotOk s) ∧ KeysIn t.slots

theorem mem_set {x y z : β} {l : List β} {i : Nat} (hx : x ∈ l) (hi : l[i]? = some y) : x ∈ l.set i z ∨ x = y := by
  obtain ⟨j, hj⟩ := List.mem_iff_getElem?.1 hx
  by_cases e : j = i
  · subst e
    rw [hj] at hi
    exact .inr (Option.some.inj hi)
  · refine .inl (List.mem_iff_getElem?.2 ⟨j, ?_⟩)
    rw [List.getElem?_set_ne (Ne.symm e)]
    exact hj

theorem slots_split : ∀ {ss : List (Option (HVec (HItem (List Nat))))} {i : Nat} {s}, ss[i]? = some s →
    ∃ rest, Same (slotsBlocks ss) (slotBlocks s ++ rest) ∧ ∀ s', Same (slotsBlocks (ss.set i s')) (slotBlocks s' ++ rest)
  | [], _, _, h => by simp at h
  | s0 :: ss, 0, s, h => by
    simp only [List.getElem?_cons_zero, Option.some.injEq] at h
    subst h
    exact ⟨slotsBlocks ss, Same.rfl' _, fun s' => Same.rfl' _⟩
  | s0 :: ss, i + 1, s, h => by
    simp only [List.getElem?_cons_succ] at h
    obtain ⟨rest, h1, h2⟩ := slots_split h
    refine ⟨slotBlocks s0 ++ rest, ?_, fun s' => ?_⟩
    · intro b
      have := h1 b
      simp only [slotsBlocks, List.count_append] at this ⊢
      omega
    · intro b
      have := h2 s' b
      simp only [List.set_cons_succ, slotsBlocks, List.count_append] at this ⊢
      omega

theorem owned_mem {own : α → List Nat} {b : Nat} : ∀ {l : List α} {x : α}, x ∈ l → b ∈ own x → b ∈ owned own l
  | _ :: _, _, .head _, h => List.mem_append_left _ h
  | _ :: _, _, .tail _ hx, h => List.mem_append_right _ (owned_mem hx h)

theorem slots_mem : ∀ {ss : List (Option (HVec (HItem (List Nat))))} {s} {b : Nat}, s ∈ ss → b ∈ slotBlocks s → b ∈ slotsBlocks ss
  | _ :: _, _, _, .head _, h => List.mem_append_left _ h
  | _ :: _, _, _, .tail _ hx, h => List.mem_append_right _ (slots_mem hx h)

theorem Val.mem {t : HTable (List Nat)} {b : Nat} (h : Val t.slots b) : b ∈ tb t := by
  obtain ⟨v, h1, it, h2, h3⟩ := h
  exact List.mem_cons_of_mem _ (slots_mem h1 (List.mem_append_right _ (owned_mem h2 (by simp [ib, h3]))))

/-- What is stored for a key in a slot. -/
def found (key : List Char) (l : List (HItem (List Nat))) : Option (List Nat) := (l.find? (·.key = key)).map (·.data)

/-- What is stored for a key. -/
def lookup (t : HTable (List Nat)) (key : List Char) : Option (List Nat) :=
  match t.slots[htHashKey key]? with
  | some (some v) => found key (items v)
  | _ => none

theorem useKey_d {k : Option Nat} {pre : List Nat} (h : ∀ b, k = some b → b ∈ pre) : Does (useKey k) (fun _ => True) pre (fun _ => pre) := by
  cases k with
  | none => exact .pure trivial (Same.rfl' _)
  | some b => exact use_d (h b rfl)

theorem found_pos {it : HItem (List Nat)} {key : List Char} {l : List (HItem (List Nat))} (h : it.key = key) : found key (it :: l) = some it.data := by
  simp [found, List.find?_cons, h]

theorem found_neg {it : HItem (List Nat)} {key : List Char} {l : List (HItem (List Nat))} (h : ¬ it.key = key) : found key (it :: l) = found key l := by
  simp [found, List.find?_cons, h]

theorem scan_d {v : HVec (HItem (List Nat))} (hv : Fine v) (key : List Char) {k : Option Nat} {pre F : List Nat}
    (e : Same pre (slotBlocks (some v) ++ F)) (hk : ∀ b, k = some b → b ∈ pre) (hks : ∀ it ∈ items v, ∀ b, it.keyB = some b → b ∈ pre) :
    ∀ (n i : Nat), i + n = (items v).length → Does (scanH v key k i n) (· = found key ((items v).drop i)) pre (fun _ => pre) := by
  have hself : ∀ {b}, b ∈ slotBlocks (some v) → b ∈ pre := fun {b} hb => by
    have := e b
    have hc := List.count_pos_iff.2 (List.mem_append_left F hb)
    exact List.count_pos_iff.1 (by omega)
  have hs : v.self ∈ pre := hself (by simp [slotBlocks, vb])
  intro n
  induction n with
  | zero =>
    intro i hi
    refine .bind (use_d hs) fun _ _ => .pure ?_ (Same.rfl' _)
    rw [List.drop_eq_nil_of_le (by omega)]
    rfl
  | succ n ih =>
    intro i hi
    have hlt : i < (items v).length := by omega
    refine .bind (use_d hs) fun _ _ => ?_
    refine .bind (Q := fun r => r = (items v)[i]?) (mid := fun _ => pre) ?_ fun r hr => ?_
    · refine (at_d hv i (owned ib (items v) ++ F)).cast ?_ fun _ _ => ?_
      · intro b; have := e b; simp only [slotBlocks, List.count_append] at this ⊢; omega
      · intro b; have := e b; simp only [slotBlocks, List.count_append] at this ⊢; omega
    · rw [List.getElem?_eq_getElem hlt] at hr
      subst hr
      have hm : (items v)[i] ∈ items v := List.getElem_mem hlt
      refine .bind (use_d (hself (List.mem_append_right _ (owned_mem hm (by simp [ib]))))) fun _ _ => ?_
      refine .bind (useKey_d (hks _ hm)) fun _ _ => .bind (useKey_d hk) fun _ _ => ?_
      rw [List.drop_eq_getElem_cons hlt]
      by_cases hkey : (items v)[i].key = key
      · rw [if_pos hkey]
        exact .pure (found_pos hkey).symm (Same.rfl' _)
      · rw [if_neg hkey, found_neg hkey]
        exact ih (i + 1) (by omega)

theorem slot_at {t : HTable (List Nat)} (ht : TOk t) (key : List Char) : ∃ s, t.slots[htHashKey key]? = some s ∧ SlotOk s := by
  have hk := htHash_lt key
  have hl : htHashKey key < t.slots.length := by rw [ht.1]; exact hk
  exact ⟨t.slots[htHashKey key], List.getElem?_eq_getElem hl, ht.2.1 _ (List.getElem_mem hl)⟩

theorem get_d {t : HTable (List Nat)} (ht : TOk t) (key : List Char) {k : Option Nat} {F : List Nat} (hk : ∀ b, k = some b → b ∈ tb t ++ F) :
    Does (htGetH t key k) (· = lookup t key) (tb t ++ F) (fun _ => tb t ++ F) := by
  obtain ⟨s, h1, h2⟩ := slot_at ht key
  refine .bind (use_d (by simp [tb])) fun _ _ => .bind (useKey_d hk) fun _ _ => .bind (option_d h1 _) fun s' hs => ?_
  subst hs
  cases s' with
  | none => exact .pure (by simp [lookup, h1]) (Same.rfl' _)
  | some v =>
    have hv := h2 v rfl
    obtain ⟨rest, g1, _⟩ := slots_split h1
    have e : Same (tb t ++ F) (slotBlocks (some v) ++ (t.self :: rest ++ F)) := by
      intro b; have := g1 b; simp only [tb, List.count_append, List.count_cons] at this ⊢; omega
    refine Does.mono (scan_d hv key e hk (fun it hi b hb => List.mem_append_left _ (ht.2.2 v (List.mem_of_getElem? h1) it hi b hb).mem)
      v.v.length 0 (by rw [hv.1.1]; omega)) fun r hr => ?_
    simp only [lookup, h1]
    exact hr

theorem lookup_mem {t : HTable (List Nat)} {key : List Char} {d : List Nat} (h : lookup t key = some d) : ∀ b ∈ d, Val t.slots b := by
  intro b hb
  unfold lookup at h
  split at h
  · rename_i v h1
    unfold found at h
    rw [Option.map_eq_some_iff] at h
    obtain ⟨it, hi, rfl⟩ := h
    exact ⟨v, List.mem_of_getElem? h1, it, List.mem_of_find?_eq_some hi, hb⟩
  · cases h

theorem itemsH_d (t : HTable (List Nat)) {s : Option (HVec (HItem (List Nat)))} (hs : SlotOk s) {F : List Nat} (hf : t.self ∈ F) :
    Does (itemsH t s) (fun v => Fine v ∧ items v = (s.map items).getD []) (slotBlocks s ++ F) (fun v => vb v ++ (owned ib (items v) ++ F)) := by
  cases s with
  | some v => exact .pure ⟨hs v rfl, rfl⟩ (by simp only [slotBlocks]; same)
  | none =>
    refine .bind (make_d (HItem (List Nat)) F) fun v hv => .bind (use_d (List.mem_append_right _ hf)) fun _ _ => .pure ⟨hv.fine.1, hv.fine.2⟩ ?_
    rw [hv.fine.2]
    exact Same.rfl' _

theorem add_d {t : HTable (List Nat)} (ht : TOk t) (key : List Char) {k : Option Nat} (data F : List Nat)
    (hk : ∀ b, k = some b → Val t.slots b ∨ b ∈ data) :
    Does (htAddH t key k data) (fun r => TOk r.1 ∧ r.2 = (lookup t key).isNone ∧ (∀ b, Val t.slots b → Val r.1.slots b) ∧ (r.2 = true → ∀ b ∈ data, Val r.1.slots b))
      (tb t ++ (data ++ F)) (fun r => tb r.1 ++ ((if r.2 then [] else data) ++ F)) := by
  have hk' : ∀ b, k = some b → b ∈ tb t ++ (data ++ F) := fun b hb => by
    rcases hk b hb with h | h
    · exact List.mem_append_left _ h.mem
    · exact List.mem_append_right _ (List.mem_append_left _ h)
  refine .bind (get_d ht key hk') fun r hr => ?_
  cases r with
  | some d => exact .pure ⟨ht, by rw [← hr]; rfl, fun _ h => h, fun h => (by cases h)⟩ (Same.rfl' _)
  | none =>
    obtain ⟨s, h1, h2⟩ := slot_at ht key
    obtain ⟨rest, g1, g2⟩ := slots_split h1
    refine .bind (use_d (by simp [tb])) fun _ _ => .bind (useKey_d hk') fun _ _ => .bind (option_d h1 _) fun s' hs => ?_
    subst hs
    refine .bind (Q := fun v => Fine v ∧ items v = (s'.map items).getD [])
      ((itemsH_d t h2 (F := t.self :: rest ++ (data ++ F)) (by simp)).cast ?_ fun _ _ => Same.rfl' _) fun v hv => ?_
    · intro b; have := g1 b; simp only [tb, List.count_append, List.count_cons] at this ⊢; omega
    · obtain ⟨hv, hi⟩ := hv
      refine .bind (alloc_d _) fun b _ => .bind (use_d (by simp)) fun _ _ => ?_
      refine .bind (Q := fun v' => VOk v' (items v ++ [⟨b, key, k, data⟩]))
        ((push_d hv ⟨b, key, k, data⟩ (b :: (owned ib (items v) ++ (t.self :: rest ++ (data ++ F))))).cast ?_ fun _ _ => Same.rfl' _) fun v' hv' => ?_
      · same
      · have hnew : Same (tb { t with slots := t.slots.set (htHashKey key) (some v') })
            (vb v' ++ (owned ib (items v) ++ (b :: (data ++ (t.self :: rest))))) := by
          intro x
          have := g2 (some v') x
          simp only [tb, slotBlocks, hv'.fine.2, owned_append, owned, ib, List.count_append, List.count_cons, List.count_nil] at this ⊢
          omega
        have hin : some v' ∈ t.slots.set (htHashKey key) (some v') := by
          refine List.mem_set (by rw [ht.1]; exact htHash_lt key) _
        have hdata : ∀ x ∈ data, Val (t.slots.set (htHashKey key) (some v')) x := fun x hx =>
          ⟨v', hin, ⟨b, key, k, data⟩, by rw [hv'.fine.2]; simp, hx⟩
        have hold : ∀ x, Val t.slots x → Val (t.slots.set (htHashKey key) (some v')) x := fun x hx => by
          obtain ⟨w, w1, it, w2, w3⟩ := hx
          rcases mem_set (z := some v') w1 h1 with w1 | w1
          · exact ⟨w, w1, it, w2, w3⟩
          · subst w1
            exact ⟨v', hin, it, by rw [hv'.fine.2, hi]; exact List.mem_append_left _ w2, w3⟩
        refine .pure ⟨⟨by simp [ht.1], fun s hs => ?_, ?_⟩, by rw [← hr]; rfl, hold, fun _ => hdata⟩ ?_
        · rcases List.mem_or_eq_of_mem_set hs with h | h
          · exact ht.2.1 s h
          · subst h
            intro w hw
            cases hw
            exact hv'.fine.1
        · intro w hw it hit x hx
          rcases List.mem_or_eq_of_mem_set hw with h | h
          · exact hold x (ht.2.2 w h it hit x hx)
          · cases h
            rw [hv'.fine.2] at hit
            rcases List.mem_append.1 hit with hit | hit
            · rw [hi] at hit
              cases s' with
              | none => cases hit
              | some w => exact hold x (ht.2.2 w (List.mem_of_getElem? h1) it hit x hx)
            · rw [List.mem_singleton] at hit
              subst hit
              rcases hk x hx with hx | hx
              · exact hold x hx
              · exact hdata x hx
        · intro x
          have := hnew x
          simp only [if_true, List.count_append, List.count_cons, List.count_nil] at this ⊢
          omega

theorem allocs_d : ∀ (n : Nat) (pre : List Nat), Does (allocs n) (fun _ => True) pre (fun bs => bs ++ pre)
  | 0, _ => .pure trivial (Same.rfl' _)
  | n + 1, pre => .bind (alloc_d pre) fun b _ => .bind (allocs_d n _) fun bs _ => .pure trivial (by same)

theorem freeBlocks_d : ∀ (bs F : List Nat), Does (freeBlocks bs) (fun _ => True) (bs ++ F) (fun _ => F)
  | [], _ => .pure trivial (Same.rfl' _)
  | b :: bs, F => .bind (free_d (post := bs ++ F) (Same.rfl' _)) fun _ _ => freeBlocks_d bs F

theorem useBlocks_d : ∀ (bs : List Nat) {pre : List Nat}, (∀ b ∈ bs, b ∈ pre) → Does (useBlocks bs) (fun _ => True) pre (fun _ => pre)
  | [], _, _ => .pure trivial (Same.rfl' _)
  | b :: bs, _, h => .bind (use_d (h b List.mem_cons_self)) fun _ _ => useBlocks_d bs fun x hx => h x (List.mem_cons_of_mem _ hx)

theorem stepT_d {t : HTable (List Nat)} (ht : TOk t) (op : TabOp) : Does (stepT t op) TOk (tb t) (fun t' => tb t') := by
  cases op with
  | add key n k =>
    refine .bind (allocs_d n _) fun bs _ => ?_
    refine .bind ((add_d ht key bs [] fun b hb => .inr (List.mem_of_getElem? hb)).cast (by same) fun _ _ => Same.rfl' _)
      fun r hr => ?_
    refine .bind (Q := fun _ => True) (mid := fun _ => tb r.1) ?_ fun _ _ => .pure hr.1 (Same.rfl' _)
    unfold keepOr
    cases r.2
    · exact (freeBlocks_d bs (tb r.1)).cast (by simp only [Bool.false_eq_true, if_false]; same) fun _ _ => Same.rfl' _
    · exact .pure trivial (by simp only [if_true]; same)
  | get key =>
    refine .bind (alloc_d _) fun b _ => .bind ((get_d ht key (k := some b) (F := [b]) fun x hx => by cases hx; simp).cast (by same) fun _ _ => Same.rfl' _) fun r hr => ?_
    refine .bind (free_d (b := b) (post := tb t) (by same)) fun _ _ => .bind (useBlocks_d _ fun b hb => ?_) fun _ _ => .pure ht (Same.rfl' _)
    cases r with
    | none => cases hb
    | some d => exact (lookup_mem hr.symm b hb).mem

theorem runT_d : ∀ (ops : List TabOp) {t : HTable (List Nat)}, TOk t → Does (runT t ops) TOk (tb t) (fun t' => tb t')
  | [], _, ht => .pure ht (Same.rfl' _)
  | op :: ops, _, ht => .bind (stepT_d ht op) fun _ h => runT_d ops h

theorem makeT_d : Does (makeHtH (List Nat)) TOk [] (fun t => tb t) := by
  refine .bind (alloc_d []) fun b _ => .pure ⟨by simp, fun s hs => ?_, fun v hv => ?_⟩ ?_
  · rw [List.eq_of_mem_replicate hs]
    intro v hv
    cases hv
  · cases List.eq_of_mem_replicate hv
  · have : ∀ n, slotsBlocks (List.replicate n none) = [] := by
      intro n
      induction n with
      | zero => rfl
      | succ n ih => rw [List.replicate_succ, slotsBlocks, ih]; rfl
    simp only [tb, this]
    exact Same.rfl' _

theorem freeItem_d (it : HItem (List Nat)) (F : List Nat) : Does (freeItemH (some freeValue) it) (fun _ => True) (ib it ++ F) (fun _ => F) := by
  refine .bind (Q := fun _ => True) (mid := fun _ => it.self :: F) ?_ fun _ _ => free_d (Same.rfl' _)
  refine .bind (use_d (by simp [ib])) fun _ _ => .bind (useBlocks_d it.data fun b hb => by simp [ib, hb]) fun _ _ => ?_
  exact (freeBlocks_d it.data (it.self :: F)).cast (by simp only [ib]; same) fun _ _ => Same.rfl' _

theorem freeSlots_d (self : Nat) : ∀ (ss : List (Option (HVec (HItem (List Nat))))), (∀ s ∈ ss, SlotOk s) →
    Does (freeSlots (some freeValue) self ss) (fun _ => True) (slotsBlocks ss ++ [self]) (fun _ => [self])
  | [], _ => .pure trivial (Same.rfl' _)
  | s :: ss, h => by
    refine .bind (use_d (by simp)) fun _ _ => .bind (Q := fun _ => True) (mid := fun _ => slotsBlocks ss ++ [self]) ?_
      fun _ _ => freeSlots_d self ss fun x hx => h x (List.mem_cons_of_mem _ hx)
    cases s with
    | none => exact .pure trivial (Same.rfl' _)
    | some v =>
      refine (freeVector_d freeItem_d (h _ List.mem_cons_self v rfl) (slotsBlocks ss ++ [self])).cast ?_ fun _ _ => Same.rfl' _
      simp only [slotsBlocks, slotBlocks]
      same

theorem freeHt_d {t : HTable (List Nat)} (ht : TOk t) : Does (freeHtH (some freeValue) t) (fun _ => True) (tb t) (fun _ => []) := by
  refine .bind ((freeSlots_d t.self t.slots ht.2.1).cast ?_ fun _ _ => Same.rfl' _) fun _ _ => free_d (Same.rfl' _)
  simp only [tb]
  same

theorem tableLife_d (ops : List TabOp) : Does (tableLife ops) (fun _ => True) [] (fun _ => []) :=
  .bind makeT_d fun _ ht => .bind (runT_d ops ht) fun _ ht => freeHt_d ht

/- ### Types of references -/

def rb (st : HTypes) : List Nat :=
  match st.refs with
  | none => []
  | some t => tb t

/-- The types and their table are in order. -/
def ROk (st : HTypes) : Prop :=
  (∀ t, st.refs = some t → TOk t) ∧ ∀ ty ∈ st.types, ∃ t, st.refs = some t ∧ Val t.slots ty.self ∧ Val t.slots ty.nameB

theorem refs_d {st : HTypes} (h : ROk st) :
    Does (refsH st.refs) (fun t => TOk t ∧ ∀ ty ∈ st.types, Val t.slots ty.self ∧ Val t.slots ty.nameB) (rb st) tb := by
  obtain ⟨h1, h2⟩ := h
  unfold rb
  cases hr : st.refs with
  | none =>
    refine Does.mono makeT_d fun t ht => ⟨ht, fun ty hty => ?_⟩
    obtain ⟨t', g, _⟩ := h2 ty hty
    rw [hr] at g
    cases g
  | some t =>
    refine .pure ⟨h1 t hr, fun ty hty => ?_⟩ (Same.rfl' _)
    obtain ⟨t', g, g'⟩ := h2 ty hty
    rw [hr] at g
    cases g
    exact g'

theorem newRef_d {types : List HType} {t : HTable (List Nat)} (ht : TOk t) (hty : ∀ ty ∈ types, Val t.slots ty.self ∧ Val t.slots ty.nameB)
    {name : List Char} {k : Option Nat} (hk : ∀ b, k = some b → Val t.slots b) (hn : lookup t name = none) :
    Does (newRefH types t name k) ROk (tb t) rb := by
  refine .bind (useKey_d fun b hb => (hk b hb).mem) fun _ _ => .bind (alloc_d _) fun nb _ => .bind (use_d (by simp)) fun _ _ => ?_
  refine .bind (useKey_d fun b hb => List.mem_cons_of_mem _ (hk b hb).mem) fun _ _ => .bind (alloc_d _) fun b _ => .bind (use_d (by simp)) fun _ _ => ?_
  refine .bind ((add_d ht name [nb, b] [] fun x hx => .inl (hk x hx)).cast (by same) fun _ _ => Same.rfl' _) fun r hr => ?_
  obtain ⟨g1, g2, g3, g4⟩ := hr
  rw [hn] at g2
  refine .pure ⟨fun t' h' => ?_, fun ty h' => ?_⟩ ?_
  · cases h'
    exact g1
  · rcases List.mem_append.1 h' with h' | h'
    · exact ⟨_, rfl, g3 _ (hty ty h').1, g3 _ (hty ty h').2⟩
    · rw [List.mem_singleton] at h'
      subst h'
      exact ⟨_, rfl, g4 g2 _ (by simp), g4 g2 _ (by simp)⟩
  · rw [g2]
    simp only [rb, Option.isNone_none, if_true]
    same

theorem getRef_d {st : HTypes} (h : ROk st) (ty : Prim ⊕ HType) (hty : ∀ t, ty = .inr t → t ∈ st.types) : Does (getRefH st ty) ROk (rb st) rb := by
  refine .bind (refs_d h) fun t ht => ?_
  obtain ⟨ht, hts⟩ := ht
  refine .bind (Q := fun r => ∀ b, r.2 = some b → Val t.slots b) (mid := fun _ => tb t) ?_ fun r hr => ?_
  · cases ty with
    | inl p => exact .pure (fun b hb => by cases hb) (Same.rfl' _)
    | inr u =>
      have := hts u (hty u rfl)
      exact .bind (use_d this.1.mem) fun _ _ => .pure (fun b hb => by cases hb; exact this.2) (Same.rfl' _)
  · refine .bind (Q := (· = lookup t r.1)) (mid := fun _ => tb t)
      ((get_d ht r.1 (F := []) (k := r.2) fun b hb => List.mem_append_left _ (hr b hb).mem).cast (by same) fun _ _ => (by same)) fun d hd => ?_
    cases d with
    | none => exact newRef_d ht hts hr hd.symm
    | some d =>
      refine .bind (useBlocks_d d fun b hb => (lookup_mem hd.symm b hb).mem) fun _ _ => .pure ⟨fun t' h' => ?_, fun ty h => ⟨t, rfl, hts ty h⟩⟩ (Same.rfl' _)
      cases h'
      exact ht

theorem runR_d : ∀ (ops : List RefOp) {st : HTypes}, ROk st → Does (runR st ops) ROk (rb st) rb
  | [], _, h => .pure h (Same.rfl' _)
  | op :: ops, st, h => by
    refine .bind ?_ fun _ h => runR_d ops h
    cases op with
    | toPrim p => exact getRef_d h _ fun t ht => by cases ht
    | toRef i =>
      show Does (match st.types[i]? with
        | some t => getRefH st (.inr t)
        | none => pure st) _ _ _
      cases hu : st.types[i]? with
      | none => exact .pure h (Same.rfl' _)
      | some u => exact getRef_d h _ fun t ht => (by cases ht; exact List.mem_of_getElem? hu)

theorem typesLife_d (ops : List RefOp) : Does (typesLife ops) (fun _ => True) [] (fun _ => []) := by
  refine .bind (runR_d ops (st := {}) ⟨fun t ht => (by cases ht), fun ty h => (by cases h)⟩) fun st h => ?_
  refine .bind (useBlocks_d _ fun b hb => ?_) fun _ _ => .bind (Q := fun _ => True) (mid := fun _ => []) ?_ fun _ _ => .pure trivial (Same.rfl' _)
  · obtain ⟨ty, h1, h2⟩ := List.mem_flatMap.1 hb
    obtain ⟨t, g1, g2, g3⟩ := h.2 ty h1
    unfold rb
    rw [g1]
    simp only [List.mem_cons, List.not_mem_nil, or_false] at h2
    rcases h2 with h2 | h2 <;> rw [h2]
    · exact g2.mem
    · exact g3.mem
  · unfold freeRefsH rb
    cases hr : st.refs with
    | none => exact .pure trivial (Same.rfl' _)
    | some t => exact freeHt_d (h.1 t hr)

end Skull.ContHeap
