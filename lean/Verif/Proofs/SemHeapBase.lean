import Verif.Model.SemHeap
import Verif.Proofs.SemMild
import Verif.Proofs.Containers
/-
The invariants behind the memory of the semantic check: the scopes form a tree, every symbol is in one table, and what is allocated is
what the state has.
-/
namespace Skull.SemHeap

open Skull.Heap
open Skull.Spec (MemEvent Life memRun memStep setLife)

/- ### Events -/

abbrev Lives := Block → Life

theorem memRun_append (m : Lives) (es es' : List Event) :
    memRun m (es ++ es') = (memRun m es).bind (memRun · es') := by
  induction es generalizing m with
  | nil => rfl
  | cons e es ih =>
    simp only [List.cons_append, memRun]
    cases memStep m e with
    | none => rfl
    | some m' => exact ih m'

/-- The log ends with the blocks in the lives `m`. -/
def Run (evs : List Event) (m : Lives) : Prop := memRun (fun _ => .fresh) evs = some m

theorem Run.append {evs es : List Event} {m m' : Lives} (h : Run evs m) (h' : memRun m es = some m') : Run (evs ++ es) m' := by
  unfold Run
  rw [memRun_append, h]
  exact h'

theorem run_alloc {m : Lives} {b : Block} {es : List Event} (h : m b = .fresh) :
    memRun m (.alloc b :: es) = memRun (setLife m b .live) es := by
  simp only [memRun, memStep, if_pos h]

theorem run_use {m : Lives} {b : Block} {es : List Event} (h : m b = .live) : memRun m (.use b :: es) = memRun m es := by
  simp only [memRun, memStep, if_pos h]

theorem run_free {m : Lives} {b : Block} {es : List Event} (h : m b = .live) :
    memRun m (.free b :: es) = memRun (setLife m b .freed) es := by
  simp only [memRun, memStep, if_pos h]

theorem setLife_same (m : Lives) (b : Block) (l : Life) : setLife m b l b = l := if_pos rfl
theorem setLife_ne {m : Lives} {b c : Block} {l : Life} (h : c ≠ b) : setLife m b l c = m c := if_neg h

/- ### What the state owns -/

def Shape.hasLink : Shape → Bool
  | .var e => e
  | .func e _ => e
  | .plain => false

def Shape.hasData : Shape → Bool
  | .var _ => true
  | .func _ _ => true
  | .plain => false

def Shape.hasTypes : Shape → Bool
  | .func _ t => t
  | _ => false

/-- The blocks of a state. -/
def owns (shapes : List Shape) (scopes : List Scope) : Block → Bool
  | .state => true
  | .sym j => (shapes[j]?).isSome
  | .name j => (shapes[j]?).isSome
  | .link j => (shapes[j]?).any Shape.hasLink
  | .data j => (shapes[j]?).any Shape.hasData
  | .types j => (shapes[j]?).any Shape.hasTypes
  | .scope i => decide (i < scopes.length)
  | .table i => (scopes[i]?.bind Scope.symbols).isSome

def shapes (s : SS) : List Shape := s.syms.map shape

def lifeB (o : Bool) : Life := if o then .live else .fresh

/-- Everything the state has is allocated, and nothing else has ever been. -/
def lifeOf (s : SS) : Lives := fun b => lifeB (owns (shapes s) s.scopes b)

theorem lifeOf_same {s s' : SS} (h : Same s s') : lifeOf s' = lifeOf s := by
  unfold lifeOf shapes
  rw [h.syms, h.scopes]

/- ### Tables -/

/-- A table as `ht_add` makes it. -/
def GoodHt (ht : HashTable Nat) : Prop := ht.slots.length = maxSlots ∧ ∀ slot ∈ ht.slots, ∃ l, SlotRep slot l

theorem vectorItems_rep {v : CVector α} {l : List α} (h : VRep v l) (i n : Nat) (hn : i + n = l.length) :
    vectorItems v i n = some (l.drop i) := by
  induction n generalizing i with
  | zero => rw [List.drop_eq_nil_of_le (by omega)]; rfl
  | succ n ih =>
    unfold vectorItems
    have hx : l[i]? = some l[i] := List.getElem?_eq_getElem (by omega)
    rw [vrep_at h, hx, List.drop_eq_getElem_cons (by omega)]
    show (vectorItems v (i + 1) n).map _ = _
    rw [ih (i + 1) (by omega)]
    rfl

theorem slotItems_cons {slot : Option (CVector (HashItem Nat))} {l : List (HashItem Nat)} (h : SlotRep slot l)
    (slots : List (Option (CVector (HashItem Nat)))) :
    slotItems (slot :: slots) = (slotItems slots).map (l.map HashItem.data ++ ·) := by
  cases slot with
  | none =>
    have : l = [] := h
    subst this
    show slotItems slots = _
    cases slotItems slots <;> rfl
  | some v =>
    obtain ⟨h, -⟩ := h
    show (match vectorItems v 0 v.length, slotItems slots with
      | some xs, some ys => some (xs.map HashItem.data ++ ys)
      | _, _ => none) = _
    rw [h.1, vectorItems_rep h 0 l.length (by omega)]
    cases slotItems slots <;> rfl

theorem slotItems_good {slots : List (Option (CVector (HashItem Nat)))} (h : ∀ slot ∈ slots, ∃ l, SlotRep slot l) :
    ∃ ids, slotItems slots = some ids := by
  induction slots with
  | nil => exact ⟨_, rfl⟩
  | cons slot slots ih =>
    obtain ⟨ids, hi⟩ := ih fun s hs => h s (List.mem_cons_of_mem _ hs)
    obtain ⟨l, hl⟩ := h slot List.mem_cons_self
    rw [slotItems_cons hl, hi]
    exact ⟨_, rfl⟩

theorem slotItems_set {slots : List (Option (CVector (HashItem Nat)))} (h : ∀ slot ∈ slots, ∃ l, SlotRep slot l)
    {k : Nat} {slot slot' : Option (CVector (HashItem Nat))} {l : List (HashItem Nat)} {x : HashItem Nat}
    (hk : slots[k]? = some slot) (hl : SlotRep slot l) (hl' : SlotRep slot' (l ++ [x])) {ids : List Nat}
    (hi : slotItems slots = some ids) : ∃ ids', slotItems (slots.set k slot') = some ids' ∧ ids'.Perm (x.data :: ids) := by
  induction slots generalizing k ids with
  | nil => simp at hk
  | cons a slots ih =>
    have hrest : ∀ slot ∈ slots, ∃ l, SlotRep slot l := fun s hs => h s (List.mem_cons_of_mem _ hs)
    obtain ⟨rest, hr⟩ := slotItems_good hrest
    cases k with
    | zero =>
      simp only [List.getElem?_cons_zero, Option.some.injEq] at hk
      subst hk
      rw [slotItems_cons hl, hr] at hi
      cases hi
      refine ⟨(l ++ [x]).map HashItem.data ++ rest, ?_, ?_⟩
      · rw [List.set_cons_zero, slotItems_cons hl', hr]; rfl
      · rw [List.map_append, List.append_assoc]
        exact List.perm_middle
    | succ k =>
      simp only [List.getElem?_cons_succ] at hk
      obtain ⟨la, hla⟩ := h a List.mem_cons_self
      rw [slotItems_cons hla, hr] at hi
      cases hi
      obtain ⟨ids', h1, h2⟩ := ih hrest hk hr
      refine ⟨la.map HashItem.data ++ ids', ?_, ?_⟩
      · rw [List.set_cons_succ, slotItems_cons hla, h1]; rfl
      · exact (h2.append_left _).trans List.perm_middle

/-- The symbols in a table. -/
def idsOf : Option (HashTable Nat) → List Nat
  | none => []
  | some ht => (slotItems ht.slots).getD []

theorem goodHt_make : GoodHt (makeHt Nat) := by
  refine ⟨by simp [makeHt], fun slot hs => ⟨[], ?_⟩⟩
  rw [(List.mem_replicate.mp hs).2]
  rfl

theorem idsOf_make : idsOf (some (makeHt Nat)) = [] := by decide

theorem htGet_good {ht : HashTable Nat} (h : GoodHt ht) (k : List Char) : ∃ r, htGet (some ht) k = some r := by
  have hk := htHash_lt k
  have hlt : htHashKey k < ht.slots.length := by rw [h.1]; exact hk
  have hx : ht.slots[htHashKey k]? = some ht.slots[htHashKey k] := List.getElem?_eq_getElem hlt
  obtain ⟨l, hl⟩ := h.2 _ (List.mem_of_getElem? hx)
  simp only [htGet, hx]
  cases hs : ht.slots[htHashKey k] with
  | none => exact ⟨_, rfl⟩
  | some v =>
    rw [hs] at hl
    simp only [SlotRep] at hl
    exact ⟨_, htScan_eq hl.1 k v.length 0 (by rw [hl.1.1]; omega)⟩

theorem htAdd_good {ht : HashTable Nat} (h : GoodHt ht) (k : List Char) (x : Nat) :
    htAdd (some ht) k (some x) = some (some ht, false) ∨
      ∃ ht', htAdd (some ht) k (some x) = some (some ht', true) ∧ GoodHt ht' ∧
        (idsOf (some ht')).Perm (x :: idsOf (some ht)) := by
  obtain ⟨r, hg⟩ := htGet_good h k
  cases r with
  | some y => exact .inl (by simp [htAdd, hg])
  | none =>
    right
    have hk := htHash_lt k
    have hlt : htHashKey k < ht.slots.length := by rw [h.1]; exact hk
    have hx : ht.slots[htHashKey k]? = some ht.slots[htHashKey k] := List.getElem?_eq_getElem hlt
    obtain ⟨l, hl⟩ := h.2 _ (List.mem_of_getElem? hx)
    have hr := slotRep_items hl
    obtain ⟨v', hp, hv', hfz⟩ := vrep_push hr.1 hr.2 (⟨k, x⟩ : HashItem Nat)
    have hrep' : SlotRep (some v') (l ++ [⟨k, x⟩]) := ⟨hv', hfz⟩
    refine ⟨⟨ht.slots.set (htHashKey k) (some v')⟩, by simp [htAdd, hg, hx, hp], ⟨by simp [h.1], ?_⟩, ?_⟩
    · intro slot hs
      rcases List.mem_or_eq_of_mem_set hs with hs | rfl
      · exact h.2 _ hs
      · exact ⟨_, hrep'⟩
    · obtain ⟨ids, hi⟩ := slotItems_good h.2
      obtain ⟨ids', h1, h2⟩ := slotItems_set h.2 hx hl hrep' hi
      simp only [idsOf, hi, h1, Option.getD_some]
      exact h2

/-- The symbols in all tables. -/
def allIds (scopes : List Scope) : List Nat := scopes.flatMap fun sc => idsOf sc.symbols

theorem allIds_append (a b : List Scope) : allIds (a ++ b) = allIds a ++ allIds b := List.flatMap_append

theorem allIds_set {scopes : List Scope} {i : Nat} {sc sc' : Scope} (h : scopes[i]? = some sc) {x : Nat}
    (hp : (idsOf sc'.symbols).Perm (x :: idsOf sc.symbols)) : (allIds (scopes.set i sc')).Perm (x :: allIds scopes) := by
  induction scopes generalizing i with
  | nil => simp at h
  | cons a rest ih =>
    cases i with
    | zero =>
      simp only [List.getElem?_cons_zero, Option.some.injEq] at h
      subst h
      exact hp.append_right _
    | succ i =>
      simp only [List.getElem?_cons_succ] at h
      exact ((ih h).append_left (idsOf a.symbols)).trans List.perm_middle

theorem allIds_set_same {scopes : List Scope} {i : Nat} {sc sc' : Scope} (h : scopes[i]? = some sc)
    (hp : idsOf sc'.symbols = idsOf sc.symbols) : allIds (scopes.set i sc') = allIds scopes := by
  induction scopes generalizing i with
  | nil => simp at h
  | cons a rest ih =>
    cases i with
    | zero =>
      simp only [List.getElem?_cons_zero, Option.some.injEq] at h
      subst h
      show idsOf sc'.symbols ++ _ = _
      rw [hp]
      rfl
    | succ i =>
      simp only [List.getElem?_cons_succ] at h
      show idsOf a.symbols ++ allIds (rest.set i sc') = _
      rw [ih h]
      rfl

/- ### The tree of scopes -/

/-- The pointer to a child, or to the scope behind. -/
def link (k : Bool) (sc : Scope) : Option Nat := if k then sc.child else sc.next

def Edge (scopes : List Scope) (i : Nat) (k : Bool) (x : Nat) : Prop := ∃ sc, scopes[i]? = some sc ∧ link k sc = some x

structure Graph (scopes : List Scope) : Prop where
  down : ∀ i k x, Edge scopes i k x → i < x ∧ x < scopes.length
  uniq : ∀ i j k l x, Edge scopes i k x → Edge scopes j l x → i = j ∧ k = l
  up : ∀ (i : Nat) (sc : Scope) (c : Nat), scopes[i]? = some sc → sc.child = some c → ∃ cs : Scope, scopes[c]? = some cs ∧ cs.parent = some i ∧ cs.last = none
  back : ∀ (i : Nat) (sc : Scope) (l : Nat), scopes[i]? = some sc → sc.last = some l → l < i

/-- Every scope but the first is behind another one, or inside it. -/
def Covered (scopes : List Scope) : Prop := ∀ x, 0 < x → x < scopes.length → ∃ i k, Edge scopes i k x

/-- Going back from a scope one gets to `hd`. -/
inductive Chain (scopes : List Scope) : Nat → Nat → Prop
  | head {i : Nat} {sc : Scope} : scopes[i]? = some sc → sc.last = none → Chain scopes i i
  | step {i : Nat} {sc : Scope} {l hd : Nat} : scopes[i]? = some sc → sc.last = some l → Chain scopes l hd → Chain scopes i hd

theorem Chain.exists {scopes : List Scope} {i hd : Nat} (h : Chain scopes i hd) : ∃ sc, scopes[i]? = some sc := by
  cases h with
  | head h _ => exact ⟨_, h⟩
  | step h _ _ => exact ⟨_, h⟩

theorem Chain.root {scopes : List Scope} {i hd : Nat} (h : Chain scopes i hd) : ∃ sc, scopes[hd]? = some sc ∧ sc.last = none := by
  induction h with
  | head h hl => exact ⟨_, h, hl⟩
  | step _ _ _ ih => exact ih

theorem Chain.head_eq {scopes : List Scope} (hg : Graph scopes) {i hd : Nat} (h : Chain scopes i hd) :
    ∀ f, i < f → scopeHead scopes f i = some hd := by
  induction h with
  | head h hl =>
    intro f hf
    cases f with
    | zero => omega
    | succ f => simp only [scopeHead, h, hl]
  | step h hl _ ih =>
    intro f hf
    cases f with
    | zero => omega
    | succ f =>
      simp only [scopeHead, h, hl]
      exact ih f (by have := hg.back _ _ _ h hl; omega)

theorem Chain.findHead {s : SS} (hg : Graph s.scopes) {i hd : Nat} (h : Chain s.scopes i hd) (hs : s.scope = some i) :
    findScopeHead s = some (some hd) := by
  unfold findScopeHead
  rw [hs]
  show (scopeHead _ _ _).map some = _
  obtain ⟨sc, hi⟩ := h.exists
  have : i < s.scopes.length := (List.getElem?_eq_some_iff.mp hi).1
  rw [h.head_eq hg _ (by omega)]
  rfl

/-- What stays of the scopes and symbols whatever happens. -/
structure Keep (s s' : SS) : Prop where
  len : s.scopes.length ≤ s'.scopes.length
  fixed : ∀ (i : Nat) (sc : Scope), s.scopes[i]? = some sc →
    ∃ sc', s'.scopes[i]? = some sc' ∧ sc'.last = sc.last ∧ sc'.parent = sc.parent
  edges : ∀ i k x, Edge s'.scopes i k x → x < s.scopes.length → Edge s.scopes i k x
  syms : ∃ ext, shapes s' = shapes s ++ ext

theorem Keep.refl (s : SS) : Keep s s := ⟨Nat.le_refl _, fun _ sc h => ⟨sc, h, rfl, rfl⟩, fun _ _ _ h _ => h, [], by simp⟩

theorem Keep.trans {s s' s'' : SS} (h : Keep s s') (h' : Keep s' s'') : Keep s s'' := by
  refine ⟨Nat.le_trans h.len h'.len, ?_, ?_, ?_⟩
  · intro i sc hi
    obtain ⟨sc', h1, h2, h3⟩ := h.fixed i sc hi
    obtain ⟨sc'', h4, h5, h6⟩ := h'.fixed i sc' h1
    exact ⟨sc'', h4, h5.trans h2, h6.trans h3⟩
  · exact fun i k x hx hl => h.edges i k x (h'.edges i k x hx (Nat.lt_of_lt_of_le hl h.len)) hl
  · obtain ⟨e, he⟩ := h.syms
    obtain ⟨e', he'⟩ := h'.syms
    exact ⟨e ++ e', by rw [he', he, List.append_assoc]⟩

theorem Keep.of_same {s s' : SS} (h : Same s s') : Keep s s' := by
  refine ⟨by rw [h.scopes]; exact Nat.le_refl _, ?_, ?_, [], by unfold shapes; rw [h.syms]; simp⟩
  · rw [h.scopes]; exact fun _ sc h => ⟨sc, h, rfl, rfl⟩
  · rw [h.scopes]; exact fun _ _ _ h _ => h

theorem Chain.keep {s s' : SS} (hk : Keep s s') {i hd : Nat} (h : Chain s.scopes i hd) : Chain s'.scopes i hd := by
  induction h with
  | head h hl =>
    obtain ⟨sc', h1, h2, _⟩ := hk.fixed _ _ h
    exact .head h1 (h2.trans hl)
  | step h hl _ ih =>
    obtain ⟨sc', h1, h2, _⟩ := hk.fixed _ _ h
    exact .step h1 (h2.trans hl) ih

/-- The current scope is behind the scope `hd`, or there is none yet. -/
def Lvl (s : SS) (hd : Nat) : Prop :=
  match s.scope with
  | none => hd = 0 ∧ s.scopes = []
  | some c => Chain s.scopes c hd

theorem Lvl.same {s s' : SS} (h : Same s s') {hd : Nat} (hl : Lvl s hd) : Lvl s' hd := by
  unfold Lvl at *
  rw [h.scope, h.scopes]
  exact hl

/-- Scopes but the current one keep their pointers, and the new current scope is the old one or new. -/
structure Frame (s s' : SS) : Prop where
  others : ∀ (i : Nat) (sc : Scope), s.scopes[i]? = some sc → s.scope ≠ some i →
    ∃ sc', s'.scopes[i]? = some sc' ∧ sc'.next = sc.next ∧ sc'.child = sc.child
  cursor : ∀ c, s'.scope = some c → s.scope = some c ∨ s.scopes.length ≤ c

theorem Frame.refl (s : SS) : Frame s s := ⟨fun _ sc h _ => ⟨sc, h, rfl, rfl⟩, fun _ h => .inl h⟩

theorem Frame.trans {s s' s'' : SS} (hk : Keep s s') (h : Frame s s') (h' : Frame s' s'') : Frame s s'' := by
  constructor
  · intro i sc hi hne
    obtain ⟨sc', h1, h2, h3⟩ := h.others i sc hi hne
    have hi' : i < s.scopes.length := (List.getElem?_eq_some_iff.mp hi).1
    obtain ⟨sc'', h4, h5, h6⟩ := h'.others i sc' h1 (by
      intro hc
      rcases h.cursor i hc with hc | hc
      · exact hne hc
      · omega)
    exact ⟨sc'', h4, h5.trans h2, h6.trans h3⟩
  · intro c hc
    rcases h'.cursor c hc with hc | hc
    · exact h.cursor c hc
    · exact .inr (Nat.le_trans hk.len hc)

theorem Frame.of_same {s s' : SS} (h : Same s s') : Frame s s' := by
  constructor
  · rw [h.scopes]; exact fun _ sc h _ => ⟨sc, h, rfl, rfl⟩
  · rw [h.scope]; exact fun _ h => .inl h

/-- The current scope has nothing behind it or inside. -/
def Tip (s : SS) : Prop := ∀ (i : Nat) (sc : Scope), s.scope = some i → s.scopes[i]? = some sc → sc.next = none ∧ sc.child = none

theorem Tip.same {s s' : SS} (h : Same s s') (ht : Tip s) : Tip s' := by
  unfold Tip
  rw [h.scope, h.scopes]
  exact ht

/-- The current scope has nothing behind it, and inside at most one scope, which has nothing behind it or inside. -/
def Ready (s : SS) : Prop := ∀ (i : Nat) (sc : Scope), s.scope = some i → s.scopes[i]? = some sc →
  sc.next = none ∧ ∀ (c : Nat) (cs : Scope), sc.child = some c → s.scopes[c]? = some cs → cs.next = none ∧ cs.child = none

theorem Tip.ready {s : SS} (h : Tip s) : Ready s := by
  intro i sc hi hs
  obtain ⟨h1, h2⟩ := h i sc hi hs
  refine ⟨h1, fun c cs hc => ?_⟩
  rw [h2] at hc
  cases hc

/-- What is true of the scopes and the symbols at all times. -/
structure Base (s : SS) : Prop where
  graph : Graph s.scopes
  good : ∀ (i : Nat) (sc : Scope), s.scopes[i]? = some sc → ∀ ht, sc.symbols = some ht → GoodHt ht
  nodup : (allIds s.scopes).Nodup
  range : ∀ id ∈ allIds s.scopes, 0 < id ∧ id < s.syms.length
  main : (shapes s)[0]? = some (.func false false)

theorem Base.same {s s' : SS} (h : Same s s') (hb : Base s) : Base s' := by
  have hl : s'.syms.length = s.syms.length := by
    have := congrArg List.length h.syms
    simpa using this
  have hm : shapes s' = shapes s := h.syms
  refine ⟨?_, ?_, ?_, ?_, ?_⟩
  · rw [h.scopes]; exact hb.graph
  · rw [h.scopes]; exact hb.good
  · rw [h.scopes]; exact hb.nodup
  · rw [h.scopes, hl]; exact hb.range
  · rw [hm]; exact hb.main

/-- Every symbol but `main` and those in `pend` is in a table. -/
def AllIn (s : SS) (pend : List Nat) : Prop := ∀ id, 0 < id → id < s.syms.length → id ∈ allIds s.scopes ∨ id ∈ pend

theorem AllIn.same {s s' : SS} (h : Same s s') {p : List Nat} (ha : AllIn s p) : AllIn s' p := by
  have hl : s'.syms.length = s.syms.length := by
    have := congrArg List.length h.syms
    simpa using this
  unfold AllIn
  rw [h.scopes, hl]
  exact ha

/-- Parameters in the syntax tree point to variables in tables. -/
def BoundOk (h : HS) : Prop := ∀ id ∈ h.bound, id ∈ allIds h.s.scopes ∧ ∃ e, (shapes h.s)[id]? = some (.var e)

/-- The blocks that are freed in the end are allocated. -/
structure Held (s : SS) (m : Lives) : Prop where
  state : m .state = .live
  scope : ∀ i, i < s.scopes.length → m (.scope i) = .live
  table : ∀ (i : Nat) (sc : Scope), s.scopes[i]? = some sc → sc.symbols.isSome → m (.table i) = .live
  syms : ∀ id, id = 0 ∨ id ∈ allIds s.scopes → ∀ sh, (shapes s)[id]? = some sh →
    m (.sym id) = .live ∧ m (.name id) = .live ∧ (sh.hasData → m (.data id) = .live) ∧ (sh.hasLink → m (.link id) = .live) ∧
      (sh.hasTypes → m (.types id) = .live)

theorem Held.same {s s' : SS} (h : Same s s') {m : Lives} (hh : Held s m) : Held s' m := by
  have hm : shapes s' = shapes s := h.syms
  refine ⟨hh.state, ?_, ?_, ?_⟩
  · rw [h.scopes]; exact hh.scope
  · rw [h.scopes]; exact hh.table
  · rw [h.scopes, hm]; exact hh.syms

theorem held_lifeOf (s : SS) : Held s (lifeOf s) := by
  refine ⟨rfl, ?_, ?_, ?_⟩
  · intro i hi; simp [lifeOf, lifeB, owns, hi]
  · intro i sc hi ht
    have : (s.scopes[i]?.bind Scope.symbols).isSome := by rw [hi]; exact ht
    simp only [lifeOf, lifeB, owns, this, if_true]
  · intro id _ sh hs
    refine ⟨?_, ?_, ?_, ?_, ?_⟩ <;> simp_all [lifeOf, lifeB, owns]

/-- The memory is in order, with the symbols `pend` not yet in a table. -/
structure Ok (hd : Nat) (h : HS) : Prop where
  base : Base h.s
  covered : Covered h.s.scopes
  all : AllIn h.s []
  run : Run h.evs (lifeOf h.s)
  bound : BoundOk h
  lvl : Lvl h.s hd

/-- What is left of it when the check fails. -/
structure Bad (hd : Nat) (h : HS) : Prop where
  base : Base h.s
  held : ∃ m, Run h.evs m ∧ Held h.s m
  bound : BoundOk h
  lvl : Lvl h.s hd

theorem Ok.bad {hd : Nat} {h : HS} (ho : Ok hd h) : Bad hd h := ⟨ho.base, ⟨_, ho.run, held_lifeOf _⟩, ho.bound, ho.lvl⟩

/-- Two states with the same log that differ only in what does not matter. -/
structure SameH (h h' : HS) : Prop where
  s : Same h.s h'.s
  evs : h'.evs = h.evs
  bound : h'.bound = h.bound

theorem BoundOk.same {h h' : HS} (hs : SameH h h') (hb : BoundOk h) : BoundOk h' := by
  have hm : shapes h'.s = shapes h.s := hs.s.syms
  unfold BoundOk
  rw [hs.bound, hs.s.scopes, hm]
  exact hb

theorem Ok.same {hd : Nat} {h h' : HS} (hs : SameH h h') (ho : Ok hd h) : Ok hd h' := by
  refine ⟨ho.base.same hs.s, ?_, ho.all.same hs.s, ?_, ho.bound.same hs, ho.lvl.same hs.s⟩
  · rw [hs.s.scopes]; exact ho.covered
  · rw [hs.evs, lifeOf_same hs.s]; exact ho.run

theorem Bad.same {hd : Nat} {h h' : HS} (hs : SameH h h') (ho : Bad hd h) : Bad hd h' := by
  obtain ⟨m, h1, h2⟩ := ho.held
  exact ⟨ho.base.same hs.s, ⟨m, by rw [hs.evs]; exact h1, h2.same hs.s⟩, ho.bound.same hs, ho.lvl.same hs.s⟩

/- ### Steps -/

/-- The check with the log and the one without do the same. -/
def Outcome (m : HRes α) (c : SRes α) (Q : α → HS → Prop) (R : HS → Prop) : Prop :=
  match m, c with
  | .ok a h, .ok b s => a = b ∧ h.s = s ∧ Q a h
  | .fail h, .fail _ => R h
  | .ub, .ub => True
  | _, _ => False

theorem Outcome.bind {m : HChk α} {c : Chk α} {f : α → HChk β} {g : α → Chk β} {h : HS} {Q : α → HS → Prop} {R : HS → Prop}
    {Q' : β → HS → Prop} (h1 : Outcome (m h) (c h.s) Q R) (h2 : ∀ a h', Q a h' → Outcome (f a h') (g a h'.s) Q' R) :
    Outcome ((m >>= f) h) ((c >>= g) h.s) Q' R := by
  show Outcome (HChk.bind m f h) (Chk.bind c g h.s) Q' R
  unfold HChk.bind Chk.bind
  cases e1 : m h with
  | ok a h' =>
    cases e2 : c h.s with
    | ok b s =>
      rw [e1, e2] at h1
      obtain ⟨rfl, rfl, h1⟩ := h1
      exact h2 _ _ h1
    | fail s => rw [e1, e2] at h1; exact h1.elim
    | ub => rw [e1, e2] at h1; exact h1.elim
  | fail h' =>
    cases e2 : c h.s with
    | ok b s => rw [e1, e2] at h1; exact h1.elim
    | fail s => rw [e1, e2] at h1; exact h1
    | ub => rw [e1, e2] at h1; exact h1.elim
  | ub =>
    cases e2 : c h.s with
    | ok b s => rw [e1, e2] at h1; exact h1.elim
    | fail s => rw [e1, e2] at h1; exact h1.elim
    | ub => trivial

theorem Outcome.weaken {m : HRes α} {c : SRes α} {Q Q' : α → HS → Prop} {R R' : HS → Prop} (h : Outcome m c Q R)
    (hq : ∀ a h, Q a h → Q' a h) (hr : ∀ h, R h → R' h) : Outcome m c Q' R' := by
  cases m <;> cases c <;> first | exact h.elim | trivial | exact hr _ h | exact ⟨h.1, h.2.1, hq _ _ h.2.2⟩

theorem Outcome.pure {a : α} {h : HS} {Q : α → HS → Prop} {R : HS → Prop} (hq : Q a h) :
    Outcome ((Pure.pure a : HChk α) h) ((Pure.pure a : Chk α) h.s) Q R := ⟨rfl, rfl, hq⟩

theorem Outcome.lift {c : Chk α} (hm : Mild c) (h : HS) :
    Outcome (lift c h) (c h.s) (fun a h' => SameH h h' ∧ c h.s = .ok a h'.s) (SameH h) := by
  have h1 := hm h.s
  unfold Skull.Heap.lift
  cases e : c h.s with
  | ok a s => rw [e] at h1; exact ⟨rfl, rfl, ⟨h1, rfl, rfl⟩, rfl⟩
  | fail s => rw [e] at h1; exact ⟨h1, rfl, rfl⟩
  | ub => trivial

end Skull.SemHeap
