import Verif.Proofs.SemHeapBase
/-
The steps that make scopes and symbols.
-/
namespace Skull.SemHeap

open Skull.Heap
open Skull.Spec (MemEvent Life memRun memStep setLife)

/-- A step that ends well. -/
structure Moved (s s' : SS) : Prop where
  keep : Keep s s'
  frame : Frame s s'

theorem Moved.refl (s : SS) : Moved s s := ⟨.refl s, .refl s⟩
theorem Moved.trans {s s' s'' : SS} (h : Moved s s') (h' : Moved s' s'') : Moved s s'' :=
  ⟨h.keep.trans h'.keep, h.frame.trans h.keep h'.frame⟩
theorem Moved.of_same {s s' : SS} (h : Same s s') : Moved s s' := ⟨.of_same h, .of_same h⟩

theorem lt_of_get {l : List α} {i : Nat} {a : α} (h : l[i]? = some a) : i < l.length := (List.getElem?_eq_some_iff.mp h).1

/- ### A new symbol -/

/-- What is allocated before the types of the parameters of the function `id` are. -/
def lessTypes (s : SS) (id : Nat) : Lives := fun b => if b = .types id then .fresh else lifeOf s b

/-- The symbol `id` is not yet in a table. -/
structure Pend (hd id : Nat) (sh : Shape) (h : HS) : Prop where
  base : Base h.s
  covered : Covered h.s.scopes
  all : AllIn h.s [id]
  out : id ∉ allIds h.s.scopes
  pos : 0 < id
  shape : (shapes h.s)[id]? = some sh
  run : Run h.evs (lessTypes h.s id)
  bound : BoundOk h
  lvl : Lvl h.s hd

theorem pend_new {hd : Nat} {h : HS} (ho : Ok hd h) (sym : Symbol) (es : Nat → List Event)
    (hes : ∀ m s', shapes s' = shapes h.s ++ [shape sym] → s'.scopes = h.s.scopes → m = lifeOf h.s →
      memRun m (es h.s.syms.length) = some (lessTypes s' h.s.syms.length)) (R : HS → Prop) :
    Outcome (newSymH sym es h) (newSym sym h.s)
      (fun id h' => Pend hd id (shape sym) h' ∧ Moved h.s h'.s ∧ (Tip h.s → Tip h'.s) ∧ h'.s.syms[id]? = some sym ∧
        h'.s.scope = h.s.scope) R := by
  have hsh : SemHeap.shapes { h.s with syms := h.s.syms ++ [sym] } = SemHeap.shapes h.s ++ [shape sym] := by
    simp [SemHeap.shapes]
  have hlen : (SemHeap.shapes h.s).length = h.s.syms.length := by simp [SemHeap.shapes]
  have hpos : 0 < h.s.syms.length := by
    have := lt_of_get ho.base.main
    omega
  show _ = _ ∧ _ ∧ _
  refine ⟨rfl, rfl, ⟨⟨ho.base.graph, ho.base.good, ho.base.nodup, ?_, ?_⟩, ho.covered, ?_, ?_, hpos, ?_, ?_, ?_, ho.lvl⟩, ⟨⟨?_, ?_, ?_, ?_⟩,
    ⟨?_, ?_⟩⟩, ?_, ?_, rfl⟩
  · intro id hid
    have := ho.base.range id hid
    show 0 < id ∧ id < (h.s.syms ++ [sym]).length
    simp
    omega
  · show (SemHeap.shapes { h.s with syms := h.s.syms ++ [sym] })[0]? = _
    rw [hsh, List.getElem?_append_left (by omega)]
    exact ho.base.main
  · intro id h0 hl
    have hl : id < (h.s.syms ++ [sym]).length := hl
    simp at hl
    by_cases hid : id < h.s.syms.length
    · exact (ho.all id h0 hid).imp_right (by simp)
    · right
      simp
      omega
  · intro hc
    have := ho.base.range _ hc
    omega
  · show (SemHeap.shapes { h.s with syms := h.s.syms ++ [sym] })[_]? = _
    rw [hsh, List.getElem?_append_right (by omega), hlen, Nat.sub_self]
    rfl
  · exact Run.append ho.run (hes _ _ hsh rfl rfl)
  · intro id hid
    obtain ⟨h1, e, h2⟩ := ho.bound id hid
    refine ⟨h1, e, ?_⟩
    show (SemHeap.shapes { h.s with syms := h.s.syms ++ [sym] })[_]? = _
    rw [hsh, List.getElem?_append_left (lt_of_get h2)]
    exact h2
  · exact Nat.le_refl _
  · exact fun _ sc h => ⟨sc, h, rfl, rfl⟩
  · exact fun _ _ _ h _ => h
  · exact ⟨_, hsh⟩
  · exact fun _ sc h _ => ⟨sc, h, rfl, rfl⟩
  · exact fun _ h => .inl h
  · exact fun h => h
  · exact List.getElem?_concat_length

/- ### The first scope -/

theorem graph_first : Graph [({} : Scope)] := by
  have hi : ∀ {i : Nat} {sc : Scope}, [({} : Scope)][i]? = some sc → sc = {} := by
    intro i sc h
    cases i with
    | zero => simpa using h.symm
    | succ i => simp at h
  have he : ∀ i k x, ¬ Edge [({} : Scope)] i k x := by
    rintro i k x ⟨sc, h, hl⟩
    rw [hi h] at hl
    cases k <;> cases hl
  refine ⟨fun i k x h => (he _ _ _ h).elim, fun i j k l x h => (he _ _ _ h).elim, ?_, ?_⟩
  · intro i sc c h hc
    rw [hi h] at hc
    cases hc
  · intro i sc l h hc
    rw [hi h] at hc
    cases hc

theorem covered_first : Covered [({} : Scope)] := by
  intro x h0 h1
  simp at h1
  omega

theorem first_get {i : Nat} {sc : Scope} (h : [({} : Scope)][i]? = some sc) : i = 0 ∧ sc = {} := by
  cases i with
  | zero => exact ⟨rfl, by simpa using h.symm⟩
  | succ i => simp at h

/-- `s` without scopes gets its first one. -/
theorem base_first {s s' : SS} (hb : Base s) (h0 : s.scopes = []) (h1 : s'.scopes = [{}]) (hs : s'.syms = s.syms) : Base s' := by
  refine ⟨?_, ?_, ?_, ?_, ?_⟩
  · rw [h1]; exact graph_first
  · rw [h1]
    intro i sc h ht he
    rw [(first_get h).2] at he
    cases he
  · rw [h1]; exact List.nodup_nil
  · rw [h1]; intro id hid; cases hid
  · unfold shapes; rw [hs]; exact hb.main

theorem keep_first {s s' : SS} (h0 : s.scopes = []) (hs : s'.syms = s.syms) : Keep s s' := by
  refine ⟨by rw [h0]; exact Nat.zero_le _, ?_, ?_, [], by unfold shapes; rw [hs]; simp⟩
  · rw [h0]; intro i sc h; simp at h
  · rw [h0]; intro i k x _ hx; exact absurd hx (Nat.not_lt_zero _)

theorem frame_first {s s' : SS} (h0 : s.scopes = []) : Frame s s' := by
  constructor
  · rw [h0]; intro i sc h; simp at h
  · rw [h0]; exact fun c _ => .inr (Nat.zero_le _)

theorem allIds_first {s : SS} (h0 : s.scopes = []) : allIds s.scopes = allIds [({} : Scope)] := by rw [h0]; rfl

theorem bound_nil {h : HS} (hb : BoundOk h) (h0 : h.s.scopes = []) : h.bound = [] := by
  cases e : h.bound with
  | nil => rfl
  | cons id rest =>
    have := (hb id (by rw [e]; exact List.mem_cons_self)).1
    rw [h0] at this
    cases this

/-- The lives after the first scope was made. -/
theorem life_first {s s' : SS} (h0 : s.scopes = []) (h1 : s'.scopes = [{}]) (hs : shapes s' = shapes s) :
    setLife (lifeOf s) (.scope 0) .live = lifeOf s' := by
  funext b
  unfold setLife lifeOf
  rw [h0, h1, hs]
  by_cases hb : b = .scope 0
  · subst hb; simp [lifeB, owns]
  · rw [if_neg hb]
    cases b with
    | scope i =>
      have : i ≠ 0 := fun e => hb (by rw [e])
      refine congrArg lifeB ?_
      show decide (i < 0) = decide (i < 1)
      rw [decide_eq_false (by omega), decide_eq_false (by omega)]
    | table i =>
      cases i with
      | zero => rfl
      | succ i => simp [owns]
    | _ => rfl

theorem less_set {s s' : SS} {id : Nat} {b : Block} (hb : b ≠ .types id) (h : setLife (lifeOf s) b .live = lifeOf s') :
    setLife (lessTypes s id) b .live = lessTypes s' id := by
  funext c
  have := congrFun h c
  unfold setLife lessTypes at *
  by_cases hc : c = b
  · subst hc
    rw [if_pos rfl] at this ⊢
    rw [if_neg hb]
    exact this
  · rw [if_neg hc] at this ⊢
    rw [this]

/- ### Adding to the current scope -/

theorem pend_current {hd id : Nat} {sh : Shape} {h : HS} (hp : Pend hd id sh h) (R : HS → Prop) :
    Outcome (currentScopeH h) (currentScope h.s)
      (fun i h' => Pend hd id sh h' ∧ h'.s.scope = some i ∧ Moved h.s h'.s ∧ (Tip h.s → Tip h'.s) ∧ h'.s.syms = h.s.syms ∧
        (∀ c, h.s.scope = some c → h'.s.scope = some c)) R := by
  cases hc : h.s.scope with
  | some i =>
    have e1 : currentScope h.s = .ok i h.s := by simp only [currentScope, hc]
    have e2 : currentScopeH h = .ok i h := by
      simp only [currentScopeH, bind, HChk.bind, Heap.lift, Chk.get, e1, hc, Option.isNone_some, Bool.false_eq_true, if_false, pure]
    rw [e1, e2]
    exact ⟨rfl, rfl, hp, hc, .refl _, fun h => h, rfl, fun c h => by rw [hc]; exact h⟩
  | none =>
    have hl := hp.lvl
    unfold Lvl at hl
    rw [hc] at hl
    obtain ⟨hd0, h0⟩ := hl
    have hlen : h.s.scopes.length = 0 := by rw [h0]; rfl
    have e1 : currentScope h.s = .ok 0 { h.s with scopes := [{}], scope := some 0 } := by
      simp only [currentScope, hc, h0, List.length_nil, List.nil_append]
    have e2 : currentScopeH h = .ok 0
        { h with s := { h.s with scopes := [{}], scope := some 0 }, evs := h.evs ++ [.alloc (.scope 0)] } := by
      simp only [currentScopeH, bind, HChk.bind, Heap.lift, Chk.get, e1, hc, Option.isNone_none, if_true, pure, emit]
    rw [e1, e2]
    have hids := allIds_first h0
    refine ⟨rfl, rfl, ⟨base_first hp.base h0 rfl rfl, covered_first, ?_, ?_, hp.pos, hp.shape, ?_, ?_, ?_⟩, rfl,
      ⟨keep_first h0 rfl, frame_first h0⟩, ?_, rfl, ?_⟩
    · intro j hj hl
      have := hp.all j hj hl
      rw [hids] at this
      exact this
    · intro hx
      apply hp.out
      rw [hids]
      exact hx
    · refine Run.append hp.run ?_
      rw [run_alloc]
      · show some _ = some _
        congr 1
        exact less_set (by simp) (life_first h0 rfl rfl)
      · unfold lessTypes lifeOf
        simp [owns, h0, lifeB]
    · intro j hj
      rw [show h.bound = [] from bound_nil hp.bound h0] at hj
      cases hj
    · show Chain [({} : Scope)] 0 hd
      rw [hd0]
      exact .head rfl rfl
    · intro _ i sc _ hi
      rw [(first_get hi).2]
      exact ⟨rfl, rfl⟩
    · intro c h; cases h

/-- The symbol is in a table, but perhaps the types of its parameters are not allocated yet. -/
structure Added (hd id : Nat) (sh : Shape) (h : HS) : Prop where
  base : Base h.s
  covered : Covered h.s.scopes
  all : AllIn h.s []
  mem : id ∈ allIds h.s.scopes
  shape : (shapes h.s)[id]? = some sh
  run : Run h.evs (lessTypes h.s id)
  bound : BoundOk h
  lvl : Lvl h.s hd

/-- The symbol was not added. -/
structure Rejected (hd id : Nat) (sh : Shape) (clear : Prop) (h : HS) : Prop where
  base : Base h.s
  out : id ∉ allIds h.s.scopes
  pos : 0 < id
  held : ∃ m, Run h.evs m ∧ Held h.s m ∧ m (.sym id) = .live ∧ (sh.hasData → m (.data id) = .live) ∧
    (clear → m (.name id) = .live)
  bound : BoundOk h
  lvl : Lvl h.s hd

theorem lessTypes_eq {s : SS} {id : Nat} {b : Block} (h : b ≠ .types id) : lessTypes s id b = lifeOf s b := if_neg h

theorem held_less {s : SS} {id : Nat} (hid : id ∉ allIds s.scopes) (h0 : 0 < id) : Held s (lessTypes s id) := by
  have hh := held_lifeOf s
  refine ⟨hh.state, ?_, ?_, ?_⟩
  · intro i hi; rw [lessTypes_eq (by simp)]; exact hh.scope i hi
  · intro i sc hi ht; rw [lessTypes_eq (by simp)]; exact hh.table i sc hi ht
  · intro j hj sh hs
    have hne : j ≠ id := by
      rintro rfl
      rcases hj with hj | hj
      · omega
      · exact hid hj
    obtain ⟨h1, h2, h3, h4, h5⟩ := hh.syms j hj sh hs
    refine ⟨?_, ?_, fun h => ?_, fun h => ?_, fun h => ?_⟩
    · rw [lessTypes_eq (by simp)]; exact h1
    · rw [lessTypes_eq (by simp)]; exact h2
    · rw [lessTypes_eq (by simp)]; exact h3 h
    · rw [lessTypes_eq (by simp)]; exact h4 h
    · rw [lessTypes_eq (by simp only [ne_eq, Block.types.injEq]; exact hne)]; exact h5 h

/-- The symbol a block belongs to. -/
def ownerOf : Block → Option Nat
  | .sym j => some j
  | .name j => some j
  | .link j => some j
  | .data j => some j
  | .types j => some j
  | _ => none

/-- Nothing that is freed in the end belongs to a symbol that was not added. -/
theorem held_set {s : SS} {m : Lives} {id : Nat} (hh : Held s m) (hid : id ∉ allIds s.scopes) (h0 : 0 < id) {b : Block}
    (hb : ownerOf b = some id) (l : Life) : Held s (setLife m b l) := by
  have hne : ∀ {c : Block}, ownerOf c ≠ some id → setLife m b l c = m c := by
    intro c hc
    exact setLife_ne fun e => hc (by rw [e]; exact hb)
  refine ⟨?_, ?_, ?_, ?_⟩
  · rw [hne (by simp [ownerOf])]; exact hh.state
  · intro i hi; rw [hne (by simp [ownerOf])]; exact hh.scope i hi
  · intro i sc hi ht; rw [hne (by simp [ownerOf])]; exact hh.table i sc hi ht
  · intro j hj sh hs
    have hji : j ≠ id := by
      rintro rfl
      rcases hj with hj | hj
      · omega
      · exact hid hj
    obtain ⟨h1, h2, h3, h4, h5⟩ := hh.syms j hj sh hs
    refine ⟨?_, ?_, fun h => ?_, fun h => ?_, fun h => ?_⟩
    · rw [hne (by simpa [ownerOf] using hji)]; exact h1
    · rw [hne (by simpa [ownerOf] using hji)]; exact h2
    · rw [hne (by simpa [ownerOf] using hji)]; exact h3 h
    · rw [hne (by simpa [ownerOf] using hji)]; exact h4 h
    · rw [hne (by simpa [ownerOf] using hji)]; exact h5 h

theorem Pend.rejected {hd id : Nat} {sh : Shape} {h : HS} (hp : Pend hd id sh h) (clear : Prop) : Rejected hd id sh clear h := by
  have hs := hp.shape
  refine ⟨hp.base, hp.out, hp.pos, ⟨_, hp.run, held_less hp.out hp.pos, ?_, ?_, ?_⟩, hp.bound, hp.lvl⟩
  · rw [lessTypes_eq (by simp)]; simp [lifeOf, lifeB, owns, hs]
  · intro hd; rw [lessTypes_eq (by simp)]; simp [lifeOf, lifeB, owns, hs, hd]
  · intro _; rw [lessTypes_eq (by simp)]; simp [lifeOf, lifeB, owns, hs]

theorem set_get {scopes : List Scope} {i : Nat} {sc' : Scope} (hi : i < scopes.length) (j : Nat) :
    (scopes.set i sc')[j]? = if j = i then some sc' else scopes[j]? := by
  rw [List.getElem?_set]
  by_cases h : i = j
  · subst h; simp [hi]
  · rw [if_neg h, if_neg (fun e => h e.symm)]

/-- A scope gets another table. -/
structure Retabled (scopes scopes' : List Scope) : Prop where
  len : scopes'.length = scopes.length
  get : ∀ (j : Nat) (sc' : Scope), scopes'[j]? = some sc' → ∃ sc, scopes[j]? = some sc ∧ sc'.next = sc.next ∧ sc'.last = sc.last ∧
    sc'.child = sc.child ∧ sc'.parent = sc.parent
  get' : ∀ (j : Nat) (sc : Scope), scopes[j]? = some sc → ∃ sc', scopes'[j]? = some sc' ∧ sc'.next = sc.next ∧ sc'.last = sc.last ∧
    sc'.child = sc.child ∧ sc'.parent = sc.parent

theorem retabled_set {scopes : List Scope} {i : Nat} {sc : Scope} (hi : scopes[i]? = some sc) (t : Option (HashTable Nat)) :
    Retabled scopes (scopes.set i { sc with symbols := t }) := by
  have hlt := lt_of_get hi
  refine ⟨by simp, ?_, ?_⟩
  · intro j sc' hj
    rw [set_get hlt] at hj
    split at hj
    · rename_i e
      subst e
      cases hj
      exact ⟨sc, hi, rfl, rfl, rfl, rfl⟩
    · exact ⟨sc', hj, rfl, rfl, rfl, rfl⟩
  · intro j sc' hj
    rw [set_get hlt]
    by_cases e : j = i
    · subst e
      rw [hi] at hj
      cases hj
      exact ⟨_, if_pos rfl, rfl, rfl, rfl, rfl⟩
    · rw [if_neg e]
      exact ⟨sc', hj, rfl, rfl, rfl, rfl⟩

theorem Retabled.edge {scopes scopes' : List Scope} (h : Retabled scopes scopes') {i : Nat} {k : Bool} {x : Nat} :
    Edge scopes' i k x ↔ Edge scopes i k x := by
  constructor
  · rintro ⟨sc', h1, h2⟩
    obtain ⟨sc, h3, h4, h5, h6, h7⟩ := h.get _ _ h1
    refine ⟨sc, h3, ?_⟩
    unfold link at *
    rw [h4, h6] at h2
    exact h2
  · rintro ⟨sc', h1, h2⟩
    obtain ⟨sc, h3, h4, h5, h6, h7⟩ := h.get' _ _ h1
    refine ⟨sc, h3, ?_⟩
    unfold link at *
    rw [h4, h6]
    exact h2

theorem Retabled.graph {scopes scopes' : List Scope} (h : Retabled scopes scopes') (hg : Graph scopes) : Graph scopes' := by
  refine ⟨?_, ?_, ?_, ?_⟩
  · intro i k x he
    rw [h.len]
    exact hg.down i k x (h.edge.mp he)
  · exact fun i j k l x h1 h2 => hg.uniq i j k l x (h.edge.mp h1) (h.edge.mp h2)
  · intro i sc' c hi hc
    obtain ⟨sc, h3, h4, h5, h6, h7⟩ := h.get _ _ hi
    obtain ⟨cs, h8, h9, h10⟩ := hg.up i sc c h3 (h6 ▸ hc)
    obtain ⟨cs', h11, h12, h13, h14, h15⟩ := h.get' _ _ h8
    exact ⟨cs', h11, h15.trans h9, h13.trans h10⟩
  · intro i sc' l hi hc
    obtain ⟨sc, h3, h4, h5, h6, h7⟩ := h.get _ _ hi
    exact hg.back i sc l h3 (h5 ▸ hc)

theorem Retabled.covered {scopes scopes' : List Scope} (h : Retabled scopes scopes') (hc : Covered scopes) : Covered scopes' := by
  intro x h0 h1
  rw [h.len] at h1
  obtain ⟨i, k, he⟩ := hc x h0 h1
  exact ⟨i, k, h.edge.mpr he⟩

theorem Retabled.moved {s s' : SS} (h : Retabled s.scopes s'.scopes) (hc : s'.scope = s.scope) (hs : s'.syms = s.syms) : Moved s s' := by
  refine ⟨⟨by rw [h.len]; exact Nat.le_refl _, ?_, ?_, [], by unfold shapes; rw [hs]; simp⟩, ⟨?_, ?_⟩⟩
  · intro i sc hi
    obtain ⟨sc', h1, h2, h3, h4, h5⟩ := h.get' _ _ hi
    exact ⟨sc', h1, h3, h5⟩
  · exact fun i k x he _ => h.edge.mp he
  · intro i sc hi _
    obtain ⟨sc', h1, h2, h3, h4, h5⟩ := h.get' _ _ hi
    exact ⟨sc', h1, h2, h4⟩
  · intro c h; rw [hc] at h; exact .inl h

theorem Retabled.tip {s s' : SS} (h : Retabled s.scopes s'.scopes) (hc : s'.scope = s.scope) (ht : Tip s) : Tip s' := by
  intro i sc hi hg
  obtain ⟨sc', h1, h2, h3, h4, h5⟩ := h.get _ _ hg
  obtain ⟨h6, h7⟩ := ht i sc' (hc ▸ hi) h1
  exact ⟨h2.trans h6, h4.trans h7⟩

theorem Retabled.lvl {s s' : SS} {hd : Nat} (h : Retabled s.scopes s'.scopes) (hc : s'.scope = s.scope) (hs : s'.syms = s.syms)
    (hl : Lvl s hd) : Lvl s' hd := by
  unfold Lvl at *
  rw [hc]
  cases e : s.scope with
  | none =>
    rw [e] at hl
    refine ⟨hl.1, ?_⟩
    have := h.len
    rw [hl.2] at this
    exact List.eq_nil_of_length_eq_zero this
  | some c =>
    rw [e] at hl
    exact Chain.keep (h.moved hc hs).keep hl

theorem life_table {s s' : SS} {i : Nat} {sc : Scope} {t : HashTable Nat} (hi : s.scopes[i]? = some sc) (ht : sc.symbols = none)
    (h' : s'.scopes = s.scopes.set i { sc with symbols := some t }) (hs : shapes s' = shapes s) :
    setLife (lifeOf s) (.table i) .live = lifeOf s' := by
  have hlt := lt_of_get hi
  funext b
  unfold setLife lifeOf
  rw [h', hs]
  by_cases hb : b = .table i
  · subst hb
    rw [if_pos rfl]
    simp [lifeB, owns, hlt]
  · rw [if_neg hb]
    cases b with
    | scope j => exact congrArg lifeB (by simp only [owns, List.length_set])
    | table j =>
      have : j ≠ i := fun e => hb (by rw [e])
      refine congrArg lifeB ?_
      simp only [owns]
      rw [set_get hlt, if_neg this]
    | _ => rfl

theorem life_retable {s s' : SS} {i : Nat} {sc : Scope} {t : HashTable Nat} (hi : s.scopes[i]? = some sc) (ht : sc.symbols.isSome)
    (h' : s'.scopes = s.scopes.set i { sc with symbols := some t }) (hs : shapes s' = shapes s) : lifeOf s = lifeOf s' := by
  have hlt := lt_of_get hi
  funext b
  unfold lifeOf
  rw [h', hs]
  cases b with
  | scope j => exact congrArg lifeB (by simp only [owns, List.length_set])
  | table j =>
    refine congrArg lifeB ?_
    simp only [owns]
    rw [set_get hlt]
    by_cases e : j = i
    · subst e; rw [if_pos rfl, hi]; simp [ht]
    · rw [if_neg e]
  | _ => rfl

theorem base_retable {s s' : SS} (hb : Base s) {i : Nat} {sc : Scope} {t : HashTable Nat} (hi : s.scopes[i]? = some sc)
    (h' : s'.scopes = s.scopes.set i { sc with symbols := some t }) (hs : s'.syms = s.syms) (hg : GoodHt t)
    (hn : (allIds s'.scopes).Nodup) (hr : ∀ id ∈ allIds s'.scopes, 0 < id ∧ id < s.syms.length) : Base s' := by
  refine ⟨?_, ?_, hn, by rw [hs]; exact hr, by unfold shapes; rw [hs]; exact hb.main⟩
  · rw [h']; exact (retabled_set hi _).graph hb.graph
  · rw [h']
    intro j sc' hj ht he
    rw [set_get (lt_of_get hi)] at hj
    split at hj
    · cases hj; cases he; exact hg
    · exact hb.good j sc' hj ht he

/-- Whether the symbol was added. -/
def AddRes (hd id : Nat) (sh : Shape) (clear : Prop) (h : HS) (b : Bool) (h' : HS) : Prop :=
  (b = true → Added hd id sh h' ∧ Moved h.s h'.s ∧ (Tip h.s → Tip h'.s) ∧ (∀ c, h.s.scope = some c → h'.s.scope = some c) ∧
    shapes h'.s = shapes h.s) ∧
  (b = false → Rejected hd id sh clear h' ∧ Keep h.s h'.s)

theorem pend_addTo {hd id i : Nat} {sh : Shape} {h : HS} (hp : Pend hd id sh h) (name : List Char) (hc : h.s.scope = some i)
    (R : HS → Prop) (clear : Prop) :
    Outcome (addToScopeH i name id h) (addToScope i name id h.s)
      (AddRes hd id sh clear h) R := by
  obtain ⟨sc, hi⟩ : ∃ sc, h.s.scopes[i]? = some sc := by
    have := hp.lvl
    unfold Lvl at this
    rw [hc] at this
    exact this.exists
  -- the table
  have hgood : GoodHt (refsOrNew sc.symbols) := by
    cases e : sc.symbols with
    | none => exact goodHt_make
    | some ht => exact hp.base.good i sc hi ht e
  have hids : idsOf (some (refsOrNew sc.symbols)) = idsOf sc.symbols := by
    cases e : sc.symbols with
    | none => exact idsOf_make
    | some ht => rfl
  have key : ∃ t added, addToScope i name id h.s =
      .ok added { h.s with scopes := h.s.scopes.set i { sc with symbols := some t } } ∧ GoodHt t ∧
      (added = true → (idsOf (some t)).Perm (id :: idsOf sc.symbols)) ∧ (added = false → idsOf (some t) = idsOf sc.symbols) := by
    rcases htAdd_good hgood name id with e | ⟨t, e, hg, hperm⟩
    · exact ⟨refsOrNew sc.symbols, false, by simp only [addToScope, hi, e], hgood, by simp, fun _ => hids⟩
    · rw [hids] at hperm
      exact ⟨t, true, by simp only [addToScope, hi, e], hg, fun _ => hperm, by simp⟩
  obtain ⟨t, added, e1, hg, hyes, hno⟩ := key
  have hret := retabled_set hi (some t)
  -- the log
  have hrun : ∃ evs, addToScopeH i name id h =
      .ok added ({ h with s := { h.s with scopes := h.s.scopes.set i { sc with symbols := some t } }, evs := evs }) ∧
      Run evs (lessTypes { h.s with scopes := h.s.scopes.set i { sc with symbols := some t } } id) := by
    cases et : sc.symbols with
    | some t0 =>
      have hh : hasTable h.s i = true := by simp [hasTable, hi, et]
      refine ⟨h.evs, ?_, ?_⟩
      · simp only [addToScopeH, bind, HChk.bind, Heap.lift, Chk.get, hh, if_true, pure, e1]
      · have := life_retable (s := h.s) (s' := { h.s with scopes := h.s.scopes.set i { sc with symbols := some t } }) hi
          (by rw [et]; rfl) rfl rfl
        have h2 : lessTypes { h.s with scopes := h.s.scopes.set i { sc with symbols := some t } } id = lessTypes h.s id := by
          unfold lessTypes
          rw [this]
        rw [h2]
        exact hp.run
    | none =>
      have hh : hasTable h.s i = false := by simp [hasTable, hi, et]
      refine ⟨h.evs ++ [.alloc (.table i)], ?_, ?_⟩
      · simp only [addToScopeH, bind, HChk.bind, Heap.lift, Chk.get, hh, Bool.false_eq_true, if_false, emit, e1]
      · refine Run.append hp.run ?_
        rw [run_alloc]
        · show some _ = some _
          congr 1
          exact less_set (by simp) (life_table hi et rfl rfl)
        · rw [lessTypes_eq (by simp)]
          simp [lifeOf, lifeB, owns, hi, et]
  obtain ⟨evs, e2, hrun⟩ := hrun
  rw [e1, e2]
  refine ⟨rfl, rfl, ?_⟩
  have hlt : id < h.s.syms.length := by simpa [shapes] using lt_of_get hp.shape
  have hmv : Moved h.s { h.s with scopes := h.s.scopes.set i { sc with symbols := some t } } := hret.moved rfl rfl
  have hlv : Lvl { h.s with scopes := h.s.scopes.set i { sc with symbols := some t } } hd :=
    Retabled.lvl (s := h.s) (s' := { h.s with scopes := h.s.scopes.set i { sc with symbols := some t } }) hret rfl rfl hp.lvl
  cases added with
  | true =>
    have hperm := allIds_set (sc' := { sc with symbols := some t }) hi (hyes rfl)
    have hmem : ∀ j, j ∈ allIds (h.s.scopes.set i { sc with symbols := some t }) ↔ j = id ∨ j ∈ allIds h.s.scopes := by
      intro j; rw [hperm.mem_iff]; exact List.mem_cons
    refine ⟨fun _ => ?_, by simp⟩
    refine ⟨⟨base_retable hp.base hi rfl rfl hg ?_ ?_, hret.covered hp.covered, ?_, (hmem id).mpr (.inl rfl), hp.shape, hrun, ?_,
      hlv⟩, hmv, hret.tip rfl, fun _ h => h, rfl⟩
    · exact hperm.nodup_iff.mpr (List.nodup_cons.mpr ⟨hp.out, hp.base.nodup⟩)
    · intro j hj
      rcases (hmem j).mp hj with rfl | hj
      · exact ⟨hp.pos, hlt⟩
      · exact hp.base.range j hj
    · intro j h0 hl
      left
      rcases hp.all j h0 hl with hj | hj
      · exact (hmem j).mpr (.inr hj)
      · exact (hmem j).mpr (.inl (by simpa using hj))
    · intro j hj
      obtain ⟨h1, h2⟩ := hp.bound j hj
      exact ⟨(hmem j).mpr (.inr h1), h2⟩
  | false =>
    have hsame := allIds_set_same (sc' := { sc with symbols := some t }) hi (hno rfl)
    refine ⟨by simp, fun _ => ⟨?_, hmv.keep⟩⟩
    have hp' : Pend hd id sh
        { h with s := { h.s with scopes := h.s.scopes.set i { sc with symbols := some t } }, evs := evs } := by
      refine ⟨base_retable hp.base hi rfl rfl hg ?_ ?_, hret.covered hp.covered, ?_, ?_, hp.pos, hp.shape, hrun, ?_,
        hlv⟩
      · show (allIds (h.s.scopes.set i { sc with symbols := some t })).Nodup
        rw [hsame]; exact hp.base.nodup
      · show ∀ id ∈ allIds (h.s.scopes.set i { sc with symbols := some t }), _
        rw [hsame]; exact hp.base.range
      · intro j h0 hl
        show j ∈ allIds (h.s.scopes.set i { sc with symbols := some t }) ∨ _
        rw [hsame]; exact hp.all j h0 hl
      · show id ∉ allIds (h.s.scopes.set i { sc with symbols := some t })
        rw [hsame]; exact hp.out
      · intro j hj
        show j ∈ allIds (h.s.scopes.set i { sc with symbols := some t }) ∧ _
        rw [hsame]; exact hp.bound j hj
    exact hp'.rejected clear

end Skull.SemHeap
