import Verif.Proofs.SemHeapScope
/-
Blocks.
-/
namespace Skull.SemHeap

open Skull.Heap
open Skull.Spec (MemEvent Life memRun memStep setLife)

/-- The check has entered the scope `c` inside of the scope `i`. -/
structure Entered (hd c i : Nat) (h h' : HS) : Prop where
  ok : Ok c h'
  tip : Tip h'.s
  cur : h'.s.scope = some c
  keep : Keep h.s h'.s
  par : ∃ cs, h'.s.scopes[c]? = some cs ∧ cs.parent = some i
  here : ∃ sc, h'.s.scopes[i]? = some sc ∧ sc.next = none ∧ sc.child = some c
  chain : Chain h'.s.scopes i hd
  «from» : h.s.scope = some i ∨ h.s.scopes = []
  others : ∀ (j : Nat) (sc : Scope), h.s.scopes[j]? = some sc → h.s.scope ≠ some j →
    ∃ sc', h'.s.scopes[j]? = some sc' ∧ sc'.next = sc.next ∧ sc'.child = sc.child
  inner : h.s.scopes.length ≤ c ∨ Edge h.s.scopes i true c

theorem entered_attach {h : HS} {s1 : SS} {evs1 : List Event} {i : Nat} {sc : Scope} {hd : Nat}
    (hi : s1.scopes[i]? = some sc) (hn : sc.next = none) (hch : sc.child = none) (hb : Base s1) (hc : Covered s1.scopes)
    (ha : AllIn s1 []) (hr : Run evs1 (lifeOf s1)) (hbo : BoundOk { s := s1, evs := evs1, bound := h.bound })
    (hk1 : Keep h.s s1) (hchain : Chain s1.scopes i hd) (hfrom : h.s.scope = some i ∨ h.s.scopes = [])
    (ho : ∀ (j : Nat) (sc : Scope), h.s.scopes[j]? = some sc → h.s.scope ≠ some j → j ≠ i ∧ s1.scopes[j]? = some sc) :
    Entered hd s1.scopes.length i h
      { s := { s1 with scopes := attach s1.scopes true i sc, scope := some s1.scopes.length },
        evs := evs1 ++ [.alloc (.scope s1.scopes.length)], bound := h.bound } := by
  have hlt := lt_of_get hi
  have hk := attach_keep (s := s1) (s' := { s1 with scopes := attach s1.scopes true i sc, scope := some s1.scopes.length })
    (k := true) hi hch rfl rfl hb.graph
  have hnew : (attach s1.scopes true i sc)[s1.scopes.length]? = some (newScope true i) := by rw [attach_get hi, if_pos rfl]
  refine ⟨attach_ok (k := true) (s := s1) (s' := { s1 with scopes := attach s1.scopes true i sc, scope := some s1.scopes.length }) (bound := h.bound) hi hch rfl rfl hb hc ha hr hbo ?_, ?_, rfl, hk1.trans hk, ⟨_, hnew, rfl⟩, ?_, ?_, hfrom, ?_, .inl hk1.len⟩
  · exact Chain.head hnew rfl
  · intro j sj hj hg
    cases hj
    have hg : (attach s1.scopes true i sc)[s1.scopes.length]? = some sj := hg
    rw [hnew] at hg
    cases hg
    exact ⟨rfl, rfl⟩
  · refine ⟨setLink true sc s1.scopes.length, ?_, hn, rfl⟩
    show (attach s1.scopes true i sc)[i]? = _
    rw [attach_get hi, if_neg (by omega), if_pos rfl]
  · exact hchain.keep hk
  · intro j sj hj hne
    obtain ⟨h1, h2⟩ := ho j sj hj hne
    have := lt_of_get h2
    refine ⟨sj, ?_, rfl, rfl⟩
    show (attach s1.scopes true i sc)[j]? = _
    rw [attach_get hi, if_neg (by omega), if_neg h1]
    exact h2

theorem child_ok {hd : Nat} {h : HS} (ho : Ok hd h) (hr : Ready h.s) (R : HS → Prop) :
    Outcome (makeChildScopeH h) (makeChildScope h.s) (fun _ h' => ∃ c i, Entered hd c i h h') R := by
  cases hc : h.s.scope with
  | none =>
    have hl := ho.lvl
    unfold Lvl at hl
    rw [hc] at hl
    obtain ⟨hd0, h0⟩ := hl
    have e1 : makeChildScope h.s = .ok () { h.s with scopes := attach [{}] true 0 {}, scope := some 1 } := by
      simp only [makeChildScope, bind, Chk.bind, parentScope, hc, h0, List.length_nil, List.nil_append, enterChild]
      rfl
    have e2 : makeChildScopeH h = .ok ()
        { s := { h.s with scopes := attach [{}] true 0 {}, scope := some 1 },
          evs := h.evs ++ [.alloc (.scope 0)] ++ [.alloc (.scope 1)], bound := h.bound } := by
      simp only [makeChildScopeH, parentScopeH, bind, HChk.bind, Heap.lift, Chk.get, parentScope, hc, h0, List.length_nil,
        List.nil_append, Option.isNone_none, if_true, pure, emit, enterChildH, hasChild]
      rfl
    rw [e1, e2]
    refine ⟨rfl, rfl, 1, 0, ?_⟩
    have hb1 : Base { h.s with scopes := [{}] } := base_first ho.base h0 rfl rfl
    refine entered_attach (s1 := { h.s with scopes := [{}] }) (i := 0) (sc := {}) (evs1 := h.evs ++ [.alloc (.scope 0)]) rfl rfl rfl hb1 covered_first ?_ ?_ ?_
      (keep_first h0 rfl) ?_ (.inr h0) ?_
    · intro id hp hlt
      have := ho.all id hp hlt
      rw [allIds_first h0] at this
      exact this
    · refine Run.append ho.run ?_
      rw [run_alloc]
      · show some _ = some _
        congr 1
        exact life_first h0 rfl rfl
      · simp [lifeOf, lifeB, owns, h0]
    · intro id hid
      have hid : id ∈ h.bound := hid
      rw [bound_nil ho.bound h0] at hid
      cases hid
    · rw [hd0]
      exact .head rfl rfl
    · rw [h0]
      intro j sj hj
      simp at hj
  | some i =>
    have hl := ho.lvl
    unfold Lvl at hl
    rw [hc] at hl
    obtain ⟨sc, hi⟩ := hl.exists
    obtain ⟨hn, hready⟩ := hr i sc hc hi
    have hlt := lt_of_get hi
    cases hch : sc.child with
    | none =>
      have e1 : makeChildScope h.s = .ok () { h.s with scopes := attach h.s.scopes true i sc, scope := some h.s.scopes.length } := by
        simp only [makeChildScope, bind, Chk.bind, parentScope, hc, enterChild, hi, hch]
        rfl
      have e2 : makeChildScopeH h = .ok ()
          { s := { h.s with scopes := attach h.s.scopes true i sc, scope := some h.s.scopes.length },
            evs := h.evs ++ [.alloc (.scope h.s.scopes.length)], bound := h.bound } := by
        simp only [makeChildScopeH, parentScopeH, bind, HChk.bind, Heap.lift, Chk.get, parentScope, hc, Option.isNone_some,
          Bool.false_eq_true, if_false, pure, enterChildH, hasChild, hi, Option.bind_some, hch, emit, enterChild, Option.isSome_none]
        rfl
      rw [e1, e2]
      refine ⟨rfl, rfl, h.s.scopes.length, i, ?_⟩
      refine entered_attach (s1 := h.s) hi hn hch ho.base ho.covered ho.all ho.run ho.bound (.refl _) hl (.inl hc) ?_
      intro j sj hj hne
      exact ⟨fun e => hne (by rw [e]; exact hc), hj⟩
    | some c =>
      obtain ⟨cs, hcs, hpar, hlast⟩ := ho.base.graph.up i sc c hi hch
      obtain ⟨hcn, hcc⟩ := hready c cs hch hcs
      have hset : h.s.scopes.set c { cs with parent := some i } = h.s.scopes := by
        have : ({ cs with parent := some i } : Scope) = cs := by cases cs; simp_all
        rw [this]
        apply List.ext_getElem?
        intro j
        rw [set_get (lt_of_get hcs)]
        split
        · rename_i e; rw [e, hcs]
        · rfl
      have e1 : makeChildScope h.s = .ok () { h.s with scope := some c } := by
        simp only [makeChildScope, bind, Chk.bind, parentScope, hc, enterChild, hi, hch, hcs, hset]
      have e2 : makeChildScopeH h = .ok () { s := { h.s with scope := some c }, evs := h.evs, bound := h.bound } := by
        simp only [makeChildScopeH, parentScopeH, bind, HChk.bind, Heap.lift, Chk.get, parentScope, hc, Option.isNone_some,
          Bool.false_eq_true, if_false, pure, enterChildH, hasChild, hi, Option.bind_some, hch, Option.isSome_some, if_true,
          enterChild, hcs, hset]
      rw [e1, e2]
      refine ⟨rfl, rfl, c, i, ⟨⟨ho.base.graph, ho.base.good, ho.base.nodup, ho.base.range, ho.base.main⟩, ho.covered, ho.all, ho.run,
        ho.bound, Chain.head hcs hlast⟩, ?_, rfl, ⟨Nat.le_refl _, fun _ sc h => ⟨sc, h, rfl, rfl⟩, fun _ _ _ h _ => h, [], ?_⟩,
        ⟨cs, hcs, hpar⟩, ⟨sc, hi, hn, hch⟩, hl, .inl hc, fun _ sc h _ => ⟨sc, h, rfl, rfl⟩, .inr ⟨sc, hi, hch⟩⟩
      · intro j sj hj hg
        cases hj
        have hg : h.s.scopes[c]? = some sj := hg
        rw [hcs] at hg
        cases hg
        exact ⟨hcn, hcc⟩
      · simp [shapes]

/-- `restore_parent_scope` at the scopes inside of scope `i`. -/
theorem restore_eq {s : SS} (hg : Graph s.scopes) {c i : Nat} (hl : Lvl s c) (hs : ∃ k, s.scope = some k) {cs : Scope}
    (hc : s.scopes[c]? = some cs) (hp : cs.parent = some i) : restoreParentScope s = .ok () { s with scope := some i } := by
  obtain ⟨k, hk⟩ := hs
  unfold Lvl at hl
  rw [hk] at hl
  have h1 := Chain.findHead hg hl hk
  simp only [restoreParentScope, bind, Chk.bind, resetScopeHead, h1, toParent, hc, hp]

theorem Lvl.some_of {s s1 : SS} {c : Nat} (hl : Lvl s c) (hk : Keep s1 s) (h1 : ∃ sc, s1.scopes[c]? = some sc) :
    ∃ k, s.scope = some k := by
  unfold Lvl at hl
  cases e : s.scope with
  | some k => exact ⟨k, rfl⟩
  | none =>
    rw [e] at hl
    obtain ⟨sc, h1⟩ := h1
    obtain ⟨sc', h2, -⟩ := hk.fixed _ _ h1
    rw [hl.2] at h2
    simp at h2

/-- The state with another current scope. -/
def HS.at (h : HS) (i : Nat) : HS := { h with s := { h.s with scope := some i } }

theorem keep_at {s s' : SS} (h : Keep s s') (o : Option Nat) : Keep s { s' with scope := o } := ⟨h.len, h.fixed, h.edges, h.syms⟩

theorem Ok.at {hd hd' i : Nat} {h : HS} (ho : Ok hd h) (hc : Chain h.s.scopes i hd') : Ok hd' (HS.at h i) :=
  ⟨⟨ho.base.graph, ho.base.good, ho.base.nodup, ho.base.range, ho.base.main⟩, ho.covered, ho.all, ho.run, ho.bound, hc⟩

theorem Bad.at {hd hd' i : Nat} {h : HS} (ho : Bad hd h) (hc : Chain h.s.scopes i hd') : Bad hd' (HS.at h i) := by
  obtain ⟨m, h1, h2⟩ := ho.held
  exact ⟨⟨ho.base.graph, ho.base.good, ho.base.nodup, ho.base.range, ho.base.main⟩,
    ⟨m, h1, ⟨h2.state, h2.scope, h2.table, h2.syms⟩⟩, ho.bound, hc⟩

theorem restoring_ok {hd c i : Nat} {h h1 : HS} (he : Entered hd c i h h1) {m : HChk α} {k : Chk α} {Q : α → HS → Prop}
    (hm : Outcome (m h1) (k h1.s) (fun a h2 => Ok c h2 ∧ Moved h1.s h2.s ∧ Q a h2) (fun h2 => Bad c h2 ∧ Keep h1.s h2.s)) :
    Outcome (restoring m h1) ((k >>= fun a => restoreParentScope >>= fun _ => pure a) h1.s)
      (fun a h3 => ∃ h2, Ok c h2 ∧ Moved h1.s h2.s ∧ Q a h2 ∧ h3 = HS.at h2 i ∧ Ok hd h3)
      (fun h3 => Bad hd h3 ∧ Keep h.s h3.s) := by
  obtain ⟨cs, hcs, hpar⟩ := he.par
  unfold restoring
  show Outcome _ (Chk.bind k _ h1.s) _ _
  unfold Chk.bind
  cases e1 : m h1 with
  | ok a h2 =>
    cases e2 : k h1.s with
    | ok b s =>
      rw [e1, e2] at hm
      obtain ⟨rfl, rfl, ho, hmv, hq⟩ := hm
      obtain ⟨cs', hcs', -, hpar'⟩ := hmv.keep.fixed _ _ hcs
      have hre := restore_eq ho.base.graph ho.lvl (ho.lvl.some_of hmv.keep ⟨cs, hcs⟩) hcs' (hpar'.trans hpar)
      have hok := ho.at (he.chain.keep hmv.keep)
      have ea : (do lift restoreParentScope; pure a : HChk α) h2 = .ok a (HS.at h2 i) := by
        simp only [bind, HChk.bind, Heap.lift, hre]; rfl
      have eb : (restoreParentScope >>= fun _ => pure a : Chk α) h2.s = .ok a { h2.s with scope := some i } := by
        simp only [bind, Chk.bind, hre]; rfl
      show Outcome ((do lift restoreParentScope; pure a : HChk α) h2) ((restoreParentScope >>= fun _ => pure a : Chk α) h2.s) _ _
      rw [ea, eb]
      exact ⟨rfl, rfl, h2, ho, hmv, hq, rfl, hok⟩
    | fail s => rw [e1, e2] at hm; exact hm.elim
    | ub => rw [e1, e2] at hm; exact hm.elim
  | fail h2 =>
    cases e2 : k h1.s with
    | ok b s => rw [e1, e2] at hm; exact hm.elim
    | fail s =>
      rw [e1, e2] at hm
      obtain ⟨ho, hmv⟩ := hm
      obtain ⟨cs', hcs', -, hpar'⟩ := hmv.fixed _ _ hcs
      have hre := restore_eq ho.base.graph ho.lvl (ho.lvl.some_of hmv ⟨cs, hcs⟩) hcs' (hpar'.trans hpar)
      have ea : (do lift restoreParentScope; stop : HChk α) h2 = .fail (HS.at h2 i) := by
        simp only [bind, HChk.bind, Heap.lift, hre]; rfl
      show Outcome ((do lift restoreParentScope; stop : HChk α) h2) (SRes.fail s) _ _
      rw [ea]
      exact ⟨ho.at (he.chain.keep hmv), keep_at (he.keep.trans hmv) _⟩
    | ub => rw [e1, e2] at hm; exact hm.elim
  | ub =>
    cases e2 : k h1.s with
    | ok b s => rw [e1, e2] at hm; exact hm.elim
    | fail s => rw [e1, e2] at hm; exact hm.elim
    | ub => trivial

/-- `Frame` for a step that enters a scope inside of the current one. -/
structure FrameB (s s' : SS) : Prop where
  others : ∀ (j : Nat) (sc : Scope), s.scopes[j]? = some sc → s.scope ≠ some j →
    (∀ i, s.scope = some i → ¬ Edge s.scopes i true j) →
    ∃ sc', s'.scopes[j]? = some sc' ∧ sc'.next = sc.next ∧ sc'.child = sc.child
  cursor : ∀ c, s'.scope = some c → s.scope = some c ∨ s.scopes.length ≤ c

theorem Tip.noEdge {s : SS} (ht : Tip s) {i : Nat} {k : Bool} {j : Nat} (hi : s.scope = some i) : ¬ Edge s.scopes i k j := by
  rintro ⟨sc, h1, h2⟩
  obtain ⟨h3, h4⟩ := ht i sc hi h1
  unfold link at h2
  rw [h3, h4] at h2
  cases k <;> cases h2

theorem FrameB.trans {s s1 s2 : SS} (ht : Tip s) (hm : Moved s s1) (hg : Graph s1.scopes) (hf : FrameB s1 s2) : Frame s s2 := by
  constructor
  · intro j sc hj hne
    have hjl := lt_of_get hj
    obtain ⟨sc', h1, h2, h3⟩ := hm.frame.others j sc hj hne
    have n1 : s1.scope ≠ some j := by
      intro hc
      rcases hm.frame.cursor j hc with hc | hc
      · exact hne hc
      · omega
    have n2 : ∀ i, s1.scope = some i → ¬ Edge s1.scopes i true j := by
      intro i hi hed
      have hlt := (hg.down _ _ _ hed).1
      have hold := hm.keep.edges _ _ _ hed hjl
      rcases hm.frame.cursor i hi with hc | hc
      · exact ht.noEdge hc hold
      · omega
    obtain ⟨sc'', h4, h5, h6⟩ := hf.others j sc' h1 n1 n2
    exact ⟨sc'', h4, h5.trans h2, h6.trans h3⟩
  · intro c hc
    rcases hf.cursor c hc with hc | hc
    · exact hm.frame.cursor c hc
    · exact .inr (Nat.le_trans hm.keep.len hc)

/-- After the block of scope `i`. -/
theorem after_block {hd c i : Nat} {h h1 h2 : HS} (he : Entered hd c i h h1) (hg : Graph h1.s.scopes) (hm : Moved h1.s h2.s) :
    (∃ sc, h2.s.scopes[i]? = some sc ∧ sc.next = none ∧ sc.child = some c) ∧ FrameB h.s (HS.at h2 i).s := by
  obtain ⟨sc, h3, h4, h5⟩ := he.here
  have hic : i < c := (hg.down i true c ⟨sc, h3, h5⟩).1
  constructor
  · obtain ⟨sc', h6, h7, h8⟩ := hm.frame.others i sc h3 (by rw [he.cur]; intro e; cases e; omega)
    exact ⟨sc', h6, h7.trans h4, h8.trans h5⟩
  · constructor
    · intro j sj hj hne hed
      obtain ⟨sj', h6, h7, h8⟩ := he.others j sj hj hne
      have hjl := lt_of_get hj
      obtain ⟨sj'', h9, h10, h11⟩ := hm.frame.others j sj' h6 (by
        rw [he.cur]
        intro e
        cases e
        rcases he.inner with hl | hl
        · omega
        · rcases he.from with hf | hf
          · exact hed i hf hl
          · rw [hf] at hj; simp at hj)
      exact ⟨sj'', h9, h10.trans h7, h11.trans h8⟩
    · intro k hk
      cases hk
      rcases he.from with hf | hf
      · exact .inl hf
      · rw [hf]; exact .inr (Nat.zero_le _)

theorem adjacent_ok {hd i : Nat} {h : HS} (ho : Ok hd h) (hc : h.s.scope = some i) {sc : Scope} (hi : h.s.scopes[i]? = some sc)
    (hn : sc.next = none) (R : HS → Prop) :
    Outcome (makeAdjacentScopeH h) (makeAdjacentScope h.s)
      (fun _ h' => Ok hd h' ∧ Tip h'.s ∧ Keep h.s h'.s ∧ h'.s.scope = some h.s.scopes.length ∧
        ∀ j, j < h.s.scopes.length → j ≠ i → h'.s.scopes[j]? = h.s.scopes[j]?) R := by
  have hlt := lt_of_get hi
  have e1 : makeAdjacentScope h.s = .ok () { h.s with scopes := attach h.s.scopes false i sc, scope := some h.s.scopes.length } := by
    simp only [makeAdjacentScope, hc, hi]
    rfl
  have e2 : makeAdjacentScopeH h = .ok ()
      { s := { h.s with scopes := attach h.s.scopes false i sc, scope := some h.s.scopes.length },
        evs := h.evs ++ [.alloc (.scope h.s.scopes.length)], bound := h.bound } := by
    simp only [makeAdjacentScopeH, bind, HChk.bind, Heap.lift, Chk.get, emit, e1]
  rw [e1, e2]
  have hnew : (attach h.s.scopes false i sc)[h.s.scopes.length]? = some (newScope false i) := by rw [attach_get hi, if_pos rfl]
  have hk := attach_keep (s := h.s) (s' := { h.s with scopes := attach h.s.scopes false i sc, scope := some h.s.scopes.length })
    (k := false) hi hn rfl rfl ho.base.graph
  have hl := ho.lvl
  unfold Lvl at hl
  rw [hc] at hl
  refine ⟨rfl, rfl, attach_ok (k := false) (s := h.s) (s' := { h.s with scopes := attach h.s.scopes false i sc, scope := some h.s.scopes.length }) (bound := h.bound) hi hn rfl rfl ho.base ho.covered ho.all ho.run ho.bound ?_, ?_, hk, rfl, ?_⟩
  · exact Chain.step hnew rfl (hl.keep hk)
  · intro j sj hj hg
    cases hj
    have hg : (attach h.s.scopes false i sc)[h.s.scopes.length]? = some sj := hg
    rw [hnew] at hg
    cases hg
    exact ⟨rfl, rfl⟩
  · intro j hj hne
    show (attach h.s.scopes false i sc)[j]? = _
    rw [attach_get hi, if_neg (by omega), if_neg hne]

theorem resetHead_ok {c : Nat} {h : HS} (ho : Ok c h) (hs : ∃ k, h.s.scope = some k) :
    resetScopeHead h.s = .ok () { h.s with scope := some c } := by
  obtain ⟨k, hk⟩ := hs
  have hl := ho.lvl
  unfold Lvl at hl
  rw [hk] at hl
  simp only [resetScopeHead, Chain.findHead ho.base.graph hl hk]

theorem chk_assoc (m : Chk α) (f : α → Chk β) (g : β → Chk γ) : (m >>= f) >>= g = m >>= fun a => f a >>= g := by
  funext s
  show Chk.bind (Chk.bind m f) g s = Chk.bind m (fun a => Chk.bind (f a) g) s
  unfold Chk.bind
  cases m s <;> rfl

theorem chk_pure (a : α) (f : α → Chk β) : (pure a >>= f : Chk β) = f a := rfl

/-- A block: a function, or an `if`, an `else`, a loop, a namespace. -/
theorem block_ok {hd : Nat} {h : HS} (ho : Ok hd h) (hr : Ready h.s) {nodes : HChk ATree} {cnodes : Chk ATree}
    (hn : ∀ c h1, Ok c h1 → Tip h1.s → Outcome (nodes h1) (cnodes h1.s) (fun _ h2 => Ok c h2 ∧ Moved h1.s h2.s)
      (fun h2 => Bad c h2 ∧ Keep h1.s h2.s)) :
    Outcome (blockH nodes h) (block cnodes h.s) (fun _ h' => Ok hd h' ∧ Tip h'.s ∧ Keep h.s h'.s ∧ FrameB h.s h'.s)
      (fun h' => Bad hd h' ∧ Keep h.s h'.s) := by
  unfold blockH block
  refine Outcome.bind (child_ok ho hr _) ?_
  rintro _ h1 ⟨c, i, he⟩
  have hrest := restoring_ok (Q := fun _ _ => True) he (m := do let r ← nodes; lift resetScopeHead; pure r)
    (k := do let r ← cnodes; resetScopeHead; pure r) (by
      refine Outcome.bind (hn c h1 he.ok he.tip) ?_
      rintro r h2 ⟨ho2, hm2⟩
      obtain ⟨cs, hcs, -⟩ := he.par
      have hsome := ho2.lvl.some_of hm2.keep ⟨cs, hcs⟩
      have hreset := resetHead_ok ho2 hsome
      obtain ⟨cs', hcs', hlast, -⟩ := hm2.keep.fixed _ _ hcs
      have hchain : Chain h2.s.scopes c c := by
        obtain ⟨k, hk⟩ := hsome
        have := ho2.lvl
        unfold Lvl at this
        rw [hk] at this
        obtain ⟨x, hx1, hx2⟩ := this.root
        exact .head hx1 hx2
      have ea : (do lift resetScopeHead; pure r : HChk ATree) h2 = .ok r (HS.at h2 c) := by
        simp only [bind, HChk.bind, Heap.lift, hreset]; rfl
      have eb : (do resetScopeHead; pure r : Chk ATree) h2.s = .ok r { h2.s with scope := some c } := by
        simp only [bind, Chk.bind, hreset]; rfl
      show Outcome ((do lift resetScopeHead; pure r : HChk ATree) h2) ((do resetScopeHead; pure r : Chk ATree) h2.s) _ _
      rw [ea, eb]
      refine ⟨rfl, rfl, ho2.at hchain, ⟨keep_at hm2.keep _, ?_⟩, trivial⟩
      exact ⟨hm2.frame.others, fun k hk => by cases hk; exact .inl he.cur⟩)
  have hassoc : (do let r ← cnodes; resetScopeHead; restoreParentScope; makeAdjacentScope; pure r : Chk ATree) =
      ((do let r ← (do let r ← cnodes; resetScopeHead; pure r : Chk ATree); restoreParentScope; pure r : Chk ATree) >>= fun r => do
        makeAdjacentScope
        pure r) := by
    simp only [chk_assoc, chk_pure]
  rw [hassoc]
  refine Outcome.bind hrest ?_
  rintro r h3 ⟨h2, ho2, hm2, -, rfl, ho3⟩
  obtain ⟨⟨sc, h4, h5, h6⟩, hfb⟩ := after_block he he.ok.base.graph hm2
  refine Outcome.bind (adjacent_ok ho3 rfl h4 h5 _) ?_
  rintro _ h7 ⟨ho7, ht7, hk7, hc7, hg7⟩
  refine ⟨rfl, rfl, ho7, ht7, (keep_at (he.keep.trans hm2.keep) _).trans hk7, ?_, ?_⟩
  · intro j sj hj hne hed
    obtain ⟨sj', h8, h9, h10⟩ := hfb.others j sj hj hne hed
    have hji : j ≠ i := by
      rintro rfl
      rcases he.from with hf | hf
      · exact hne hf
      · rw [hf] at hj; simp at hj
    rw [hg7 j (lt_of_get h8) hji]
    exact ⟨sj', h8, h9, h10⟩
  · intro k hk
    rw [hc7] at hk
    cases hk
    exact .inr (Nat.le_trans he.keep.len hm2.keep.len)

end Skull.SemHeap
