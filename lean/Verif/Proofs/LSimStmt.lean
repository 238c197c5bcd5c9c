import Verif.Proofs.LSimExpr
/-
Running the code of statements.
-/
namespace Skull
open Spec

section
variable {ω : Type} {cfg : LCfg} {R : LEnv} {G : List LGlobal} {M : List LFunc} {F : Floats} {c : RunCtx ω}

/- ### Variables outside functions -/

theorem inits_defs : ∀ {t : ATree} {id}, id ∈ inits t → id ∈ t.defs
  | .nil, _, h => by cases h
  | .unchecked _, _, h => by cases h
  | .node ann stmt tok child next, id, h => by
    simp only [inits, List.mem_append] at h
    rcases h with (h | h) | h
    · split at h
      · simp only [List.mem_singleton] at h
        subst h
        simp [ATree.defs]
      · cases h
    · split at h
      · cases h
      · cases h
      · exact ATree.defs_child (inits_defs h)
    · exact ATree.defs_next (inits_defs h)

theorem nodup_next {ann stmt tok child next} (h : (ATree.node ann stmt tok child next).defs.Nodup) : next.defs.Nodup := by
  cases ann <;> simp only [ATree.defs, List.nodup_cons, List.nodup_append] at h
  case varDef => exact h.2.2.1
  case func => exact h.2.2.1.2.1
  all_goals exact h.2.1

theorem nodup_child {ann stmt tok child next} (h : (ATree.node ann stmt tok child next).defs.Nodup) : child.defs.Nodup := by
  cases ann <;> simp only [ATree.defs, List.nodup_cons, List.nodup_append] at h
  case varDef => exact h.2.1
  case func => exact h.2.2.1.1
  all_goals exact h.1

theorem nodup_disjoint {ann stmt tok child next} (h : (ATree.node ann stmt tok child next).defs.Nodup) : ∀ id ∈ child.defs, id ∉ next.defs := by
  cases ann <;> simp only [ATree.defs, List.nodup_cons, List.nodup_append] at h
  case varDef => exact fun i h1 h2 => h.2.2.2 i h1 i h2 rfl
  case func => exact fun i h1 h2 => h.2.2.1.2.2 i h1 i h2 rfl
  all_goals exact fun i h1 h2 => h.2.2 i h1 i h2 rfl

theorem nodup_var {id e stmt tok child next} (h : (ATree.node (.varDef id e) stmt tok child next).defs.Nodup) : id ∉ next.defs := by
  simp only [ATree.defs, List.nodup_cons, List.mem_append, not_or] at h
  exact h.1.2

theorem TopOk.next {top inl ann stmt tok child next L L'} {S S' : SState ω} (h : TopOk cfg top inl (.node ann stmt tok child next) L S)
    (hL : top = true → ∀ id, L' id = none) (hS : top = true → ∀ id ∈ next.defs, S.vars id = none → S'.vars id = none) :
    TopOk cfg top inl next L' S' := by
  intro ht
  obtain ⟨h1, h2, h3, h4⟩ := h ht
  exact ⟨h1.2.2, nodup_next h2, hL ht, fun hi id hid => hS ht id (inits_defs hid) (h4 hi id (by simp [inits, hid]))⟩

/-- Statements whose block is in the same function and loop. -/
def keepsLoop : Stmt → Bool
  | .funcProto _ | .whiles _ => false
  | _ => true

theorem TopOk.child {top inl ann stmt tok child next L} {S S' : SState ω} (h : TopOk cfg top inl (.node ann stmt tok child next) L S)
    (hs : keepsLoop stmt = true) (hS : ∀ id, S.vars id = none → S'.vars id = none) :
    TopOk cfg top inl child L S' := by
  intro ht
  obtain ⟨h1, h2, h3, h4⟩ := h ht
  refine ⟨?_, nodup_child h2, h3, fun hi id hid => hS id (h4 hi id ?_)⟩
  · have := h1.2.1
    cases stmt <;> first | exact this | cases hs
  · simp only [inits, List.mem_append]
    refine .inl (.inr ?_)
    cases stmt <;> first | exact hid | cases hs

theorem TopOk.loop {top inl ann x tok child next L} {S S' : SState ω} (h : TopOk cfg top inl (.node ann (.whiles x) tok child next) L S) :
    TopOk cfg top true child L S' := by
  intro ht
  obtain ⟨h1, h2, h3, h4⟩ := h ht
  exact ⟨h1.2.1, nodup_child h2, h3, fun h => by cases h⟩

theorem TopOk.after {top inl L} {S : SState ω} : ∀ {t : ATree}, TopOk cfg top inl t L S → TopOk cfg top inl (afterChain t) L S
  | .nil, h => h
  | .unchecked _, h => h
  | .node ann stmt tok child next, h => by
    have nx : TopOk cfg top inl next L S := h.next (fun ht => (h ht).2.2.1) fun _ _ _ h => h
    cases stmt
    case elifs => exact TopOk.after (t := next) nx
    case comment => exact TopOk.after (t := next) nx
    case elses => exact nx
    all_goals exact h

theorem TopOk.keep {top inl t L L'} {S S' : SState ω} (h : TopOk cfg top inl t L S) (hL : top = true → ∀ id, L' id = none)
    (hS : top = true → ∀ id ∈ t.defs, S.vars id = none → S'.vars id = none) : TopOk cfg top inl t L' S' := by
  intro ht
  obtain ⟨h1, h2, h3, h4⟩ := h ht
  exact ⟨h1, h2, hL ht, fun hi id hid => hS ht id (inits_defs hid) (h4 hi id hid)⟩

/- ### Constant values -/

theorem BinCode.constant {op a b n is v m} (hf : FoldSound F cfg.fold) (h : BinCode cfg op a b n is v m) (hv : v.isConstant = true) :
    a.isConstant = true ∧ b.isConstant = true := by
  cases h with
  | fold h => exact ⟨(hf _ _ _ _ h).1, (hf _ _ _ _ h).2.1⟩
  | instr => cases hv

theorem OpCode.constant {o ty a b n is v m} (hf : FoldSound F cfg.fold) (h : OpCode cfg o ty a b n is v m) :
    v.isConstant = true → a.isConstant = true ∧ b.isConstant = true := by
  induction h with
  | bin _ h => exact h.constant hf
  | builtin => intro hv; cases hv
  | isnt h1 h2 ih => exact fun hv => ih (h2.constant hf hv).1

theorem const_literal (hl : CodeOf cfg R G M F c) : ∀ {n e L S v S' N is x N'}, ECode cfg R N e is x N' → x.val.isConstant = true →
    evalE c n e L S = some (v, S') → (∀ id, L id = none) → (∀ id, S.vars id ≠ none → R.isGlobal id = true) → literalOnly e = true
  | 0, _, _, _, _, _, _, _, _, _, _, _, h, _, _ => by simp [evalE] at h
  | n + 1, e, L, S, v, S', N, is, x, N', hc, hx, h, hL, hS => by
    have keep : ∀ {e S v S'}, evalE c n e L S = some (v, S') → (∀ id, S.vars id ≠ none → R.isGlobal id = true) →
        ∀ id, S'.vars id ≠ none → R.isGlobal id = true := by
      intro e S v S' he hS id hid
      exact hS id fun hn => hid ((keepAt n).expr he id trivial hn)
    cases hc with
    | load => cases hx
    | value h1 h2 h3 =>
      simp only [evalE, hL] at h
      split at h
      · rename_i hv
        rw [hS _ (by rw [hv]; simp)] at h3
        cases h3
      · cases h
    | const => rfl
    | call => cases hx
    | ref =>
      simp only [evalE] at h
      rw [hl.arith] at h
      split at h
      · split at h
        · rename_i hz
          exact absurd rfl (un_ref hz).1
        · cases h
      · cases h
    | deref => cases hx
    | not h1 h2 =>
      simp only [evalE] at h
      split at h
      · rename_i he
        have := const_literal hl h1 (h2.constant hl.fold hx).1 he hL hS
        simpa [literalOnly] using this
      · cases h
    | neg h1 h2 =>
      simp only [evalE] at h
      split at h
      · rename_i he
        have := const_literal hl h1 (h2.constant hl.fold hx).2 he hL hS
        simpa [literalOnly] using this
      · cases h
    | bin h1 h2 h3 =>
      simp only [evalE] at h
      split at h
      · rename_i he1
        split at h
        · rename_i he2
          have := h3.constant hl.fold hx
          simp only [literalOnly, Bool.and_eq_true]
          exact ⟨const_literal hl h1 this.1 he1 hL hS, const_literal hl h2 this.2 he2 hL (keep he1 hS)⟩
        · cases h
      · cases h

/- ### Storing -/

theorem Vars.set_same {L : Vars} {id v} : L.set id v id = some v := if_pos rfl
theorem Vars.set_other {L : Vars} {id v i} (h : i ≠ id) : L.set id v i = L i := if_neg h

/-- A variable gets a value, and so does its global. -/
theorem GlobRel.store (hinj : ∀ i j g, R.isGlobal i = true → R.isGlobal j = true → R.refs i = some (.global g) → R.refs j = some (.global g) → i = j)
    {S : SState ω} {m : Mem ω} {id g v} (h : GlobRel cfg R G S m) (hr : R.refs id = some (.global g)) (hg : R.isGlobal id = true)
    (hi : ∀ var d, cfg.var id = some var → var.isConst = true → G[g]? = some d → constVal d.init = none) :
    GlobRel cfg R G { S with vars := S.vars.set id v } { m with glob := fun i => if i = g then some (.val v) else m.glob i } := by
  have other : ∀ {i j}, i ≠ id → R.isGlobal i = true → R.refs i = some (.global j) → j ≠ g := by
    rintro i j hne h1 h2 rfl
    exact hne (hinj i id j h1 hg h2 hr)
  refine ⟨h.world, fun i w hw => ?_, fun i j var d w h1 h2 h3 h4 h5 h6 => ?_⟩
  · by_cases hne : i = id
    · subst hne
      have hw : S.vars.set i v i = some w := hw
      rw [Vars.set_same] at hw
      cases hw
      exact ⟨g, hr, hg, if_pos rfl⟩
    · have hw : S.vars.set id v i = some w := hw
      rw [Vars.set_other hne] at hw
      obtain ⟨j, h1, h2, h3⟩ := h.glob i w hw
      exact ⟨j, h1, h2, by rw [← h3]; exact if_neg (other hne h2 h1)⟩
  · by_cases hne : i = id
    · subst hne
      rw [hr] at h2
      cases h2
      rcases h4 with h4 | h4
      · rw [hi var d h1 h4 h5] at h6
        cases h6
      · have h4 : S.vars.set i v i = none := h4
        rw [Vars.set_same] at h4
        cases h4
    · have h4 : var.isConst = true ∨ S.vars i = none := h4.imp_right fun h4 => by
        have h4 : S.vars.set id v i = none := h4
        rwa [Vars.set_other hne] at h4
      have := h.init i j var d w h1 h2 h3 h4 h5 h6
      rw [← this]
      exact if_neg (other hne h3 h2)

/-- A variable gets the initial value of its global. -/
theorem GlobRel.constant {S : SState ω} {m : Mem ω} {id g v var d} (h : GlobRel cfg R G S m) (hv : cfg.var id = some var)
    (hr : R.refs id = some (.global g)) (hg : R.isGlobal id = true) (hc : var.isConst = true ∨ S.vars id = none) (hd : G[g]? = some d)
    (hi : constVal d.init = some v) : GlobRel cfg R G { S with vars := S.vars.set id v } m := by
  have hm := h.init id g var d v hv hr hg hc hd hi
  refine ⟨h.world, fun i w hw => ?_, fun i j var' d' w h1 h2 h3 h4 h5 h6 => ?_⟩
  · by_cases hne : i = id
    · subst hne
      have hw : S.vars.set i v i = some w := hw
      rw [Vars.set_same] at hw
      cases hw
      exact ⟨g, hr, hg, hm⟩
    · have hw : S.vars.set id v i = some w := hw
      rw [Vars.set_other hne] at hw
      exact h.glob i w hw
  · by_cases hne : i = id
    · subst hne
      rw [hr] at h2
      cases h2
      rw [hd] at h5
      cases h5
      rw [hi] at h6
      cases h6
      exact hm
    · refine h.init i j var' d' w h1 h2 h3 (h4.imp_right fun h4 => ?_) h5 h6
      have h4 : S.vars.set id v i = none := h4
      rwa [Vars.set_other hne] at h4

/-- A constant of a function gets a value. -/
theorem LocRel.constant {k base L ps id v var p} {regs : Regs} {m : Mem ω} (h : LocRel cfg R k base L regs ps m) (hv : cfg.var id = some var)
    (hc : R.isConst id var = true) (hr : R.refs id = some p) (hg : R.isGlobal id = false) (hb : Below k p)
    (ho : operand regs ps p = some (.val v)) : LocRel cfg R k base (L.set id v) regs ps m := by
  refine ⟨fun i w hw => ?_, fun i j ri rj a hi hj hri hrj h1 h2 => ?_, h.base⟩
  · by_cases hne : i = id
    · subst hne
      rw [Vars.set_same] at hw
      cases hw
      exact ⟨var, p, hv, hr, hg, hb, fun _ => ho, fun h => by rw [hc] at h; cases h⟩
    · rw [Vars.set_other hne] at hw
      exact h.loc i w hw
  · have no : ∀ {r}, R.refs id = some (.reg r) → regs r = some (.addr a) → False := by
      intro r hr' h'
      rw [hr] at hr'
      cases hr'
      have ho : regs r = some (.val v) := ho
      rw [ho] at h'
      cases h'
    by_cases hi' : i = id
    · subst hi'; exact (no hri h1).elim
    · by_cases hj' : j = id
      · subst hj'; exact (no hrj h2).elim
      · rw [Vars.set_other hi'] at hi
        rw [Vars.set_other hj'] at hj
        exact h.inj i j ri rj a hi hj hri hrj h1 h2

/-- A variable of a function gets a cell. -/
theorem LocRel.alloc {k base L ps id v var} {regs : Regs} {m : Mem ω} (h : LocRel cfg R k base L regs ps m) (hv : cfg.var id = some var)
    (hc : R.isConst id var = false) (hr : R.refs id = some (.reg k)) (hg : R.isGlobal id = false) :
    LocRel cfg R (k + 1) base (L.set id v) (regs.set k (.addr m.next)) ps
      { m with cells := fun i => if i = m.next then some (.val v) else m.cells i, next := m.next + 1 } := by
  have hold : ∀ {i}, i ≠ id → L.set id v i ≠ none → L i ≠ none := fun hne h => by rwa [Vars.set_other hne] at h
  have low : ∀ {i r}, L i ≠ none → R.refs i = some (.reg r) → r < k := by
    intro i r hi hr'
    obtain ⟨w, hw⟩ := Option.ne_none_iff_exists'.1 hi
    obtain ⟨_, _, _, h2, _, h4, _⟩ := h.loc i w hw
    rw [hr'] at h2
    cases h2
    exact h4 r rfl
  have addr : ∀ {i r a}, L i ≠ none → R.refs i = some (.reg r) → regs r = some (.addr a) → a < m.next := by
    intro i r a hi hr' ha
    obtain ⟨w, hw⟩ := Option.ne_none_iff_exists'.1 hi
    obtain ⟨var', p, h1, h2, h3, h4, h5, h6⟩ := h.loc i w hw
    rw [hr'] at h2
    cases h2
    cases hc' : R.isConst i var' with
    | true =>
      have h7 : regs r = some (.val w) := h5 hc'
      rw [ha] at h7
      cases h7
    | false =>
      obtain ⟨r', a', h7, h8, h9, h10, h11⟩ := h6 hc'
      cases h7
      rw [ha] at h8
      cases h8
      exact h10
  refine ⟨fun i w hw => ?_, fun i j ri rj a hi hj hri hrj h1 h2 => ?_, Nat.le_trans h.base (Nat.le_succ _)⟩
  · by_cases hne : i = id
    · subst hne
      rw [Vars.set_same] at hw
      cases hw
      refine ⟨var, _, hv, hr, hg, (by rintro r h; cases h; omega), fun h => (by rw [hc] at h; cases h), fun _ => ?_⟩
      exact ⟨k, m.next, rfl, Regs.set_same, h.base, Nat.lt_succ_self _, if_pos rfl⟩
    · rw [Vars.set_other hne] at hw
      obtain ⟨var', p, h1, h2, h3, h4, h5, h6⟩ := h.loc i w hw
      refine ⟨var', p, h1, h2, h3, h4.mono (Nat.le_succ _), fun hc' => ?_, fun hc' => ?_⟩
      · rw [operand_same h4 Regs.set_below]; exact h5 hc'
      · obtain ⟨r, a, rfl, h7, h8, h9, h10⟩ := h6 hc'
        refine ⟨r, a, rfl, ?_, h8, Nat.lt_succ_of_lt h9, ?_⟩
        · rw [Regs.set_below r (h4 r rfl)]; exact h7
        · rw [← h10]; exact if_neg (by omega)
  · by_cases hi' : i = id
    · by_cases hj' : j = id
      · rw [hi', hj']
      · exfalso
        subst hi'
        rw [hr] at hri
        cases hri
        rw [Regs.set_same] at h1
        cases h1
        rw [Regs.set_below rj (low (hold hj' hj) hrj)] at h2
        exact absurd (addr (hold hj' hj) hrj h2) (by omega)
    · by_cases hj' : j = id
      · exfalso
        subst hj'
        rw [hr] at hrj
        cases hrj
        rw [Regs.set_same] at h2
        cases h2
        rw [Regs.set_below ri (low (hold hi' hi) hri)] at h1
        exact absurd (addr (hold hi' hi) hri h1) (by omega)
      · rw [Regs.set_below ri (low (hold hi' hi) hri)] at h1
        rw [Regs.set_below rj (low (hold hj' hj) hrj)] at h2
        exact h.inj i j ri rj a (hold hi' hi) (hold hj' hj) hri hrj h1 h2

/-- A variable of a function is assigned to. -/
theorem LocRel.assign {k base L ps id v var r a w} {regs : Regs} {m : Mem ω} (h : LocRel cfg R k base L regs ps m) (hv : cfg.var id = some var)
    (hc : R.isConst id var = false) (hL : L id = some w) (hr : R.refs id = some (.reg r)) (ha : regs r = some (.addr a)) :
    LocRel cfg R k base (L.set id v) regs ps { m with cells := fun i => if i = a then some (.val v) else m.cells i } := by
  have dom : ∀ {i}, L.set id v i ≠ none → L i ≠ none := by
    intro i hi
    by_cases hne : i = id
    · subst hne; rw [hL]; simp
    · rwa [Vars.set_other hne] at hi
  refine ⟨fun i u hu => ?_, fun i j ri rj a' hi hj => h.inj i j ri rj a' (dom hi) (dom hj), h.base⟩
  by_cases hne : i = id
  · subst hne
    rw [Vars.set_same] at hu
    cases hu
    obtain ⟨var', p, h1, h2, h3, h4, h5, h6⟩ := h.loc i w hL
    rw [hv] at h1
    cases h1
    rw [hr] at h2
    cases h2
    refine ⟨var, _, hv, hr, h3, h4, fun h => (by rw [hc] at h; cases h), fun _ => ?_⟩
    obtain ⟨r', a', h7, h8, h9, h10, h11⟩ := h6 hc
    cases h7
    rw [ha] at h8
    cases h8
    exact ⟨r, a, rfl, ha, h9, h10, if_pos rfl⟩
  · rw [Vars.set_other hne] at hu
    obtain ⟨var', p, h1, h2, h3, h4, h5, h6⟩ := h.loc i u hu
    refine ⟨var', p, h1, h2, h3, h4, h5, fun hc' => ?_⟩
    obtain ⟨r', a', rfl, h8, h9, h10, h11⟩ := h6 hc'
    refine ⟨r', a', rfl, h8, h9, h10, ?_⟩
    rw [← h11]
    refine if_neg ?_
    rintro rfl
    exact hne (h.inj i id r' r a' (by rw [hu]; simp) (by rw [hL]; simp) h2 hr h8 ha)

theorem var_const {id sym v var} (h1 : cfg.syms[id]? = some sym) (h2 : sym.kind = .var v) (h3 : cfg.var id = some var) : var.isConst = v.isConst := by
  unfold LCfg.var at h3
  rw [h1] at h3
  simp only [h2] at h3
  cases h3
  rfl

/-- Other cells do not matter. -/
theorem GlobRel.same {S : SState ω} {m m' : Mem ω} (h : GlobRel cfg R G S m) (hg : m'.glob = m.glob) (hw : m'.world = m.world) :
    GlobRel cfg R G S m' :=
  ⟨hw.trans h.world, fun id v hv => by rw [hg]; exact h.glob id v hv, fun id g var d w => by rw [hg]; exact h.init id g var d w⟩

/-- A new cell gets a value. -/
theorem alloc_run {ext : List Char → List Val → ω → Option (Val × ω)} {f ps k t x v} {regs : Regs} {m : Mem ω}
    (ho : operand (regs.set k (.addr m.next)) ps x = some (.val v)) :
    Runs F ext M f ps [.alloca k t, .store x (.reg k)] regs m (regs.set k (.addr m.next))
      { m with cells := fun i => if i = m.next then some (.val v) else m.cells i, next := m.next + 1 } := by
  refine Runs.append (is := [_]) (.one rfl) (.one ?_)
  have o3 : operand (regs.set k (.addr m.next)) ps (.reg k) = some (.addr m.next) := Regs.set_same
  simp only [step, ho, o3, Mem.write]
  rw [if_pos (Nat.lt_succ_self _)]
  simp only [Option.some.injEq, Prod.mk.injEq, true_and, Mem.mk.injEq, and_true]
  funext i
  split <;> rfl

theorem EntryCode.later {j N ps is N'} (h : EntryCode cfg R j N ps is N') : ∀ p ∈ ps, ∃ r, R.refs p = some (.reg r) ∧ N ≤ r := by
  induction h with
  | nil => simp
  | cons _ h2 _ _ ih =>
    intro p hp
    rcases List.mem_cons.1 hp with rfl | hp
    · exact ⟨_, h2, Nat.le_refl _⟩
    · obtain ⟨r, h3, h4⟩ := ih p hp
      exact ⟨r, h3, by omega⟩

/-- The code at the beginning of a function puts the arguments into cells. -/
theorem entry_run {ext : List Char → List Val → ω → Option (Val × ω)} {f j N pars is N'} (h : EntryCode cfg R j N pars is N') :
    (∀ p ∈ pars, R.isGlobal p = false) → ∀ {L : Vars} {regs args vs base} {m : Mem ω}, LocRel cfg R N base L regs args m →
    pars.length = vs.length → (∀ (i : Nat) (v : Val), vs[i]? = some v → args[j + i]? = some (.val v)) →
    ∃ regs' m', Runs F ext M f args is regs m regs' m' ∧ LocRel cfg R N' base (fun id => ((pars.zip vs).lookup id).or (L id)) regs' args m' ∧
      Framed m.next m m' ∧ m'.glob = m.glob ∧ m'.world = m.world := by
  induction h with
  | nil =>
    intro _ L regs args vs base m hL _ _
    exact ⟨regs, m, .nil, by simpa using hL, .refl _, rfl, rfl⟩
  | @cons j N p ps v is N' h1 h2 h3 hc ih =>
    intro hg L regs args vs base m hL hlen harg
    cases vs with
    | nil => cases hlen
    | cons w vs =>
      have hw : args[j]? = some (.val w) := harg 0 w rfl
      have hL1 := hL.alloc (v := w) h1 (by simp [LEnv.isConst, h3]) h2 (hg p (by simp))
      have r1 := alloc_run (F := F) (ext := ext) (M := M) (f := f) (ps := args) (k := N) (t := v.type) (x := .param j) (v := w) (regs := regs) (m := m) hw
      obtain ⟨regs', m', r2, hL2, f2, g2, w2⟩ := ih (fun p hp => hg p (by simp [hp])) hL1 (by simpa using hlen)
        (fun i u hu => by have := harg (i + 1) u hu; rwa [show j + (i + 1) = j + 1 + i by omega] at this)
      have f1 : Framed m.next m { m with cells := fun i => if i = m.next then some (.val w) else m.cells i, next := m.next + 1 } :=
        ⟨fun a ha => if_neg (by omega), Nat.le_succ _⟩
      refine ⟨regs', m', r1.append r2, ?_, f1.trans' f2, g2, w2⟩
      have : (fun id => (((p :: ps).zip (w :: vs)).lookup id).or (L id)) = fun id => ((ps.zip vs).lookup id).or (L.set p w id) := by
        funext id
        simp only [List.zip_cons_cons, List.lookup_cons]
        by_cases hid : id = p
        · subst hid
          have hno : (ps.zip vs).lookup id = none := by
            cases hl : (ps.zip vs).lookup id with
            | none => rfl
            | some u =>
              obtain ⟨i, hi, _⟩ := lookup_zip hl
              obtain ⟨r, h4, h5⟩ := hc.later id (List.mem_of_getElem? hi)
              rw [h2] at h4
              cases h4
              omega
          rw [hno, Vars.set_same]
          simp
        · rw [Vars.set_other hid, beq_false_of_ne hid]
      rw [this]
      exact hL2

/-- The arguments are where the function looks for its parameters. -/
theorem param_run {ext : List Char → List Val → ω → Option (Val × ω)} {f pars is k k'} {vs : List Val} {m : Mem ω}
    (h : ParamCode cfg R k pars is k') (hp : ∀ p ∈ pars, ∃ var, cfg.var p = some var ∧ var.isConst = true) (hlen : pars.length = vs.length) :
    ∃ regs m', Runs F ext M f (vs.map .val) is (fun _ => none) m regs m' ∧ LocRel cfg R k'.reg m.next (bindParams pars vs) regs (vs.map .val) m' ∧
      Framed m.next m m' ∧ m'.glob = m.glob ∧ m'.world = m.world := by
  obtain ⟨hg, ⟨_, rfl, rfl, hr⟩ | ⟨_, _, hc⟩⟩ := h
  · refine ⟨_, m, .nil, ?_, .refl _, rfl, rfl⟩
    refine ⟨fun id v hv => ?_, ?_, Nat.le_refl _⟩
    · obtain ⟨i, h12, h13⟩ := lookup_zip hv
      obtain ⟨var, h14, h15⟩ := hp id (List.mem_of_getElem? h12)
      obtain ⟨h16, h17⟩ := hr i id h12
      refine ⟨var, _, h14, h16, hg id (List.mem_of_getElem? h12), (by rintro r h; cases h), fun _ => ?_, fun hc => (by simp [LEnv.isConst, h15, h17] at hc)⟩
      show (vs.map MVal.val)[i]? = _
      rw [List.getElem?_map, h13]
      rfl
    · intro i j ri rj a _ _ _ _ h
      cases h
  · obtain ⟨regs', m', r, hL, hf, hgl, hw⟩ := entry_run (F := F) (ext := ext) (M := M) (f := f) (L := fun _ => none) (regs := fun _ => none)
      (args := vs.map .val) (vs := vs) (base := m.next) (m := m) hc hg
      ⟨fun _ _ h => (by cases h), fun _ _ _ _ _ h => absurd rfl h, Nat.le_refl _⟩ hlen
      (fun i v hv => by rw [Nat.zero_add, List.getElem?_map, hv]; rfl)
    refine ⟨regs', m', r, ?_, hf, hgl, hw⟩
    have : bindParams pars vs = fun id => ((pars.zip vs).lookup id).or none := by funext id; simp [bindParams]
    rw [this]
    exact hL

end
end Skull
