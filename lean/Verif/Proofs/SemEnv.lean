import Verif.Spec.Program
/-
Environments only grow.
-/
namespace Skull.Spec

/-- All names lead to declarations. -/
structure Env.WF (E : Env) : Prop where
  vis : ∀ p ∈ E.vis, p.2 < E.decls.length
  members : ∀ (i : Nat) ms, E.decls[i]? = some (.ns ms) → ∀ p ∈ ms, p.2 < E.decls.length

/-- The declarations of one environment are the first ones of another. -/
structure Env.Ext (E E' : Env) : Prop where
  len : E.decls.length ≤ E'.decls.length
  same : ∀ i, i < E.decls.length → E'.decls[i]? = E.decls[i]?

theorem Env.Ext.refl (E : Env) : E.Ext E := ⟨Nat.le_refl _, fun _ _ => rfl⟩

theorem Env.Ext.trans {E E' E''} (h : Env.Ext E E') (h' : Env.Ext E' E'') : E.Ext E'' :=
  ⟨Nat.le_trans h.len h'.len, fun i hi => (h'.same i (Nat.lt_of_lt_of_le hi h.len)).trans (h.same i hi)⟩

theorem Env.ext_add (E : Env) (x d) : E.Ext (E.add x d) :=
  ⟨by simp [Env.add], fun i hi => by simp only [Env.add]; rw [List.getElem?_append_left hi]⟩

theorem Env.WF.start : Env.WF .start := by
  refine ⟨(fun _ h => by cases h), fun i ms h => ?_⟩
  cases i with
  | zero => simp [Env.start] at h
  | succ i => simp [Env.start] at h

theorem Env.WF.add {E : Env} (h : E.WF) (x) {d : Decl} (hd : ∀ ms, d = .ns ms → ms = []) : (E.add x d).WF := by
  refine ⟨fun p hp => ?_, fun i ms hm p hp => ?_⟩
  · simp only [Env.add, List.mem_cons, List.length_append, List.length_cons, List.length_nil] at hp ⊢
    rcases hp with rfl | hp
    · simp
    · have := h.vis p hp; omega
  · simp only [Env.add, List.length_append, List.length_cons, List.length_nil] at hm ⊢
    rcases Nat.lt_trichotomy i E.decls.length with hi | hi | hi
    · rw [List.getElem?_append_left hi] at hm
      have := h.members i ms hm p hp; omega
    · subst hi
      simp at hm
      rw [hd ms hm] at hp
      cases hp
    · rw [List.getElem?_eq_none (by simp; omega)] at hm
      cases hm

theorem ParamsOk.grows {W E ps τs E'} (h : ParamsOk W E ps τs E') (hw : E.WF) :
    E.Ext E' ∧ E'.WF ∧ ∃ added, E'.vis = added ++ E.vis := by
  induction h with
  | nil => exact ⟨.refl _, hw, [], rfl⟩
  | cons _ _ _ _ _ _ ih =>
    obtain ⟨h1, h2, added, h3⟩ := ih (hw.add _ (fun _ h => by cases h))
    exact ⟨(Env.ext_add _ _ _).trans h1, h2, added ++ [_], by rw [h3]; simp [Env.add]; rfl⟩

/-- What one statement does to an environment. -/
structure EnvGrows (E E' : Env) : Prop where
  ext : E.Ext E'
  wf : E'.WF
  vis : ∃ added, E'.vis = added ++ E.vis

theorem EnvGrows.refl {E} (h : Env.WF E) : EnvGrows E E := ⟨.refl E, h, [], rfl⟩

theorem EnvGrows.trans {E E' E''} (h : EnvGrows E E') (h' : EnvGrows E' E'') : EnvGrows E E'' := by
  obtain ⟨a, ha⟩ := h.vis
  obtain ⟨b, hb⟩ := h'.vis
  exact ⟨h.ext.trans h'.ext, h'.wf, b ++ a, by rw [hb, ha]; simp⟩

theorem EnvGrows.add {E : Env} (h : E.WF) (x) {d : Decl} (hd : ∀ ms, d = .ns ms → ms = []) : EnvGrows E (E.add x d) :=
  ⟨E.ext_add x d, h.add x hd, [_], rfl⟩

/-- The names of before with the declarations of after. -/
theorem EnvGrows.leave {E E' : Env} (hw : E.WF) (h : EnvGrows E E') : EnvGrows E ⟨E.vis, E'.decls⟩ := by
  refine ⟨⟨h.ext.len, h.ext.same⟩, ⟨fun p hp => ?_, h.wf.members⟩, [], rfl⟩
  exact Nat.lt_of_lt_of_le (hw.vis p hp) h.ext.len

theorem StmtOk.grows' {W child} (hc : ∀ {c E before E'}, Stmts W c E before child E' → E.WF → EnvGrows E E')
    {c E before stmt tok tokEnd next E'} (h : StmtOk W c E before stmt tok tokEnd child next E') (hw : E.WF) : EnvGrows E E' := by
  cases h with
  | @func _ _ E₁ E₂ _ _ f τ τs _ _ _ _ _ _ _ _ h5 h6 _ =>
    have ha := EnvGrows.add hw f (d := .func τs τ) (fun _ h => by cases h)
    obtain ⟨h1, h2, h3⟩ := h5.grows ha.wf
    have hg := (ha.trans ⟨h1, h2, h3⟩).trans (hc h6 h2)
    refine ⟨⟨hg.ext.len, hg.ext.same⟩, ⟨fun p hp => ?_, hg.wf.members⟩, [_], rfl⟩
    have hl : (E.add f (.func τs τ)).decls.length ≤ E₂.decls.length :=
      Nat.le_trans h1.len (hc h6 h2).ext.len
    simp only [Env.add, List.length_append, List.length_cons, List.length_nil] at hl
    simp only [List.mem_cons] at hp
    rcases hp with rfl | hp
    · show E.decls.length < E₂.decls.length
      omega
    · have := hw.vis p hp
      show _ < E₂.decls.length
      omega
  | alias => exact .add hw _ (fun _ h => by cases h)
  | varDef => exact .add hw _ (fun _ h => by cases h)
  | ifs _ _ h => exact EnvGrows.leave hw (hc h hw)
  | elifs _ _ _ h => exact EnvGrows.leave hw (hc h hw)
  | elses _ _ h => exact EnvGrows.leave hw (hc h hw)
  | whiles _ _ h => exact EnvGrows.leave hw (hc h hw)
  | @namespaces _ _ E₁ _ n _ _ _ _ _ _ _ _ h =>
    have ha := EnvGrows.add hw n (d := .ns []) (fun _ h => by cases h; rfl)
    have hs := hc h ha.wf
    have hg := ha.trans hs
    have hl : E.decls.length + 1 ≤ E₁.decls.length := by
      have := hs.ext.len
      simpa [Env.add] using this
    refine ⟨⟨by simpa using hg.ext.len, fun i hi => ?_⟩, ⟨fun p hp => ?_, fun i ms hm p hp => ?_⟩, [_], rfl⟩
    · show (E₁.decls.set _ _)[i]? = _
      rw [List.getElem?_set_ne (by omega)]
      exact hg.ext.same i hi
    · simp only [List.mem_cons] at hp
      simp only [List.length_set]
      rcases hp with rfl | hp
      · show E.decls.length < _
        omega
      · have := hw.vis p hp
        omega
    · simp only [List.length_set] at hm ⊢
      by_cases hi : i = E.decls.length
      · subst hi
        rw [List.getElem?_set_self (by omega)] at hm
        cases hm
        exact hs.wf.vis p hp
      · rw [List.getElem?_set_ne (fun h => hi h.symm)] at hm
        exact hs.wf.members i ms hm p hp
  | _ => exact .refl hw

theorem Stmts.grows {W} : ∀ (t : Tree) {c E before E'}, Stmts W c E before t E' → E.WF → EnvGrows E E'
  | .nil, _, _, _, _, h, hw => by cases h; exact .refl hw
  | .node stmt tok tokEnd child next, _, _, _, _, h, hw => by
    cases h with
    | node _ h1 h2 =>
      have hg := StmtOk.grows' (Stmts.grows child) h1 hw
      exact hg.trans (Stmts.grows next h2 hg.wf)
theorem StmtOk.grows {W c E before stmt tok tokEnd child next E'} (h : StmtOk W c E before stmt tok tokEnd child next E')
    (hw : E.WF) : EnvGrows E E' := h.grows' (Stmts.grows child) hw

/-- Names lead to the same declarations when there are more declarations. -/
theorem follow_ext {D D' : List Decl} (hl : D.length ≤ D'.length) (hs : ∀ i, i < D.length → D'[i]? = D[i]?)
    (hm : ∀ (i : Nat) ms, D[i]? = some (.ns ms) → ∀ p ∈ ms, p.2 < D.length) : ∀ (p : List (List Char)) (vis : List (List Char × Nat)),
    (∀ q ∈ vis, q.2 < D.length) → follow D' vis p = follow D vis p
  | [], _, _ => by simp [follow]
  | [x], vis, _ => by simp [follow]
  | x :: y :: more, vis, hv => by
    simp only [follow]
    cases h : vis.lookup x with
    | none => rfl
    | some i =>
      have hi : i < D.length := by
        obtain ⟨q, hq, _, rfl⟩ := lookup_mem h
        exact hv q hq
      simp only [Option.bind_some]
      rw [hs i hi]
      split
      · rename_i ms hms
        exact follow_ext hl hs hm _ _ (hm i ms hms)
      · rfl
where
  lookup_mem : ∀ {vis : List (List Char × Nat)} {x i}, vis.lookup x = some i → ∃ q ∈ vis, q.1 = x ∧ q.2 = i
    | [], _, _, h => by simp at h
    | (k, v) :: vis, x, i, h => by
      rw [List.lookup_cons] at h
      split at h
      · rename_i hk
        cases h
        exact ⟨_, .head _, (by simpa using (beq_iff_eq.1 hk).symm), rfl⟩
      · obtain ⟨q, h1, h2⟩ := lookup_mem h
        exact ⟨q, .tail _ h1, h2⟩

/-- The same names denote the same declarations. -/
theorem EnvGrows.decl {E E' : Env} (h : EnvGrows E E') (hw : E.WF) (hv : E'.vis = E.vis) (x) : E'.resolve x = E.resolve x ∧ E'.decl x = E.decl x := by
  have h1 : E'.resolve x = E.resolve x := by
    unfold Env.resolve
    rw [hv]
    exact follow_ext h.ext.len h.ext.same hw.members _ _ hw.vis
  refine ⟨h1, ?_⟩
  unfold Env.decl
  rw [h1]
  cases hr : E.resolve x with
  | none => rfl
  | some i => exact h.ext.same i (resolve_lt hw hr)
where
  follow_lt {E : Env} (hw : E.WF) : ∀ (p : List (List Char)) (vis : List (List Char × Nat)) {i},
      (∀ q ∈ vis, q.2 < E.decls.length) → follow E.decls vis p = some i → i < E.decls.length
    | [], _, _, _, h => by simp [follow] at h
    | [x], vis, i, hv, h => by
      simp only [follow] at h
      obtain ⟨q, h1, _, rfl⟩ := follow_ext.lookup_mem h
      exact hv q h1
    | x :: y :: more, vis, i, hv, h => by
      simp only [follow] at h
      split at h
      · rename_i ms hms
        cases hx : vis.lookup x with
        | none => rw [hx] at hms; cases hms
        | some j =>
          rw [hx] at hms
          exact follow_lt hw _ _ (hw.members j ms hms) h
      · cases h
  resolve_lt {E : Env} (hw : E.WF) {x i} (h : E.resolve x = some i) : i < E.decls.length := follow_lt hw _ _ hw.vis h

theorem Reach.wf {W c E before t c' E' before' t'} (h : Reach W c E before t c' E' before' t') (hw : E.WF) : E'.WF := by
  induction h with
  | here => exact hw
  | next h1 _ ih => exact ih (h1.grows hw).wf
  | body h1 _ ih =>
    apply ih
    cases h1 with
    | func _ _ h3 => exact (h3.grows (hw.add _ (fun _ h => by cases h))).2.1
    | ns => exact hw.add _ (fun _ h => by cases h; rfl)
    | _ => exact hw

end Skull.Spec
