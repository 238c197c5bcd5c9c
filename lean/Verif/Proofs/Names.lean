import Verif.Proofs.SemAccepted
import Verif.Proofs.SemEnv
/-
What statements do to names.
-/
namespace Skull.Spec

theorem Env.Free.cases {E : Env} {x} (h : E.Free x) : (E.decl x = none ∧ builtinType x = none) ∨ E.decl x = some (.alias none) := by
  unfold Env.Free at h
  split at h
  · rename_i h'; exact .inl ⟨h', h⟩
  · rename_i h'; exact .inr h'
  · exact h.elim

/-- The name that a statement declares is free. -/
theorem StmtOk.introduces {W c E before stmt tok tokEnd child next E'} (h : StmtOk W c E before stmt tok tokEnd child next E')
    {u x} (hi : Introduces E stmt tok tokEnd u) (hx : Text u x) : E.Free x := by
  cases h with
  | func _ _ h1 h2 => cases hi; cases text_det h1 hx; exact h2.1
  | alias h1 _ _ h2 h3 =>
    rcases hi with ⟨_, hi⟩ | ⟨hi, _⟩
    · cases hi; cases text_det h2 hx; exact h3.1
    · exact absurd ⟨_, h1⟩ hi
  | varDef h1 _ _ _ h2 _ h3 =>
    rcases hi with ⟨⟨σ, hi⟩, _⟩ | ⟨_, hi⟩
    · cases TypeAt.det h1 hi
    · cases hi; cases text_det h2 hx; exact h3.1
  | namespaces h1 h2 => cases hi; cases text_det h1 hx; exact h2.1
  | _ => exact hi.elim

theorem path_undotted {x : List Char} (h : '.' ∉ x) : path x = [x] := by
  induction x with
  | nil => rfl
  | cons c x ih =>
    simp only [List.mem_cons, not_or] at h
    unfold path
    rw [if_neg (Ne.symm h.1), ih h.2]

theorem path_dot {x : List Char} (h : '.' ∉ x) (y : List Char) : path (x ++ '.' :: y) = x :: path y := by
  induction x with
  | nil => rw [List.nil_append, path, if_pos rfl]
  | cons c x ih =>
    simp only [List.mem_cons, not_or] at h
    rw [List.cons_append, path, if_neg (Ne.symm h.1), ih h.2]

theorem resolve_undotted {E : Env} {x : List Char} (h : '.' ∉ x) : E.resolve x = E.vis.lookup x := by
  unfold Env.resolve
  rw [path_undotted h]
  rfl

/-- Only names that begin with a new name change their meaning. -/
theorem path_first (x : List Char) : ∃ more, path x = firstPart x :: more := by
  induction x with
  | nil => exact ⟨[], rfl⟩
  | cons c x ih =>
    unfold path firstPart
    by_cases h : c = '.'
    · subst h; exact ⟨path x, by simp⟩
    · obtain ⟨more, hm⟩ := ih
      rw [if_neg h, hm]
      exact ⟨more, by simp [h, firstPart]⟩

theorem follow_cons {D : List Decl} {vis : List (List Char × Nat)} {f : List Char} {i : Nat} {y : List Char}
    (more : List (List Char)) (h : y ≠ f) : follow D ((f, i) :: vis) (y :: more) = follow D vis (y :: more) := by
  have : (y == f) = false := by simpa using h
  cases more <;> simp [follow, List.lookup, this]

theorem EnvGrows.decl_cons {E E' : Env} (h : EnvGrows E E') (hw : E.WF) {f i} (hv : E'.vis = (f, i) :: E.vis) (x) (hx : firstPart x ≠ f) :
    E'.resolve x = E.resolve x ∧ E'.decl x = E.decl x := by
  have h2 : EnvGrows E ⟨E.vis, E'.decls⟩ := h.leave hw
  obtain ⟨h3, h4⟩ := h2.decl hw rfl x
  have h5 : E'.resolve x = Env.resolve ⟨E.vis, E'.decls⟩ x := by
    unfold Env.resolve
    obtain ⟨more, hm⟩ := path_first x
    rw [hm, hv]
    exact follow_cons more hx
  refine ⟨h5.trans h3, ?_⟩
  rw [← h4]
  unfold Env.decl
  rw [h5]

/-- The names that a statement leaves behind: none, or one. -/
theorem StmtOk.leaves {W c E before stmt tok tokEnd child next E'} (h : StmtOk W c E before stmt tok tokEnd child next E') :
    E'.vis = E.vis ∨ ∃ u f, Introduces E stmt tok tokEnd u ∧ Text u f ∧ E'.vis = (f, E.decls.length) :: E.vis := by
  cases h with
  | func _ _ h1 => exact .inr ⟨_, _, rfl, h1, rfl⟩
  | alias h1 _ _ h2 _ => exact .inr ⟨_, _, .inl ⟨⟨_, h1⟩, rfl⟩, h2, rfl⟩
  | varDef h1 _ _ _ h2 _ _ =>
    exact .inr ⟨_, _, .inr ⟨fun ⟨σ, h⟩ => (by cases TypeAt.det h1 h), rfl⟩, h2, rfl⟩
  | namespaces h1 _ => exact .inr ⟨_, _, rfl, h1, rfl⟩
  | _ => exact .inl rfl

/-- The end of the statements of a block is reached. -/
theorem Stmts.reach {W} : ∀ (t : Tree) {c E before E'}, Stmts W c E before t E' → ∃ before', Reach W c E before t c E' before' .nil
  | .nil, _, _, before, _, h => by cases h; exact ⟨before, .here⟩
  | .node stmt tok tokEnd child next, _, _, _, _, h => by
    cases h with
    | node _ h1 h2 =>
      obtain ⟨b, hr⟩ := Stmts.reach next h2
      exact ⟨b, .next h1 hr⟩

/-- Names still lead where they led when an empty namespace gets its members. -/
theorem follow_set {D : List Decl} {k : Nat} {ms : List (List Char × Nat)} (hk : D[k]? = some (.ns [])) :
    ∀ (p : List (List Char)) (vis : List (List Char × Nat)) {i}, follow D vis p = some i → follow (D.set k (.ns ms)) vis p = some i
  | [], _, _, h => by simp [follow] at h
  | [x], vis, i, h => h
  | x :: y :: more, vis, i, h => by
    simp only [follow] at h ⊢
    cases hx : vis.lookup x with
    | none => rw [hx] at h; cases h
    | some j =>
      rw [hx] at h
      by_cases e : j = k
      · subst e
        simp only [Option.bind_some, hk] at h
        cases more <;> simp [follow] at h
      · simp only [Option.bind_some] at h ⊢
        rw [List.getElem?_set_ne (Ne.symm e)]
        split at h
        · exact follow_set hk _ _ h
        · cases h

/-- Parameters are free in what is visible outside, and differ from each other. -/
theorem ParamsOk.free {W E ps τs E'} (h : ParamsOk W E ps τs E') : ∀ (i : Nat) (p : Param) (x : List Char), ps[i]? = some p → Text p.name x → '.' ∉ x →
    E.resolve x = none ∧ builtinType x = none ∧ ∀ (j : Nat) (q : Param), i < j → ps[j]? = some q → ¬ Text q.name x := by
  induction h with
  | nil => intro i p x h; simp at h
  | @cons E E' p ps τ τs y h1 h2 h3 h4 h5 h6 ih =>
    intro i q x hq hx hd
    cases i with
    | zero =>
      simp only [List.getElem?_cons_zero, Option.some.injEq] at hq
      subst hq
      cases text_det h2 hx
      refine ⟨h5, ?_, ?_⟩
      · rcases h4.1.cases with h | h
        · exact h.2
        · unfold Env.decl at h; rw [h5] at h; cases h
      · intro j q hj hq ht
        obtain ⟨j, rfl⟩ : ∃ k, j = k + 1 := ⟨j - 1, by omega⟩
        have := (ih j q y (by simpa using hq) ht hd).1
        rw [resolve_undotted hd] at this
        simp [Env.add] at this
    | succ i =>
      obtain ⟨g1, g2, g3⟩ := ih i q x (by simpa using hq) hx hd
      refine ⟨?_, g2, ?_⟩
      · rw [resolve_undotted hd] at g1 ⊢
        simp only [Env.add, List.lookup] at g1
        split at g1
        · cases g1
        · exact g1
      · intro j r hj hr
        obtain ⟨j, rfl⟩ : ∃ k, j = k + 1 := ⟨j - 1, by omega⟩
        exact g3 j r (by omega) (by simpa using hr)

/-- Names found after statements are old or declared by them. -/
theorem StmtOk.newer {W c E before stmt tok tokEnd child next E'} (h : StmtOk W c E before stmt tok tokEnd child next E') :
    E'.vis = E.vis ∨ ∃ f, E'.vis = (f, E.decls.length) :: E.vis := by
  rcases h.leaves with h | ⟨_, f, _, _, h⟩
  · exact .inl h
  · exact .inr ⟨f, h⟩

theorem Stmts.newer {W} : ∀ (t : Tree) {c E before E'} {x : List Char} {id m : Nat}, Stmts W c E before t E' → E.WF →
    (∀ p ∈ E.vis, p.1 = x → m < p.2) → E'.vis.lookup x = some id → m < E.decls.length → m < id
  | .nil, _, _, _, _, _, _, _, h, hw, hm, hl, _ => by
    cases h
    obtain ⟨q, h1, h2, rfl⟩ := follow_ext.lookup_mem hl
    exact hm q h1 h2
  | .node stmt tok tokEnd child next, _, E, _, _, _, _, _, h, hw, hm, hl, hle => by
    cases h with
    | node _ h1 h2 =>
      have hg := h1.grows hw
      refine Stmts.newer next h2 hg.wf (fun p hp hx => ?_) hl (Nat.lt_of_lt_of_le hle hg.ext.len)
      rcases h1.newer with hv | ⟨f, hv⟩
      · rw [hv] at hp; exact hm p hp hx
      · rw [hv] at hp
        cases hp with
        | head => exact hle
        | tail _ hp => exact hm p hp hx

end Skull.Spec
