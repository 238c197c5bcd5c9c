import Verif.Spec.Defined
/-
Names that are used as variables, and names of functions and namespaces.
-/
namespace Skull.SemDef

open Skull.Spec

/-- A declaration of a function or a namespace. -/
def isFn : Decl → Bool
  | .func .. | .ns _ => true
  | _ => false

/-- Names of functions and namespaces are among the given ones. -/
def Vis (N : List Char → Prop) (ds : List Decl) (l : List (List Char × Nat)) : Prop :=
  ∀ x i, (x, i) ∈ l → i < ds.length ∧ ∀ d, ds[i]? = some d → isFn d = true → N x

structure Known (N : List Char → Prop) (E : Env) : Prop where
  vis : Vis N E.decls E.vis
  mem : ∀ (i : Nat) (ms : List (List Char × Nat)), E.decls[i]? = some (Decl.ns ms) → Vis N E.decls ms

/-- More declarations. -/
def Grows (ds ds' : List Decl) : Prop := ds.length ≤ ds'.length ∧ ∀ i, i < ds.length → ds'[i]?.map isFn = ds[i]?.map isFn

theorem Grows.refl (ds : List Decl) : Grows ds ds := ⟨Nat.le_refl _, fun _ _ => rfl⟩

theorem Grows.trans {a b c : List Decl} (h : Grows a b) (h' : Grows b c) : Grows a c :=
  ⟨Nat.le_trans h.1 h'.1, fun i hi => (h'.2 i (Nat.lt_of_lt_of_le hi h.1)).trans (h.2 i hi)⟩

theorem grows_add (ds : List Decl) (d : Decl) : Grows ds (ds ++ [d]) := by
  refine ⟨by simp, fun i hi => ?_⟩
  rw [List.getElem?_append_left hi]

theorem Vis.grow {N ds ds' l} (h : Vis N ds l) (hg : Grows ds ds') : Vis N ds' l := by
  intro x i hm
  obtain ⟨h1, h2⟩ := h x i hm
  refine ⟨Nat.lt_of_lt_of_le h1 hg.1, fun d hd hf => ?_⟩
  have := hg.2 i h1
  rw [hd, List.getElem?_eq_getElem h1] at this
  refine h2 _ (List.getElem?_eq_getElem h1) ?_
  simp only [Option.map_some, Option.some.injEq] at this
  rw [← this, hf]

/-- One more name. -/
theorem Known.add {N E x d} (h : Known N E) (hd : isFn d = true → N x) (hms : ∀ ms, d = .ns ms → ms = []) : Known N (E.add x d) := by
  have hg := grows_add E.decls d
  refine ⟨?_, ?_⟩
  · intro y i hm
    rcases List.mem_cons.mp hm with e | hm
    · cases e
      refine ⟨by simp [Env.add], fun d' hd' hf => ?_⟩
      simp only [Env.add, List.getElem?_concat_length, Option.some.injEq] at hd'
      rw [← hd'] at hf
      exact hd hf
    · exact h.vis.grow hg y i hm
  · intro i ms hi
    show Vis N (E.decls ++ [d]) ms
    have hi' : (E.decls ++ [d])[i]? = some (.ns ms) := hi
    rw [List.getElem?_append] at hi'
    split at hi'
    · exact (h.mem i ms hi').grow hg
    · rename_i hlt
      cases hj : i - E.decls.length with
      | zero =>
        rw [hj] at hi'
        simp only [List.getElem?_cons_zero, Option.some.injEq] at hi'
        rw [hms ms hi']
        intro x i hm
        cases hm
      | succ j => rw [hj] at hi'; simp at hi'

/-- The names of before, the declarations of now. -/
theorem Known.leave {N} {E E' : Env} (h : Known N E) (h' : Known N E') (hg : Grows E.decls E'.decls) : Known N ⟨E.vis, E'.decls⟩ :=
  ⟨h.vis.grow hg, h'.mem⟩

theorem params_known {W N E ps τs E'} (h : ParamsOk W E ps τs E') : Known N E → Known N E' ∧ Grows E.decls E'.decls := by
  induction h with
  | nil => exact fun h => ⟨h, .refl _⟩
  | cons _ _ _ _ _ _ ih =>
    intro h
    obtain ⟨h1, h2⟩ := ih (h.add (fun h => by cases h) (fun _ h => by cases h))
    exact ⟨h1, (grows_add _ _).trans h2⟩

/-- The statements declare functions and namespaces with these names only. -/
def Names (N : List Char → Prop) (t : Tree) : Prop := ∀ x, some x ∈ calledNames t → N x

theorem Names.child {N stmt tok te child next} (h : Names N (.node stmt tok te child next)) : Names N child := fun x hx =>
  h x (by simp only [calledNames, List.mem_append]; exact .inl (.inr hx))

theorem Names.next {N stmt tok te child next} (h : Names N (.node stmt tok te child next)) : Names N next := fun x hx =>
  h x (by simp only [calledNames, List.mem_append]; exact .inr hx)

theorem Names.func {N p tok te child next x} (h : Names N (.node (.funcProto p) tok te child next)) (hx : Text p.name x) : N x :=
  h x (by simp only [calledNames, List.mem_append]; exact .inl (.inl (by rw [show tokenToString p.name = some x from hx]; exact .head _)))

theorem Names.ns {N k t ts te child next x} (h : Names N (.node .namespaces (k :: t :: ts) te child next)) (hx : Text t x) : N x :=
  h x (by
    simp only [calledNames, List.mem_append]
    refine .inl (.inl ?_)
    simp [show tokenToString t = some x from hx])

theorem stmt_known {W N c E E' before stmt tok te child next} (h : StmtOk W c E before stmt tok te child next E')
    (hn : Names N (.node stmt tok te child next)) (hk : Known N E)
    (ih : ∀ {c E E'}, Stmts W c E [] child E' → Known N E → Known N E' ∧ Grows E.decls E'.decls) : Known N E' ∧ Grows E.decls E'.decls := by
  have blk : ∀ {c E E'}, Known N E → Stmts W c E [] child E' → Known N ⟨E.vis, E'.decls⟩ ∧ Grows E.decls E'.decls := by
    intro c E E' hk h
    obtain ⟨h1, h2⟩ := ih h hk
    exact ⟨hk.leave h1 h2, h2⟩
  cases h with
  | retNone | ret | unreachable | varAssign | call | breaks | continues | imports | unknown | comment | noop => exact ⟨hk, .refl _⟩
  | alias => exact ⟨hk.add (fun h => by cases h) (fun _ h => by cases h), grows_add _ _⟩
  | varDef => exact ⟨hk.add (fun h => by cases h) (fun _ h => by cases h), grows_add _ _⟩
  | ifs _ _ h => exact blk hk h
  | elifs _ _ _ h => exact blk hk h
  | elses _ _ h => exact blk hk h
  | whiles _ _ h => exact blk hk h
  | @func _ _ E₁ E₂ _ p f τ τs _ _ _ _ _ _ h3 _ h5 h6 _ =>
    have k1 := hk.add (d := .func τs τ) (fun _ => hn.func h3) (fun _ h => by cases h)
    obtain ⟨k2, g2⟩ := params_known h5 k1
    obtain ⟨k3, g3⟩ := ih h6 k2
    have g := g2.trans g3
    exact ⟨k1.leave k3 g, (grows_add _ _).trans g⟩
  | @namespaces _ _ E₁ _ n k t ts _ _ _ h1 _ h3 =>
    have k1 := hk.add (d := .ns []) (fun _ => hn.ns h1) (fun _ h => by cases h; rfl)
    obtain ⟨k2, g2⟩ := ih h3 k1
    have hlt : E.decls.length < E₁.decls.length := Nat.lt_of_lt_of_le (by simp [Env.add]) g2.1
    have g3 : Grows E₁.decls (E₁.decls.set E.decls.length (.ns E₁.vis)) := by
      refine ⟨by simp, fun i hi => ?_⟩
      rw [List.getElem?_set]
      split
      · rename_i e
        subst e
        have := g2.2 E.decls.length (by simp [Env.add])
        rw [this]
        simp [Env.add, isFn]
      · rfl
    refine ⟨⟨k1.vis.grow (g2.trans g3), ?_⟩, ((grows_add _ _).trans g2).trans g3⟩
    intro i ms hi
    show Vis N (E₁.decls.set E.decls.length (.ns E₁.vis)) ms
    have hi' : (E₁.decls.set E.decls.length (.ns E₁.vis))[i]? = some (.ns ms) := hi
    rw [List.getElem?_set] at hi'
    split at hi'
    · cases hi'
      exact k2.vis.grow g3
    · exact (k2.mem i ms hi').grow g3

theorem stmts_known {W N} : ∀ (t : Tree) {c E before E'}, Stmts W c E before t E' → Names N t → Known N E →
    Known N E' ∧ Grows E.decls E'.decls
  | .nil, _, _, _, _, h, _, hk => by cases h; exact ⟨hk, .refl _⟩
  | .node stmt tok te child next, _, _, _, _, h, hn, hk => by
    cases h with
    | node _ h1 h2 =>
      obtain ⟨k1, g1⟩ := stmt_known h1 hn hk fun h => stmts_known child h hn.child
      obtain ⟨k2, g2⟩ := stmts_known next h2 hn.next k1
      exact ⟨k2, g1.trans g2⟩

theorem enters_known {W N c E stmt tok te child next c₁ E₁} (h : Enters W c E stmt tok c₁ E₁)
    (hn : Names N (.node stmt tok te child next)) (hk : Known N E) : Known N E₁ := by
  cases h with
  | func _ h2 h3 => exact (params_known h3 (hk.add (fun _ => hn.func h2) (fun _ h => by cases h))).1
  | ns h => exact hk.add (fun _ => hn.ns h) (fun _ h => by cases h; rfl)
  | _ => exact hk

/-- What is reached is a part. -/
theorem reach_known {W N c E before t c' E' before' t'} (h : Reach W c E before t c' E' before' t') : Names N t → Known N E →
    Known N E' ∧ (∀ u ∈ varUses t', u ∈ varUses t) := by
  induction h with
  | here => exact fun _ hk => ⟨hk, fun _ h => h⟩
  | @next _ _ _ _ _ _ _ child _ _ _ _ _ h1 _ ih =>
    intro hn hk
    obtain ⟨k1, k2⟩ := ih hn.next (stmt_known h1 hn hk fun h => stmts_known child h hn.child).1
    exact ⟨k1, fun u hu => by simp only [varUses, List.mem_append]; exact .inr (k2 u hu)⟩
  | body h1 _ ih =>
    intro hn hk
    obtain ⟨k1, k2⟩ := ih hn.child (enters_known h1 hn hk)
    exact ⟨k1, fun u hu => by simp only [varUses, List.mem_append]; exact .inl (.inr (k2 u hu))⟩

mutual
theorem operands_sub {u : Token} : ∀ {e : Expr}, SubExpr (.ident u) e → u ∈ usedNames e
  | .missing, h => by cases h
  | .const _, h => by cases h
  | .ident t, h => by cases h; exact .head _
  | .call _ as _, h => by
    cases h with
    | arg h => simp only [usedNames]; exact operands_args h
  | .un _ e, h => by
    cases h with
    | un h => simp only [usedNames]; exact operands_sub h
  | .bin _ l r, h => by
    cases h with
    | left h => simp only [usedNames, List.mem_append]; exact .inl (operands_sub h)
    | right h => simp only [usedNames, List.mem_append]; exact .inr (operands_sub h)
theorem operands_args {u : Token} : ∀ {as : Args}, SubArgs (.ident u) as → u ∈ usedArgs as
  | .nil, h => by cases h
  | .cons _ e r, h => by
    cases h with
    | here h => simp only [usedArgs, List.mem_append]; exact .inl (operands_sub h)
    | next h => simp only [usedArgs, List.mem_append]; exact .inr (operands_args h)
end

theorem uses_mem {E stmt tok te child next u} (h : UsesVar E stmt tok te u) : u ∈ varUses (.node stmt tok te child next) := by
  simp only [varUses, List.mem_append]
  refine .inl (.inl ?_)
  cases h with
  | operand h1 _ h3 => rw [h1]; exact .inr (operands_sub h3)
  | target => exact .inl (by simp)

theorem lookup_mem {x : List Char} {i : Nat} : ∀ {l : List (List Char × Nat)}, l.lookup x = some i → (x, i) ∈ l
  | [], h => by cases h
  | (y, j) :: l, h => by
    rw [List.lookup_cons] at h
    split at h
    · rename_i e
      cases h
      rw [eq_of_beq e]
      exact .head _
    · exact .tail _ (lookup_mem h)

theorem follow_known {N} {ds : List Decl} (hm : ∀ (i : Nat) (ms : List (List Char × Nat)), ds[i]? = some (Decl.ns ms) → Vis N ds ms) : ∀ (xs : List (List Char)) (l : List (List Char × Nat)) {i d},
    Vis N ds l → follow ds l xs = some i → ds[i]? = some d → isFn d = true → ∃ y, xs.getLast? = some y ∧ N y
  | [], l, i, d, _, h, _, _ => by simp [follow] at h
  | [x], l, i, d, hv, h, hd, hf => ⟨x, rfl, (hv x i (lookup_mem h)).2 d hd hf⟩
  | x :: y :: more, l, i, d, hv, h, hd, hf => by
    unfold follow at h
    split at h
    · rename_i ms he
      obtain ⟨j, hj, he⟩ := Option.bind_eq_some_iff.1 he
      obtain ⟨z, h1, h2⟩ := follow_known hm (y :: more) ms (hm j ms he) h hd hf
      exact ⟨z, by rw [List.getLast?_cons_cons]; exact h1, h2⟩
    · cases h

/-- If names of variables are not names of functions or namespaces, all is well. -/
theorem vars_of_names {W t} (h : namesApart t = true) : VarsOnly W t := by
  intro c E before stmt tok te child next u hr hu
  have hk : Known (fun x => some x ∈ calledNames t) Env.start := by
    refine ⟨fun x i h => (by cases h), fun i ms hi => ?_⟩
    cases i with
    | zero => cases hi
    | succ i => simp [Env.start] at hi
  obtain ⟨k1, k2⟩ := reach_known hr (fun x h => h) hk
  have hm := k2 u (uses_mem hu)
  intro x hx
  have no : ∀ d, E.decl x = some d → isFn d = true → False := by
    intro d hd hf
    unfold Env.decl Env.resolve at hd
    obtain ⟨i, h1, h2⟩ := Option.bind_eq_some_iff.1 hd
    obtain ⟨y, h3, h4⟩ := follow_known k1.mem _ _ k1.vis h1 h2 hf
    have := List.all_eq_true.1 h u hm
    rw [show tokenToString u = some x from hx] at this
    simp only [Option.all_some, h3] at this
    simp [h4] at this
  exact ⟨fun ps τ hd => no _ hd rfl, fun ms hd => no _ hd rfl⟩

end Skull.SemDef
