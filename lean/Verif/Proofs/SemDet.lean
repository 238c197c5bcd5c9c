import Verif.Spec.Typing
/-
The rules are deterministic: an expression has one type, statements lead to one environment.
-/
namespace Skull.Spec

theorem text_det {t : Token} {x y} (h : Text t x) (h' : Text t y) : x = y := by
  unfold Text at h h'
  rw [h] at h'
  exact Option.some.inj h'

theorem TypeAt.det {E toks o o'} (h : TypeAt E toks o) (h' : TypeAt E toks o') : o = o' := by
  induction h generalizing o' with
  | name h1 h2 =>
    cases h' with
    | name _ h3 => rw [text_det h2 h3]
    | ref h3 => rcases h1 with h1 | h1 <;> rw [h3] at h1 <;> cases h1
    | other h3 h4 => rcases h1 with h1 | h1 <;> contradiction
  | ref h1 _ ih =>
    cases h' with
    | name h3 => rcases h3 with h3 | h3 <;> rw [h3] at h1 <;> cases h1
    | ref _ h3 => rw [ih h3]
    | other _ _ h3 => contradiction
  | other h1 h2 h3 =>
    cases h' with
    | name h4 => rcases h4 with h4 | h4 <;> contradiction
    | ref h4 => contradiction
    | other => rfl

theorem LitType.det {W t τ σ} (h : LitType W t τ) (h' : LitType W t σ) : τ = σ := by
  cases h <;> cases h' <;> first | rfl | (rename_i h1 _ _ h2 _; rw [h1] at h2; cases h2) | (rename_i h1 _ h2; rw [h1] at h2; cases h2) |
    (rename_i h1 _ h2 _; rw [h1] at h2; cases h2) | (simp_all)

mutual
/-- An expression has at most one type. -/
theorem HasType.det {W E} : ∀ (e : Expr) {τ σ}, HasType W E e τ → HasType W E e σ → τ = σ
  | .missing, _, _, h, _ => by cases h
  | .ident t, _, _, h, h' => by
    cases h with
    | ident h1 h2 =>
      cases h' with
      | ident h3 h4 =>
        cases text_det h1 h3
        rw [h2] at h4
        cases h4
        rfl
  | .const t, _, _, h, h' => by
    cases h with
    | const h1 =>
      cases h' with
      | const h2 => exact h1.det h2
  | .call n args num, _, _, h, h' => by
    cases h with
    | call h1 h2 h3 =>
      cases h' with
      | call h4 h5 h6 =>
        cases text_det h1 h4
        rw [h2] at h5
        cases h5
        rfl
  | .un o e, τ, σ, h, h' => by
    cases h with
    | un h1 h2 =>
      cases h' with
      | un h3 h4 =>
        cases HasType.det e h1 h3
        rw [h2] at h4
        cases h4
        rfl
      | ref => simp [unType] at h2
      | deref => simp [unType] at h2
    | ref h1 =>
      cases h' with
      | un h3 h4 => simp [unType] at h4
      | ref h2 => rw [HasType.det _ h1 h2]
    | deref h1 =>
      cases h' with
      | un h3 h4 => simp [unType] at h4
      | deref h2 => cases HasType.det _ h1 h2; rfl
  | .bin o l r, _, _, h, h' => by
    cases h with
    | bin h1 h2 h3 h4 =>
      cases h' with
      | bin h5 h6 h7 h8 =>
        cases HasType.det l h1 h5
        rw [h3] at h7
        cases h7
        rfl
end

mutual
/-- The type of an expression does not depend on the world but for how numbers are read. -/
theorem HasType.world {W W' : World} (hW : W'.strtod = W.strtod) {E} : ∀ (e : Expr) {τ}, HasType W E e τ → HasType W' E e τ
  | .missing, _, h => by cases h
  | .ident t, _, h => by
    cases h with
    | ident h1 h2 => exact .ident h1 h2
  | .const t, _, h => by
    cases h with
    | const h1 =>
      cases h1 with
      | int h1 h2 => exact .const (.int h1 h2)
      | float h1 h2 => exact .const (.float h1 (by rw [hW]; exact h2))
      | bool h1 => exact .const (.bool h1)
      | rune h1 h2 => exact .const (.rune h1 h2)
      | str h1 h2 h3 => exact .const (.str h1 h2 h3)
  | .call n args num, _, h => by
    cases h with
    | call h1 h2 h3 => exact .call h1 h2 (ArgsType.world hW args h3)
  | .un o e, τ, h => by
    cases h with
    | un h1 h2 => exact .un (HasType.world hW e h1) h2
    | ref h1 => exact .ref (HasType.world hW _ h1)
    | deref h1 => exact .deref (HasType.world hW _ h1)
  | .bin o l r, _, h => by
    cases h with
    | bin h1 h2 h3 h4 => exact .bin (HasType.world hW l h1) (HasType.world hW r h2) h3 h4
theorem ArgsType.world {W W' : World} (hW : W'.strtod = W.strtod) {E} : ∀ (args : Args) {τs}, ArgsType W E args τs → ArgsType W' E args τs
  | .nil, _, h => by cases h; exact .nil
  | .cons _ e next, _, h => by
    cases h with
    | cons h1 h2 => exact .cons (HasType.world hW e h1) (ArgsType.world hW next h2)
end

theorem HasType.det' {W W' : World} (hW : W'.strtod = W.strtod) {E e τ σ} (h : HasType W E e τ) (h' : HasType W' E e σ) : τ = σ :=
  (h.world hW).det _ h'

/- ### Parameters do not depend on the types of the parameters -/

/-- Environments that differ in the parameters of functions only. -/
structure Env.Sim (E E' : Env) : Prop where
  vis : E'.vis = E.vis
  len : E'.decls.length = E.decls.length
  decl : ∀ i : Nat, E'.decls[i]? = E.decls[i]? ∨ ∃ ps ps' τ, E.decls[i]? = some (Decl.func ps τ) ∧ E'.decls[i]? = some (Decl.func ps' τ)

theorem follow_sim {E E' : Env} (h : Env.Sim E E') : ∀ (p : List (List Char)) (vis : List (List Char × Nat)),
    follow E'.decls vis p = follow E.decls vis p
  | [], _ => by simp [follow]
  | [x], vis => by simp [follow]
  | x :: y :: more, vis => by
    simp only [follow]
    cases hv : vis.lookup x with
    | none => rfl
    | some i =>
      simp only [Option.bind_some]
      rcases h.decl i with h1 | ⟨ps, ps', τ, h1, h2⟩
      · rw [h1]
        split
        · exact follow_sim h _ _
        · rfl
      · rw [h1, h2]

theorem resolve_sim {E E' : Env} (h : Env.Sim E E') (x) : E'.resolve x = E.resolve x := by
  unfold Env.resolve
  rw [h.vis, follow_sim h]

theorem typeNamed_sim {E E' : Env} (h : Env.Sim E E') (x) : E'.typeNamed x = E.typeNamed x := by
  unfold Env.typeNamed Env.decl
  rw [resolve_sim h]
  cases E.resolve x with
  | none => rfl
  | some i =>
    simp only [Option.bind_some]
    rcases h.decl i with h1 | ⟨ps, ps', τ, h1, h2⟩
    · rw [h1]
    · rw [h1, h2]

theorem typeAt_sim {E E' : Env} (h : Env.Sim E E') {toks o} (ht : TypeAt E toks o) : TypeAt E' toks o := by
  induction ht with
  | name h1 h2 => rw [← typeNamed_sim h]; exact .name h1 h2
  | ref h1 _ ih => exact .ref h1 ih
  | other h1 h2 h3 => exact .other h1 h2 h3

theorem sim_add {E E' : Env} (h : Env.Sim E E') (x d) : Env.Sim (E.add x d) (E'.add x d) := by
  refine ⟨by simp [Env.add, h.vis, h.len], by simp [Env.add, h.len], fun i => ?_⟩
  simp only [Env.add]
  rcases Nat.lt_or_ge i E.decls.length with hi | hi
  · rw [List.getElem?_append_left hi, List.getElem?_append_left (by rw [h.len]; exact hi)]
    exact h.decl i
  · rw [List.getElem?_append_right hi, List.getElem?_append_right (by rw [h.len]; exact hi), h.len]
    exact .inl rfl

theorem params_det {W W' : World} {E E' ps τs τs' E₁ E₁'} (h : ParamsOk W E ps τs E₁) (h' : ParamsOk W' E' ps τs' E₁')
    (hs : Env.Sim E E') : τs' = τs ∧ (E' = E → E₁' = E₁) := by
  induction h generalizing E' τs' E₁' with
  | nil => cases h'; exact ⟨rfl, id⟩
  | cons h1 h2 _ _ _ _ ih =>
    cases h' with
    | cons g1 g2 _ _ _ g3 =>
      cases text_det h2 g2
      have := (typeAt_sim hs h1).det g1
      cases this
      obtain ⟨h3, h4⟩ := ih g3 (sim_add hs _ _)
      exact ⟨by rw [h3], fun he => h4 (by rw [he])⟩

/- ### Statements -/

theorem retType_det {E o τ σ} (h : RetType E o τ) (h' : RetType E o σ) : τ = σ := by
  cases o with
  | none => exact h.trans h'.symm
  | some toks => exact Option.some.inj (TypeAt.det h h')

/-- Statements lead to one environment. -/
def Det (W W' : World) (t : Tree) : Prop :=
  ∀ c c' E b b' E₁ E₂, Stmts W c E b t E₁ → Stmts W' c' E b' t E₂ → E₂ = E₁

theorem stmt_det {W W' : World} (hW : W'.strtod = W.strtod) {stmt child} (hc : Det W W' child) {c c' E b b' tok tokEnd next E₁ E₂}
    (h : StmtOk W c E b stmt tok tokEnd child next E₁) (h' : StmtOk W' c' E b' stmt tok tokEnd child next E₂) : E₂ = E₁ := by
  cases h with
  | func h1 h2 h3 h4 h5 h6 h7 =>
    cases h' with
    | @func _ _ F₁ F₂ _ _ f' τ' τs' _ _ _ _ g1 g2 g3 g4 g5 g6 g7 =>
      rename_i G₁ G₂ f τ τs
      cases text_det h3 g3
      have hτ : τ' = τ := retType_det g2 h2
      subst hτ
      have hsim : Env.Sim (E.add f (.func τs τ')) (E.add f (.func τs' τ')) := by
        refine ⟨rfl, by simp [Env.add], fun i => ?_⟩
        simp only [Env.add]
        rcases Nat.lt_trichotomy i E.decls.length with hi | hi | hi
        · rw [List.getElem?_append_left hi, List.getElem?_append_left hi]; exact .inl rfl
        · subst hi
          exact .inr ⟨τs, τs', τ', by simp, by simp⟩
        · exact .inl (by rw [List.getElem?_eq_none (by simp; omega), List.getElem?_eq_none (by simp; omega)])
      have := (params_det h5 g5 hsim).1
      subst this
      have := (params_det h5 g5 hsim).2 rfl
      subst this
      rw [hc _ _ _ _ _ _ _ h6 g6]
  | alias h1 h2 h3 h4 h5 =>
    cases h' with
    | alias g1 g2 g3 g4 g5 => rw [text_det h4 g4, h3.det g3]
    | varDef g1 => cases h1.det g1
  | varDef h1 h2 h3 h4 h5 h6 h7 =>
    cases h' with
    | alias g1 => cases h1.det g1
    | varDef g1 g2 g3 g4 g5 g6 => rw [text_det h5 g5, HasType.det' hW h2 g2]
  | ifs h1 h2 h3 =>
    cases h' with
    | ifs g1 g2 g3 => rw [hc _ _ _ _ _ _ _ h3 g3]
  | elifs h1 h2 h3 h4 =>
    cases h' with
    | elifs g1 g2 g3 g4 => rw [hc _ _ _ _ _ _ _ h4 g4]
  | elses h1 h2 h3 =>
    cases h' with
    | elses g1 g2 g3 => rw [hc _ _ _ _ _ _ _ h3 g3]
  | whiles h1 h2 h3 =>
    cases h' with
    | whiles g1 g2 g3 => rw [hc _ _ _ _ _ _ _ h3 g3]
  | namespaces h1 h2 h3 =>
    cases h' with
    | namespaces g1 g2 g3 =>
      cases text_det h1 g1
      rw [hc _ _ _ _ _ _ _ h3 g3]
  | retNone => cases h' <;> rfl
  | ret => cases h' <;> rfl
  | unreachable => cases h'; rfl
  | varAssign => cases h'; rfl
  | call => cases h'; rfl
  | breaks => cases h'; rfl
  | continues => cases h'; rfl
  | imports => cases h'; rfl
  | unknown => cases h'; rfl
  | comment => cases h'; rfl
  | noop => cases h'; rfl

theorem stmts_det {W W' : World} (hW : W'.strtod = W.strtod) : ∀ t, Det W W' t
  | .nil => by
    intro c c' E b b' E₁ E₂ h h'
    cases h
    cases h'
    rfl
  | .node stmt tok tokEnd child next => by
    intro c c' E b b' E₁ E₂ h h'
    cases h with
    | node h1 h2 h3 =>
      cases h' with
      | node g1 g2 g3 =>
        cases stmt_det hW (stmts_det hW child) h2 g2
        exact stmts_det hW next _ _ _ _ _ _ _ h3 g3

end Skull.Spec
