import Verif.Spec.Program
import Verif.Proofs.SemDet
/-
The statements of a well formed program are well formed.
-/
namespace Skull.Spec

theorem params_unique {W W' : World} {E : Env} {f τ τs τs' E₁ E₁' ps} (h : ParamsOk W (E.add f (.func τs τ)) ps τs E₁)
    (h' : ParamsOk W' (E.add f (.func τs' τ)) ps τs' E₁') : τs' = τs ∧ E₁' = E₁ := by
  have hsim : Env.Sim (E.add f (.func τs τ)) (E.add f (.func τs' τ)) := by
    refine ⟨rfl, by simp [Env.add], fun i => ?_⟩
    simp only [Env.add]
    rcases Nat.lt_trichotomy i E.decls.length with hi | hi | hi
    · rw [List.getElem?_append_left hi, List.getElem?_append_left hi]; exact .inl rfl
    · subst hi
      exact .inr ⟨τs, τs', τ, by simp, by simp⟩
    · exact .inl (by rw [List.getElem?_eq_none (by simp; omega), List.getElem?_eq_none (by simp; omega)])
  have := (params_det h h' hsim).1
  subst this
  exact ⟨rfl, (params_det h h' hsim).2 rfl⟩

/-- The block of a well formed statement is well formed. -/
theorem StmtOk.body {W W' : World} {c E before stmt tok tokEnd child next E' c₁ E₁}
    (h : StmtOk W c E before stmt tok tokEnd child next E') (he : Enters W' c E stmt tok c₁ E₁) (hb : ∀ n args num, stmt = .expr (.call n args num) → child = .nil) :
    ∃ E₂, Stmts W c₁ E₁ [] child E₂ := by
  cases he with
  | func h1 h2 h3 =>
    cases h with
    | func _ g2 g3 _ g5 g6 _ =>
      cases text_det h2 g3
      cases retType_det h1 g2
      obtain ⟨rfl, rfl⟩ := params_unique h3 g5
      exact ⟨_, g6⟩
  | ns h1 =>
    cases h with
    | namespaces g1 _ g3 =>
      cases text_det h1 g1
      exact ⟨_, g3⟩
  | whiles => cases h with | whiles _ _ h => exact ⟨_, h⟩
  | ifs => cases h with | ifs _ _ h => exact ⟨_, h⟩
  | elifs => cases h with | elifs _ _ _ h => exact ⟨_, h⟩
  | elses => cases h with | elses _ _ h => exact ⟨_, h⟩
  | call =>
    rw [hb _ _ _ rfl]
    exact ⟨_, .nil⟩

theorem reach_stmts {W W' : World} (hW : W'.strtod = W.strtod) {c E before t c' E' before' t' E₂}
    (hr : Reach W' c E before t c' E' before' t') (hb : CallsBare t) (h : Stmts W c E before t E₂) : (∃ E₃, Stmts W c' E' before' t' E₃) ∧ CallsBare t' := by
  induction hr generalizing E₂ with
  | here => exact ⟨⟨_, h⟩, hb⟩
  | next h1 _ ih =>
    cases h with
    | node _ g2 g3 =>
      cases stmt_det hW (stmts_det hW _) g2 h1
      exact ih hb.2.2 g3
  | body h1 _ ih =>
    cases h with
    | node _ g2 g3 =>
      obtain ⟨E₃, h2⟩ := g2.body h1 hb.1
      exact ih hb.2.1 h2

/-- A well formed statement with a block can be entered. -/
theorem StmtOk.enters {W c E before stmt tok tokEnd child next E'} (h : StmtOk W c E before stmt tok tokEnd child next E')
    (hm : MayHaveBlock stmt) : ∃ c₁ E₁, Enters W c E stmt tok c₁ E₁ := by
  cases h with
  | func _ g2 g3 _ g5 _ _ => exact ⟨_, _, .func g2 g3 g5⟩
  | namespaces g1 => exact ⟨_, _, .ns g1⟩
  | whiles => exact ⟨_, _, .whiles⟩
  | ifs => exact ⟨_, _, .ifs⟩
  | elifs => exact ⟨_, _, .elifs⟩
  | elses => exact ⟨_, _, .elses⟩
  | call => exact ⟨_, _, .call⟩
  | _ => exact absurd hm (by simp [MayHaveBlock])

/-- How the place of a statement follows from the statements around it. -/
structure CtxFits (c : Ctx) (up : List Stmt) : Prop where
  loop : 0 < c.loops → InLoop up
  ret : ∀ r, c.ret = some r → ∃ p, .funcProto p ∈ up
  top : c.top = true → up = []

theorem InLoop.cons {up : List Stmt} (h : InLoop up) {s : Stmt} (hs : ∀ p, s ≠ .funcProto p) : InLoop (s :: up) := by
  obtain ⟨inner, e, outer, h1, h2⟩ := h
  refine ⟨s :: inner, e, outer, by rw [h1]; rfl, ?_⟩
  intro s' hs'
  cases hs' with
  | head => exact hs
  | tail _ h => exact h2 _ h

theorem CtxFits.enter {W c E stmt tok c₁ E₁ up} (h : CtxFits c up) (he : Enters W c E stmt tok c₁ E₁) : CtxFits c₁ (stmt :: up) := by
  have hr : ∀ {s : Stmt} r, c.ret = some r → ∃ p, .funcProto p ∈ s :: up := by
    intro s r hr
    obtain ⟨p, hp⟩ := h.ret r hr
    exact ⟨p, .tail _ hp⟩
  cases he with
  | @func p f τ τs E₁ tok _ _ _ => exact ⟨fun h => absurd h (Nat.lt_irrefl 0), fun r _ => ⟨p, .head _⟩, fun h => by cases h⟩
  | whiles => exact ⟨fun _ => ⟨[], _, up, rfl, fun _ h => by cases h⟩, hr, fun h => by cases h⟩
  | _ => exact ⟨fun hl => (h.loop hl).cons (fun _ h => by cases h), hr, fun h => by cases h⟩

/-- Every statement of a well formed program is reached. -/
theorem occ_reach {W up before t up' before' t'} (ho : Occ up before t up' before' t') {c E E₂} (hb : CallsBare t)
    (h : Stmts W c E before t E₂) (hc : CtxFits c up) (hn : t' ≠ .nil) : ∃ c' E', Reach W c E before t c' E' before' t' ∧ CtxFits c' up' := by
  induction ho generalizing c E E₂ with
  | here => exact ⟨c, E, .here, hc⟩
  | next _ ih =>
    cases h with
    | node _ g2 g3 =>
      obtain ⟨c', E', h1, h2⟩ := ih hb.2.2 g3 hc hn
      exact ⟨c', E', .next g2 h1, h2⟩
  | @child up before stmt tok tokEnd child next up' before' t' hch ih =>
    cases h with
    | node g1 g2 g3 =>
      cases child with
      | nil =>
        exact absurd (show t' = .nil by cases hch; rfl) hn
      | node a b d e f =>
        obtain ⟨c₁, E₁, h1⟩ := g2.enters (g1 (by simp))
        obtain ⟨E₃, h2⟩ := g2.body h1 hb.1
        obtain ⟨c', E', h3, h4⟩ := ih hb.2.1 h2 (hc.enter h1) hn
        exact ⟨c', E', .body h1 h3, h4⟩

theorem Occ.trans {up b t up' b' t' up'' b'' t''} (h : Occ up b t up' b' t') (h' : Occ up' b' t' up'' b'' t'') :
    Occ up b t up'' b'' t'' := by
  induction h with
  | here => exact h'
  | next _ ih => exact .next (ih h')
  | child _ ih => exact .child (ih h')

theorem Reach.trans {W c E b t c' E' b' t' c'' E'' b'' t''} (h : Reach W c E b t c' E' b' t')
    (h' : Reach W c' E' b' t' c'' E'' b'' t'') : Reach W c E b t c'' E'' b'' t'' := by
  induction h with
  | here => exact h'
  | next h1 _ ih => exact .next h1 (ih h')
  | body h1 _ ih => exact .body h1 (ih h')

end Skull.Spec
