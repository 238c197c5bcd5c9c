import Verif.Proofs.SemReach
import Verif.Proofs.SemSound
/-
What the rules say about the statements and expressions of a program.
-/
namespace Skull.Spec

mutual
/-- A part of an expression with a type has a type, or is the name behind a `&` or `*`, which then has one too. -/
theorem HasType.sub {W E d} : ∀ (e : Expr) {τ}, HasType W E e τ → SubExpr d e → ∃ σ, HasType W E d σ
  | .missing, _, h, _ => by cases h
  | .ident t, _, h, hs => by cases hs; exact ⟨_, h⟩
  | .const t, _, h, hs => by cases hs; exact ⟨_, h⟩
  | .call n args num, _, h, hs => by
    cases hs with
    | here => exact ⟨_, h⟩
    | arg hs =>
      cases h with
      | call _ _ h3 => exact ArgsType.sub args h3 hs
  | .un o e, _, h, hs => by
    cases hs with
    | here => exact ⟨_, h⟩
    | un hs =>
      cases h with
      | un h1 _ => exact HasType.sub e h1 hs
      | ref h1 => exact HasType.sub _ h1 hs
      | deref h1 => exact HasType.sub _ h1 hs
  | .bin o l r, _, h, hs => by
    cases hs with
    | here => exact ⟨_, h⟩
    | left hs => cases h with | bin h1 => exact HasType.sub l h1 hs
    | right hs => cases h with | bin _ h1 => exact HasType.sub r h1 hs
theorem ArgsType.sub {W E d} : ∀ (args : Args) {τs}, ArgsType W E args τs → SubArgs d args → ∃ σ, HasType W E d σ
  | .nil, _, _, hs => by cases hs
  | .cons _ e next, _, h, hs => by
    cases h with
    | cons h1 h2 =>
      cases hs with
      | here hs => exact HasType.sub e h1 hs
      | next hs => exact ArgsType.sub next h2 hs
end

/-- The arguments fit the parameters one for one. -/
theorem ArgsType.nth {W E} : ∀ (args : Args) {τs}, ArgsType W E args τs →
    (argList args).length = τs.length ∧ ∀ (i : Nat) e, (argList args)[i]? = some e → ∃ τ, τs[i]? = some τ ∧ HasType W E e τ
  | .nil, _, h => by cases h; exact ⟨rfl, fun i e h => by simp [argList] at h⟩
  | .cons _ e next, _, h => by
    cases h with
    | cons h1 h2 =>
      obtain ⟨h3, h4⟩ := ArgsType.nth next h2
      refine ⟨by simp [argList, h3], fun i d hd => ?_⟩
      cases i with
      | zero =>
        simp only [argList, List.getElem?_cons_zero, Option.some.injEq] at hd
        subst hd
        exact ⟨_, by simp, h1⟩
      | succ i =>
        simp only [argList, List.getElem?_cons_succ] at hd
        simpa using h4 i d hd

theorem NoCode.idle {t : Tree} (h : NoCode t) : ∀ s ∈ siblings t, IsIdle s := by
  induction t with
  | nil => intro s hs; simp [siblings] at hs
  | node stmt _ _ _ next _ ih =>
    intro s hs
    simp only [siblings, List.mem_cons] at hs
    cases stmt <;> first | exact h.elim | skip
    all_goals
      rcases hs with rfl | hs
      · trivial
      · exact ih h s hs

theorem AfterIf.behind {before : List Stmt} (h : AfterIf before) : BehindIf before := by
  induction before with
  | nil => exact h.elim
  | cons s before ih =>
    cases s <;> first | exact h.elim | skip
    case ifs e => exact ⟨[], _, before, rfl, (fun _ h => by cases h), e, .inl rfl⟩
    case elifs e => exact ⟨[], _, before, rfl, (fun _ h => by cases h), e, .inr rfl⟩
    case comment =>
      obtain ⟨cs, s, rest, h1, h2, h3⟩ := ih h
      refine ⟨.comment :: cs, s, rest, by rw [h1]; rfl, ?_, h3⟩
      intro c hc
      cases hc with
      | head => rfl
      | tail _ h => exact h2 c h

/-- A jump is only followed by statements that do nothing. -/
theorem StmtOk.jump {W c E before stmt tok tokEnd child next E'} (h : StmtOk W c E before stmt tok tokEnd child next E')
    (hj : IsJump stmt) : NoCode next := by
  cases h <;> first | assumption | exact hj.elim

/-- The value of a statement has a type. -/
theorem StmtOk.value {W c E before stmt tok tokEnd child next E' e} (h : StmtOk W c E before stmt tok tokEnd child next E')
    (he : stmtExpr stmt = some e) (hm : e ≠ .missing) (ha : ¬ IsAlias E stmt tokEnd) : ∃ τ, HasType W E e τ := by
  cases h with
  | retNone => cases he; exact absurd rfl hm
  | alias h1 => exact absurd ⟨⟨_, _, _, _, _, rfl⟩, _, h1⟩ ha
  | ret _ h => cases he; exact ⟨_, h⟩
  | varDef _ h => cases he; exact ⟨_, h⟩
  | varAssign _ _ h => cases he; exact ⟨_, h⟩
  | call h => cases he; exact ⟨_, h⟩
  | ifs _ h => cases he; exact ⟨_, h⟩
  | elifs _ _ h => cases he; exact ⟨_, h⟩
  | whiles _ h => cases he; exact ⟨_, h⟩
  | _ => cases he

/-- A return with a value among the statements is the one that counts. -/
theorem Stmts.returnsValue {W} : ∀ (t : Tree) {c E before E'}, Stmts W c E before t E' →
    (ReturnsValue t ↔ ∃ e, e ≠ .missing ∧ .ret e ∈ siblings t)
  | .nil, _, _, _, _, _ => by simp [ReturnsValue, siblings]
  | .node stmt tok tokEnd child next, _, _, _, _, h => by
    cases h with
    | node _ h1 h2 =>
      have ih := Stmts.returnsValue next h2
      have hj : IsJump stmt → ¬ ∃ e, e ≠ .missing ∧ .ret e ∈ siblings next := by
        rintro hj ⟨e, _, he⟩
        exact (h1.jump hj).idle _ he
      cases stmt with
      | ret e =>
        cases e with
        | missing =>
          refine ⟨fun h => h.elim, fun ⟨e, h3, h4⟩ => ?_⟩
          simp only [siblings, List.mem_cons, Stmt.ret.injEq] at h4
          rcases h4 with h4 | h4
          · exact absurd h4 h3
          · exact absurd ⟨e, h3, h4⟩ (hj trivial)
        | _ => exact ⟨fun _ => ⟨_, (by intro h; cases h), List.Mem.head _⟩, fun _ => trivial⟩
      | unreachable =>
        refine ⟨fun h => h.elim, fun ⟨e, h3, h4⟩ => ?_⟩
        simp only [siblings, List.mem_cons] at h4
        rcases h4 with h4 | h4
        · cases h4
        · exact absurd ⟨e, h3, h4⟩ (hj trivial)
      | _ =>
        refine ih.trans ⟨fun ⟨e, h3, h4⟩ => ⟨e, h3, .tail _ h4⟩, fun ⟨e, h3, h4⟩ => ⟨e, h3, ?_⟩⟩
        simp only [siblings, List.mem_cons] at h4
        rcases h4 with h4 | h4
        · cases h4
        · exact h4

end Skull.Spec
