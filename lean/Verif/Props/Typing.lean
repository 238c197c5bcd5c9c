import Verif.Props.Scope
import Verif.Proofs.ManyArgs
/-
C39: the types of expressions.
-/
namespace Skull
open Spec

/-! ## C39 Expressions are typed by the language's type rules -/

/-- In every state reached by declarations, blocks and namespaces, the check accepts an expression with a type exactly when the
type rules give it that type.  (Missing: calls with more than 65535 arguments.) -/
theorem C39_partial (cfg : Cfg) (s : SS) (fs : Frames) (ds : List Decl) (h : ScopeRun cfg s fs ds) (W : World)
    (hW : W.strtod = cfg.strtod) (e : Expr) (hc : Expr.Counted e) (τ : Ty) :
    (∃ a s', validateExpr cfg e s = .ok a s' ∧ a.type = τ) ↔ HasType W (runEnv fs ds) e τ := by
  obtain ⟨f, rest, B, rfl, hi, _⟩ := scopeRun_inv h
  constructor
  · rintro ⟨a, s', h1, rfl⟩
    exact (expr_sound hW e s a s' h1 hi hc).1
  · intro h1
    exact expr_complete hW e s τ h1 hi hc

/-- The type is unique. -/
theorem C39_unique (W : World) (E : Env) (e : Expr) (σ τ : Ty) (h : HasType W E e σ) (h' : HasType W E e τ) : σ = τ :=
  HasType.det e h h'

/-- As stated: also for calls of any length, as the parser numbers them; false. -/
def C39_full : Prop := ∀ (cfg : Cfg) (s : SS) (fs : Frames) (ds : List Decl), ScopeRun cfg s fs ds → ∀ (W : World),
  W.strtod = cfg.strtod → ∀ (e : Expr), NumsOf e → ∀ τ,
  ((∃ a s', validateExpr cfg e s = .ok a s' ∧ a.type = τ) ↔ HasType W (runEnv fs ds) e τ)

/-- `f(a: Int)` -/
def oneParam : Symbol :=
  { name := ['f'], kind := .func { numParams := 1, paramTypes := [tInt], returnType := tInt, isExternal := true, isExport := false } }

/-- After the declaration of `f`. -/
def oneParamState : Option SS :=
  match setupState sampleCfg with
  | some s => match declareSym oneParam s with | .ok true s' => some s' | _ => none
  | none => none

theorem oneParam_run {s : SS} (h : oneParamState = some s) : ∃ fs ds, ScopeRun sampleCfg s fs ds ∧
    (runEnv fs ds).decl ['f'] = some (.func [Int'] Int') := by
  unfold oneParamState at h
  split at h
  · rename_i s₀ h0
    split at h
    · rename_i s' h1
      cases h
      refine ⟨_, _, .declare (sym := oneParam) (.start h0) rfl h1, ?_⟩
      have : s₀.syms.length = 1 := by
        obtain ⟨_, _, _, _, hi, _⟩ := scopeRun_inv (.start h0)
        exact hi.len
      simp only [runEnv, Env.decl, Env.resolve, path, follow, this, oneParam]
      simp [follow, declOf, tInt]
    · cases h
  · cases h

/-- Whether the expression is accepted then, as an `Int`. -/
def oneParamTakes (e : Expr) : Bool :=
  match oneParamState with
  | none => false
  | some s => match validateExpr sampleCfg e s with | .ok a _ => a.type == tInt | _ => false

theorem oneParam_takes {e : Expr} (h : oneParamTakes e = true) : ∃ s, oneParamState = some s ∧
    ∃ a s', validateExpr sampleCfg e s = .ok a s' ∧ a.type = tInt := by
  unfold oneParamTakes at h
  split at h
  · cases h
  · split at h
    · exact ⟨_, by assumption, _, _, by assumption, by simpa using h⟩
    · cases h

theorem argsType_length {W E args ps} (h : ArgsType W E args ps) : (argList args).length = ps.length := by
  induction ps generalizing args with
  | nil => cases h; rfl
  | cons τ τs ih => cases h with | cons _ h => simp [argList, ih h]

theorem oneParam_rejects {W fs ds} (hd : (runEnv fs ds).decl ['f'] = some (.func [Int'] Int')) (n : Nat)
    (h : HasType W (runEnv fs ds) (buildChain (manyCall n)) tInt) : n = 1 := by
  cases h with
  | call h1 h2 h3 =>
    cases text_det h1 (show tokenToString (mkTok .identifier "f") = some ['f'] by decide)
    rw [hd] at h2
    cases h2
    have := argsType_length h3
    rw [ones_len] at this
    simpa using this

theorem many_taken : oneParamTakes (buildChain (manyCall 65537)) = true := by decide +kernel

/-- A function with one parameter may be called with 65537 arguments. -/
theorem C39_false : ¬ C39_full := by
  intro h
  obtain ⟨s, h1, h2⟩ := oneParam_takes many_taken
  obtain ⟨fs, ds, h3, h4⟩ := oneParam_run h1
  have := (h sampleCfg s fs ds h3 { strtod := sampleCfg.strtod, canImport := fun _ => False, returns := False, strict := False } rfl
    _ (nums_chain _) tInt).1 h2
  exact absurd (oneParam_rejects h4 _ this) (by decide)

example : oneParamTakes (buildChain (manyCall 1)) = true := by decide +kernel
example : oneParamTakes (buildChain (manyCall 2)) = false := by decide +kernel

end Skull
