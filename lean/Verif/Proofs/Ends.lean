import Verif.Proofs.Defs
import Verif.Spec.Flow
/-
Only function declarations change which function the check thinks it is in.  With that, every function of a checked program without
functions in functions ends as its return type says.
-/
namespace Skull
open Spec

/-- When the step goes on it does not change the current function. -/
def Calm (m : Chk α) : Prop := ∀ s a s', m s = .ok a s' → s'.currentFunc = s.currentFunc

theorem Calm.pure (a : α) : Calm (Pure.pure a : Chk α) := by
  intro s b s' h; cases h; exact rfl
theorem Calm.ub : Calm (Chk.ub : Chk α) := by intro s b s' h; cases h
theorem Calm.stop : Calm (Chk.stop : Chk α) := by intro s b s' h; cases h
theorem Calm.error (c : Code) (t : Option Token) : Calm (Chk.error c t : Chk α) := by intro s b s' h; cases h
theorem Calm.get : Calm Chk.get := by intro s b s' h; cases h; exact rfl
theorem Calm.bind {m : Chk α} {f : α → Chk β} (hm : Calm m) (hf : ∀ a, Calm (f a)) : Calm (m >>= f) := by
  intro s b s' h
  obtain ⟨a, s₁, h1, h2⟩ := bind_ok.1 h
  have k1 := hm _ _ _ h1
  have k2 := hf a _ _ _ h2
  exact k2.trans k1
theorem Calm.ofOption (o : Option α) : Calm (Chk.ofOption o) := by
  cases o with
  | none => exact .ub
  | some a => exact .pure a
theorem Calm.ite {c : Prop} [Decidable c] {m m' : Chk α} (h : Calm m) (h' : Calm m') : Calm (if c then m else m') := by
  split
  · exact h
  · exact h'

theorem lookup_calm (x : List Char) : Calm (lookup x) := by
  intro s a s' h
  unfold lookup at h
  split at h <;> cases h
  exact rfl
theorem symAt_calm (id : Nat) : Calm (symAt id) := by
  intro s a s' h
  unfold symAt at h
  split at h <;> cases h
  exact rfl
theorem tokName_calm (t : Token) : Calm (tokName t) := .ofOption _
theorem headTok_calm (l : List Token) : Calm (headTok l) := by
  cases l with
  | nil => exact .ub
  | cons t ts => exact .pure t
theorem findFuncByName_calm (x : List Char) : Calm (findFuncByName x) := by
  refine .bind (lookup_calm x) fun o => ?_
  split
  · exact .pure _
  · refine .bind (symAt_calm _) fun sym => ?_
    split <;> exact .pure _
theorem findType_calm (x : List Char) : Calm (findType x) := by
  refine .bind (lookup_calm x) fun o => ?_
  split
  · exact .pure _
  · refine .bind (symAt_calm _) fun sym => ?_
    split <;> exact .pure _
theorem directType_calm (o : Option Nat) : Calm (directType o) := by
  unfold directType
  split
  · exact .pure _
  · refine .bind (symAt_calm _) fun sym => ?_
    split <;> exact .pure _
theorem funcOrAlias_calm (x : List Char) : Calm (funcOrAlias x) := by
  refine .bind (findFuncByName_calm x) fun o => ?_
  split
  · exact .pure _
  · refine .bind (findType_calm _) fun sym => ?_
    split <;> exact .pure _
theorem findSymbolType_calm (x : List Char) : Calm (findSymbolType x) := by
  refine .bind (lookup_calm x) fun o => .bind (directType_calm o) fun k => ?_
  split
  · exact funcOrAlias_calm _
  · exact .pure _
theorem tokenToType_calm : ∀ toks, Calm (tokenToType toks)
  | [] => .ub
  | t :: rest => by
    unfold tokenToType
    refine .ite (.bind (tokName_calm t) fun n => findType_calm n) (.ite (.bind (tokenToType_calm rest) fun o => .pure _) (.pure _))
theorem currentScope_calm : Calm currentScope := by
  intro s a s' h
  unfold currentScope at h
  split at h <;> cases h <;> exact rfl
theorem addToScope_calm (i : Nat) (x : List Char) (id : Nat) : Calm (addToScope i x id) := by
  intro s a s' h
  unfold addToScope at h
  split at h
  · cases h
  · split at h <;> cases h
    exact rfl
theorem parentScope_calm : Calm parentScope := by
  intro s a s' h
  unfold parentScope at h
  split at h <;> cases h <;> exact rfl
theorem enterChild_calm (i : Nat) : Calm (enterChild i) := by
  intro s a s' h
  unfold enterChild at h
  split at h
  · cases h
  · split at h
    · split at h <;> cases h
      exact rfl
    · cases h; exact rfl
theorem makeChildScope_calm : Calm makeChildScope := .bind parentScope_calm enterChild_calm
theorem makeAdjacentScope_calm : Calm makeAdjacentScope := by
  intro s a s' h
  unfold makeAdjacentScope at h
  split at h
  · cases h
  · split at h <;> cases h
    exact rfl
theorem resetScopeHead_calm : Calm resetScopeHead := by
  intro s a s' h
  unfold resetScopeHead at h
  split at h <;> cases h <;> exact rfl
theorem toParent_calm : Calm toParent := by
  intro s a s' h
  unfold toParent at h
  split at h
  · cases h; exact rfl
  · split at h <;> cases h
    exact rfl
theorem restoreParentScope_calm : Calm restoreParentScope := .bind resetScopeHead_calm fun _ => toParent_calm
theorem isTopLvlScope_calm : Calm isTopLvlScope := by
  intro s a s' h
  unfold isTopLvlScope at h
  split at h
  · cases h
  · cases h; exact rfl
  · split at h <;> cases h
    exact rfl
theorem makeVariable_calm (ty : Ty) (x : List Char) (c : Bool) : Calm (makeVariable ty x c) := .ite (.pure _) .ub
theorem linkageName_calm (cfg : Cfg) (e : Bool) (x : List Char) : Calm (linkageName cfg e x) := .ite (.ofOption _) (.pure _)
theorem funcAt_calm (id : Nat) : Calm (funcAt id) := by
  refine .bind (symAt_calm _) fun sym => ?_
  split
  · exact .pure _
  · exact .ub
theorem varAt_calm (id : Nat) : Calm (varAt id) := by
  refine .bind (symAt_calm _) fun sym => ?_
  split
  · exact .pure _
  · exact .ub
theorem scopeFindVar_calm (t : Token) : Calm (scopeFindVar t) := by
  refine .bind (tokName_calm _) fun n => .bind (lookup_calm n) fun o => ?_
  split
  · exact .error _ _
  · refine .bind (symAt_calm _) fun sym => ?_
    split
    · exact .ite (.pure _) (.error _ _)
    · exact .error _ _
    · exact .error _ _
    · exact .ub
    · exact .ub
theorem findFuncByToken_calm (t : Token) : Calm (findFuncByToken t) := by
  refine .bind (tokName_calm _) fun n => .bind (findFuncByName_calm n) fun o => ?_
  split
  · exact .pure _
  · exact .error _ _
theorem evalLit_calm (t : Token) (e : Ev α) : Calm (evalLit t e) := by
  unfold evalLit
  split
  · exact .pure _
  all_goals first | exact .error _ _ | exact .ub
theorem validateConst_calm (cfg : Cfg) (t : Token) : Calm (validateConst cfg t) := by
  unfold validateConst
  split
  · exact .bind (evalLit_calm _ _) fun _ => .pure _
  · exact .bind (evalLit_calm _ _) fun _ => .pure _
  · exact .pure _
  · exact .bind (evalLit_calm _ _) fun _ => .pure _
  · exact .bind (evalLit_calm _ _) fun _ => .ite (.pure _) (.error _ _)
  · exact .stop
theorem isNumeric_calm (r : AExpr) (t : Token) : Calm (isNumeric r t) := .ite (.pure _) (.error _ _)
theorem notDivByZero_calm (r : AExpr) : Calm (notDivByZero r) := by
  unfold notDivByZero
  split
  · refine .ite ?_ (.pure _)
    split
    · exact .ite (.error _ _) (.pure _)
    · exact .ub
    · exact .pure _
  · exact .pure _
theorem validateRestrictions_calm (o : Oper) (r : AExpr) (t : Token) : Calm (validateRestrictions o r t) := by
  unfold validateRestrictions
  split
  all_goals first
    | exact isNumeric_calm _ _
    | exact .bind (notDivByZero_calm _) fun _ => isNumeric_calm _ _
    | exact .bind (.ite (.error _ _) (.pure _)) fun _ => isNumeric_calm _ _
    | exact .ite (.error _ _) (.pure _)
    | exact .pure _
    | skip
  split
  · exact .pure _
  · exact .error _ _
theorem exprType_calm (o : Oper) (r : Ty) : Calm (exprType o r) := by
  unfold exprType
  split
  all_goals first
    | exact .pure _
    | skip
  split
  · exact .pure _
  · exact .ub
theorem checkCount_calm (f : Func) (n : Token) (ps : Args) (k : Nat) : Calm (checkCount f n ps k) := by
  refine .ite (.error _ _) ?_
  split
  · exact .ite (.error _ _) (.pure _)
  · exact .pure _

theorem updSym_calm (id : Nat) (f : Symbol → Symbol) : Calm (updSym id f) := by
  intro s a s' h
  unfold updSym at h
  split at h <;> cases h
  rfl
theorem newSym_calm (sym : Symbol) : Calm (newSym sym) := by intro s a s' h; cases h; rfl
theorem report_calm (c : Code) (t : Option Token) : Calm (report c t) := by intro s a s' h; cases h; rfl
theorem scopeAddSymbol_calm (id : Nat) : Calm (scopeAddSymbol id) := by
  unfold scopeAddSymbol
  refine .bind (symAt_calm _) fun sym => .bind ?_ fun b => ?_
  · unfold symbolAlreadyExists
    refine .bind (findSymbolType_calm _) fun ty => ?_
    split
    · exact .pure _
    · refine .bind ?_ fun _ => .pure _
      unfold reportExisting
      exact .ite (report_calm _ _) (.ite (report_calm _ _) (.ite (report_calm _ _) (.ite (report_calm _ _) (.pure _))))
  · split
    · exact .pure _
    · exact .bind currentScope_calm fun _ => addToScope_calm _ _ _
theorem mustAdd_calm (id : Nat) : Calm (mustAdd id) :=
  .bind (scopeAddSymbol_calm id) fun b => .ite (.pure _) .stop
theorem warn_calm (cfg : Cfg) (c : Code) (t : Option Token) : Calm (warn cfg c t) :=
  .bind (report_calm c t) fun _ => .ite .stop (.pure _)

mutual
theorem validateExpr_calm (cfg : Cfg) : ∀ e, Calm (validateExpr cfg e)
  | .missing => by unfold validateExpr; exact .ub
  | .ident t => by
    unfold validateExpr
    exact .bind (scopeFindVar_calm t) fun _ => .bind (updSym_calm _ _) fun _ => .pure _
  | .const t => by
    unfold validateExpr
    exact .bind (validateConst_calm cfg t) fun _ => .pure _
  | .call n params num => by
    unfold validateExpr
    exact .bind (findFuncByToken_calm n) fun _ => .bind (funcAt_calm _) fun f => .bind (updSym_calm _ _) fun _ =>
      .bind (checkCount_calm _ _ _ _) fun _ => .bind (validateArgs_calm cfg _ params) fun _ => .pure _
  | .un o e => by
    unfold validateExpr
    exact .bind (.ite (.pure _) .ub) fun _ => .bind (validateExpr_calm cfg e) fun r => .bind (validateRestrictions_calm _ _ _) fun _ =>
      .bind (exprType_calm _ _) fun _ => .pure _
  | .bin o l r => by
    unfold validateExpr
    exact .bind (.ite (.pure _) .ub) fun _ => .bind (validateExpr_calm cfg r) fun _ => .bind (validateExpr_calm cfg l) fun _ =>
      .bind (.ite (.error _ _) (.pure _)) fun _ => .bind (validateRestrictions_calm _ _ _) fun _ =>
      .bind (exprType_calm _ _) fun _ => .pure _
theorem validateArgs_calm (cfg : Cfg) : ∀ (tys : List Ty) (args : Args), Calm (validateArgs cfg tys args)
  | [], .nil => by unfold validateArgs; exact .pure _
  | [], .cons .. => by unfold validateArgs; exact .pure _
  | _ :: _, .nil => by unfold validateArgs; exact .ub
  | ty :: tys, .cons first e next => by
    unfold validateArgs
    exact .bind (validateExpr_calm cfg e) fun a => .ite (.error _ _) (.bind (validateArgs_calm cfg tys next) fun _ => .pure _)
end

theorem assertSane_calm (t : Tree) : Calm (assertSaneChild t) := by
  intro s a s' h
  rw [sane_state h]

theorem condition_calm (cfg : Cfg) (c : Expr) : Calm (condition cfg c) := by
  refine .bind (validateExpr_calm cfg c) fun e => .bind ?_ fun _ => .pure _
  unfold validateCond
  refine .ite (.error _ _) ?_
  split
  · exact warn_calm _ _ _
  · exact .pure _

theorem headTok_error_calm (l : List Token) (c : Code) : Calm (do let t ← headTok l; Chk.error c t : Chk α) :=
  .bind (headTok_calm _) fun _ => .error _ _

theorem noDead_calm : ∀ t, Calm (noDeadCodeBelow t)
  | .nil => by unfold noDeadCodeBelow; exact .pure _
  | .node stmt tok _ _ next => by
    unfold noDeadCodeBelow
    split
    · exact noDead_calm next
    · exact noDead_calm next
    · exact noDead_calm next
    · exact headTok_error_calm _ _

theorem return_calm (cfg : Cfg) (e : Expr) (tok : List Token) (next : Tree) : Calm (validateReturn cfg e tok next) := by
  unfold validateReturn
  refine .bind (assertSane_calm _) fun _ => .bind ?_ fun o => .bind .get fun s => .bind (funcAt_calm _) fun f => .bind ?_ fun _ =>
    .bind (noDead_calm _) fun _ => ?_
  · unfold validateOptExpr
    split
    · exact .pure _
    · exact .bind (validateExpr_calm _ _) fun _ => .pure _
  · unfold checkReturn
    split
    · exact .ite (headTok_error_calm _ _) (.pure _)
    · exact .ite (.error _ _) (.ite (.error _ _) (.pure _))
  · exact .pure _

theorem typeAlias_calm (c : Bool) (e : Expr) (tok : List Token) : Calm (validateTypeAlias c e tok) := by
  unfold validateTypeAlias
  exact .ite (headTok_error_calm _ _) (.ite (headTok_error_calm _ _) (.bind (tokenToType_calm _) fun _ =>
    .bind (headTok_calm _) fun _ => .bind (tokName_calm _) fun _ => .bind (newSym_calm _) fun _ => mustAdd_calm _))

theorem varDef_calm (cfg : Cfg) (n : List Token) (c i x : Bool) (e : Expr) (tok te : List Token) :
    Calm (validateVarDef cfg n c i x e tok te) := by
  unfold validateVarDef
  refine .bind (tokenToType_calm _) fun o => ?_
  split
  · exact .bind (typeAlias_calm _ _ _) fun _ => .pure _
  · unfold validateVar
    refine .bind (validateExpr_calm _ _) fun a => .bind ?_ fun id => .bind (updSym_calm _ _) fun _ => .bind (varAt_calm _) fun v =>
      .bind (.ite (.error _ _) (.pure _)) fun _ => .bind ?_ fun _ => .pure _
    · unfold nodeToVar
      refine .bind ?_ fun _ => .bind ?_ fun _ => .bind (headTok_calm _) fun _ => .bind (tokName_calm _) fun _ =>
        .bind (makeVariable_calm _ _ _) fun _ => .bind (linkageName_calm _ _ _) fun _ => .bind (newSym_calm _) fun _ =>
        .bind (mustAdd_calm _) fun _ => .pure _
      · unfold notVoidFuncAssign
        split
        · exact .ite (.error _ _) (.pure _)
        · exact .pure _
      · unfold declaredType
        refine .ite (.pure _) (.bind (tokenToType_calm _) fun o => ?_)
        split
        · exact .pure _
        · exact .error _ _
    · unfold warnTrivial
      split
      · exact .ite (.pure _) (warn_calm _ _ _)
      · exact .pure _

theorem varAssign_calm (cfg : Cfg) (e : Expr) (tok : List Token) : Calm (validateVarAssign cfg e tok) := by
  unfold validateVarAssign
  refine .bind (headTok_calm _) fun _ => .bind (scopeFindVar_calm _) fun p => .ite (.error _ _) (.bind (updSym_calm _ _) fun _ =>
    .bind (validateExpr_calm _ _) fun a => .bind (.ite (.error _ _) (.pure _)) fun _ => .bind ?_ fun _ => .pure _)
  unfold notRedundant
  split
  · exact .ite (.error _ _) (.pure _)
  · exact .pure _

theorem params_calm (ext : Bool) : ∀ ps, Calm (validateParams ext ps)
  | [] => by unfold validateParams; exact .pure _
  | p :: ps => by
    unfold validateParams
    refine .bind (tokenToType_calm _) fun o => ?_
    split
    · exact .error _ _
    · refine .bind (tokName_calm _) fun _ => .bind (makeVariable_calm _ _ _) fun _ => .bind (newSym_calm _) fun _ => .bind ?_ fun b =>
        .ite (.bind (params_calm ext ps) fun _ => .pure _) (.error _ _)
      unfold scopeAddVar
      refine .bind (symAt_calm _) fun _ => .bind (lookup_calm _) fun o => ?_
      split
      · exact .pure _
      · exact scopeAddSymbol_calm _



theorem setDepth_calm (n : Nat) : Calm (setDepth n) := by intro s a s' h; cases h; rfl

theorem funcDecl_current {cfg : Cfg} {p : FuncProto} {s r s'} (h : validateFuncDecl cfg p s = .ok r s') : s'.currentFunc = r.1 := by
  unfold validateFuncDecl at h
  replace h := bind_ok_unit.1 h
  obtain ⟨t₁, g1, h⟩ := h
  replace h := bind_ok.1 h
  obtain ⟨ret, t₂, g2, h⟩ := h
  replace h := bind_ok.1 h
  obtain ⟨str, t₃, g3, h⟩ := h
  replace h := bind_ok.1 h
  obtain ⟨link, t₄, g4, h⟩ := h
  replace h := bind_ok.1 h
  obtain ⟨id, t₅, g5, h⟩ := h
  replace h := bind_ok_unit.1 h
  obtain ⟨t₆, g6, h⟩ := h
  cases g6
  replace h := bind_ok_unit.1 h
  obtain ⟨t₇, g7, h⟩ := h
  replace h := bind_ok.1 h
  obtain ⟨ids, t₈, g8, h⟩ := h
  cases h
  have j7 := mustAdd_calm _ _ _ _ g7
  have j8 : s'.currentFunc = t₇.currentFunc := by
    refine (?_ : Calm (validateFuncParams p id)) _ _ _ g8
    unfold validateFuncParams
    exact .ite (.pure _) (.bind makeChildScope_calm fun _ => .bind (params_calm _ _) fun _ => .bind (updSym_calm _ _) fun _ =>
      .bind restoreParentScope_calm fun _ => .pure _)
  rw [j8, j7]

theorem block_calm {nodes : Chk ATree} (h : Calm nodes) : Calm (Skull.block nodes) := by
  unfold Skull.block
  exact .bind makeChildScope_calm fun _ => .bind h fun _ => .bind resetScopeHead_calm fun _ => .bind restoreParentScope_calm fun _ =>
    .bind makeAdjacentScope_calm fun _ => .pure _

theorem import_calm (cfg : Cfg) (tok : List Token) : Calm (validateImport cfg tok) := by
  unfold validateImport
  exact .bind (headTok_calm _) fun _ => .bind (tokName_calm _) fun _ => .ite (.error _ _) (.ite (.error _ _) (.pure _))

theorem needBlock_calm (child : Tree) (tok : List Token) : Calm (needBlock child tok) := by
  intro s a s' h
  rw [needBlock_ok] at h
  rw [h.2]

theorem needIf_calm (before : List Stmt) (tok : List Token) : Calm (needIf before tok) := by
  intro s a s' h
  rw [needIf_ok] at h
  rw [h.2]

theorem jump_calm (c : Code) (tok : List Token) (next : Tree) : Calm (validateJump c tok next) := by
  unfold validateJump
  exact .bind .get fun _ => .ite (noDead_calm _) (headTok_error_calm _ _)

theorem nodes_calm {cfg : Cfg} : ∀ (t : Tree) (before : List Stmt), Flat true t → Calm (validateNodes cfg before t)
  | .nil, before, _ => by unfold validateNodes; exact .pure _
  | .node stmt tok tokEnd child next, before, hf => by
    unfold validateNodes
    refine .bind (assertSane_calm _) fun _ => .bind ?_ fun _ => .bind (nodes_calm next _ hf.2) fun _ => .pure _
    have hc : (∀ p, stmt ≠ .funcProto p) ∧ ((∀ e, stmt ≠ .expr e) → Calm (validateNodes cfg [] child)) := by
      have h1 := hf.1
      refine ⟨?_, fun he => ?_⟩
      · rintro p rfl
        cases h1.1
      · cases stmt <;> first | exact nodes_calm child _ h1 | exact absurd rfl (he _) | cases h1.1
    obtain ⟨hp, hc⟩ := hc
    unfold validateStmt
    split
    · exact .bind (return_calm _ _ _ _) fun _ => .pure _
    · exact .bind (noDead_calm _) fun _ => .pure _
    · exact absurd rfl (hp _)
    · exact .bind (varDef_calm _ _ _ _ _ _ _ _) fun _ => .pure _
    · exact .bind (varAssign_calm _ _ _) fun _ => .pure _
    · exact .ub
    · exact .bind (validateExpr_calm _ _) fun _ => .pure _
    · exact headTok_error_calm _ _
    · exact .bind (needBlock_calm _ _) fun _ => .bind (condition_calm _ _) fun _ => .bind (block_calm (hc (by simp))) fun _ => .pure _
    · exact .bind (needIf_calm _ _) fun _ => .bind (needBlock_calm _ _) fun _ => .bind (block_calm (hc (by simp))) fun _ => .pure _
    · exact .bind (needBlock_calm _ _) fun _ => .bind (needIf_calm _ _) fun _ => .bind (condition_calm _ _) fun _ =>
        .bind (block_calm (hc (by simp))) fun _ => .pure _
    · exact .bind .get fun _ => .bind (setDepth_calm _) fun _ => .bind (needBlock_calm _ _) fun _ => .bind (condition_calm _ _) fun _ =>
        .bind (block_calm (hc (by simp))) fun _ => .bind .get fun _ => .bind (setDepth_calm _) fun _ => .pure _
    · exact .bind (jump_calm _ _ _) fun _ => .pure _
    · exact .bind (jump_calm _ _ _) fun _ => .pure _
    · refine .bind ?_ fun _ => .bind (block_calm (hc (by simp))) fun _ => .bind ?_ fun _ => .pure _
      · unfold declareNamespace
        exact .bind (headTok_calm _) fun _ => .bind (tokName_calm _) fun _ => .bind (newSym_calm _) fun _ => .bind (mustAdd_calm _) fun _ => .pure _
      · intro s a s' h
        unfold closeNamespace at h
        split at h
        · cases h
        · exact updSym_calm _ _ _ _ _ h
    · exact .bind (import_calm _ _) fun _ => .pure _
    all_goals exact .pure _

/- ### How the statements end -/

theorem returns_of_noCode : ∀ {t : Tree}, NoCode t → ¬ ReturnsValue t
  | .nil, _, h => h
  | .node stmt _ _ _ next, hn, h => by
    unfold NoCode at hn
    unfold ReturnsValue at h
    cases stmt <;> first | exact hn | exact h | exact returns_of_noCode hn h

/-- The checked statements end in the return of a value just when one is found in the statements. -/
theorem nodes_ending {cfg : Cfg} : ∀ (t : Tree) (before : List Stmt) (s : SS) (a : ATree) (s' : SS),
    validateNodes cfg before t s = .ok a s' → (ending a = .returns ↔ ReturnsValue t)
  | .nil, before, s, a, s', h => by
    unfold validateNodes at h
    cases h
    simp [ending, ReturnsValue]
  | .node stmt tok tokEnd child next, before, s, a, s', h => by
    unfold validateNodes at h
    replace h := bind_ok_unit.1 h
    obtain ⟨s₁, h1, h⟩ := h
    replace h := bind_ok.1 h
    obtain ⟨r, s₂, h2, h⟩ := h
    replace h := bind_ok.1 h
    obtain ⟨rest, s₃, h3, h⟩ := h
    cases h
    have ih := nodes_ending next _ _ _ _ h3
    cases stmt
    case ret e =>
      unfold validateStmt at h2
      replace h2 := bind_ok.1 h2
      obtain ⟨b, t₁, g1, h2⟩ := h2
      cases h2
      unfold validateReturn at g1
      replace g1 := bind_ok_unit.1 g1
      obtain ⟨t₂, g2, g1⟩ := g1
      replace g1 := bind_ok.1 g1
      obtain ⟨o, t₃, g3, g1⟩ := g1
      replace g1 := bind_ok.1 g1
      obtain ⟨_, t₄, g4, g1⟩ := g1
      replace g1 := bind_ok.1 g1
      obtain ⟨_, t₅, g5, g1⟩ := g1
      replace g1 := bind_ok_unit.1 g1
      obtain ⟨t₆, g6, g1⟩ := g1
      replace g1 := bind_ok_unit.1 g1
      obtain ⟨t₇, g7, g1⟩ := g1
      cases g1
      cases e
      case missing =>
        cases g3
        simp [ending, ReturnsValue]
      all_goals
        have g3' : (do pure (some (← validateExpr cfg _)) : Chk (Option AExpr)) t₂ = .ok o t₃ := g3
        replace g3' := bind_ok.1 g3'
        obtain ⟨x, t₈, g8, g3'⟩ := g3'
        cases g3'
        simp [ending, ReturnsValue]
    case unreachable => simp [ending, ReturnsValue]
    case breaks | continues =>
      unfold validateStmt at h2
      replace h2 := bind_ok_unit.1 h2
      obtain ⟨t₁, g1, h2⟩ := h2
      unfold validateJump at g1
      rw [bind_of _ (show Chk.get s₁ = .ok s₁ s₁ from rfl)] at g1
      split at g1
      · have := (noDead_ok.1 g1).1
        simp [ending]
        unfold ReturnsValue
        exact returns_of_noCode this
      · replace g1 := bind_ok.1 g1
        obtain ⟨_, _, _, g1⟩ := g1
        cases g1
    all_goals exact ih

theorem nodes_stays {cfg : Cfg} : ∀ (t : Tree) (before : List Stmt) (s : SS) (a : ATree) (s' : SS),
    validateNodes cfg before t s = .ok a s' → Stays t → ending a = .goesOn
  | .nil, before, s, a, s', h, _ => by
    unfold validateNodes at h
    cases h
    rfl
  | .node stmt tok tokEnd child next, before, s, a, s', h, hst => by
    unfold validateNodes at h
    replace h := bind_ok_unit.1 h
    obtain ⟨s₁, h1, h⟩ := h
    replace h := bind_ok.1 h
    obtain ⟨r, s₂, h2, h⟩ := h
    replace h := bind_ok.1 h
    obtain ⟨rest, s₃, h3, h⟩ := h
    cases h
    have ih := nodes_stays next _ _ _ _ h3 hst.2
    have h1 := hst.1
    cases stmt <;> first | exact ih | exact h1.elim

/-- Checking a block is checking its statements. -/
theorem block_inner {nodes : Chk ATree} {s a s'} (h : Skull.block nodes s = .ok a s') :
    ∃ s₁ s₂, nodes s₁ = .ok a s₂ ∧ s₁.syms = s.syms ∧ s'.syms = s₂.syms ∧ s₁.whileDepth = s.whileDepth ∧
      s₁.currentFunc = s.currentFunc ∧ s'.currentFunc = s₂.currentFunc := by
  unfold Skull.block at h
  replace h := bind_ok_unit.1 h
  obtain ⟨s₁, h1, h⟩ := h
  replace h := bind_ok.1 h
  obtain ⟨r, s₂, h2, h⟩ := h
  have e : r = a := by
    replace h := bind_ok_unit.1 h
    obtain ⟨s₃, _, h⟩ := h
    replace h := bind_ok_unit.1 h
    obtain ⟨s₄, _, h⟩ := h
    replace h := bind_ok_unit.1 h
    obtain ⟨s₅, _, h⟩ := h
    cases h
    rfl
  subst e
  refine ⟨s₁, s₂, h2, (makeChildScope_keeps _ _ _ h1).1, (block_keeps r _ _ _ h).1, makeChildScope_steady _ _ _ h1, makeChildScope_calm _ _ _ h1, ?_⟩
  refine (?_ : Calm (do resetScopeHead; restoreParentScope; makeAdjacentScope; pure r : Chk ATree)) _ _ _ h
  exact .bind resetScopeHead_calm fun _ => .bind restoreParentScope_calm fun _ => .bind makeAdjacentScope_calm fun _ => .pure _

def NodesEnds (cfg : Cfg) (t : Tree) : Prop :=
  ∀ inF before s a s' loop fin, Sized t → SymsOk s.syms → s.whileDepth < 2 ^ 32 → (0 < s.whileDepth → loop = true) →
    validateNodes cfg before t s = .ok a s' → Flat inF t → NamespacesStay t → Ext s'.syms fin → EndsOk fin a

theorem block_ends {cfg child s a s' loop inF fin} (hn : NodesEnds cfg child) (hz : Sized child) (hs : SymsOk s.syms) (hd : s.whileDepth < 2 ^ 32)
    (hl : 0 < s.whileDepth → loop = true) (h : Skull.block (validateNodes cfg [] child) s = .ok a s') (hf : Flat inF child)
    (hst : NamespacesStay child) (he : Ext s'.syms fin) : EndsOk fin a := by
  obtain ⟨s₁, s₂, h1, e1, e2, d1, _, _⟩ := block_inner h
  exact hn inF _ _ _ _ loop fin hz (by rw [e1]; exact hs) (by rw [d1]; exact hd) (by rw [d1]; exact hl) h1 hf hst (by rw [← e2]; exact he)

theorem stmt_ends {cfg before stmt tok tokEnd child next s r s' loop inF fin} (hn : NodesEnds cfg child)
    (hp : ∀ p, stmt = .funcProto p → p.numParams = p.params.length) (hz : Sized child) (hs : SymsOk s.syms)
    (hd : s.whileDepth < 2 ^ 32) (hl : 0 < s.whileDepth → loop = true)
    (h : validateStmt cfg before stmt tok tokEnd child next (validateNodes cfg [] child) s = .ok r s')
    (hf : match stmt with
      | .funcProto _ => inF = false ∧ Flat true child
      | .expr _ => True
      | _ => Flat inF child)
    (hst : NamespacesStay child) (hns : stmt = .namespaces → Stays child) (he : Ext s'.syms fin) :
    (stmt = .namespaces → ending r.2 = .goesOn) ∧
    (∀ id ps sym f, r.1 = .func id ps → fin[id]? = some sym → sym.kind = .func f → f.isExternal = false →
      ending r.2 ≠ if f.returnType = .prim .void then .returns else .goesOn) ∧ EndsOk fin r.2 := by
  have hempty : ∀ {a : Ann}, (stmt ≠ .namespaces) → (∀ id ps, a ≠ .func id ps) → (stmt = .namespaces → ending .nil = .goesOn) ∧
    (∀ id ps sym f, a = .func id ps → fin[id]? = some sym → sym.kind = .func f → f.isExternal = false →
      ending .nil ≠ if f.returnType = .prim .void then .returns else .goesOn) ∧ EndsOk fin .nil :=
    fun h1 h2 => ⟨fun h => absurd h h1, fun id ps _ _ h => absurd h (h2 id ps), trivial⟩
  unfold validateStmt at h
  split at h
  · replace h := bind_ok.1 h
    obtain ⟨a, s₁, h1, h⟩ := h
    cases h
    obtain ⟨k, hq, w⟩ := return_wt hs h1 loop before
    have w := w .nil trivial
    cases w <;> exact hempty (by simp) (by simp)
  · replace h := bind_ok_unit.1 h
    obtain ⟨s₁, h1, h⟩ := h
    cases h
    exact hempty (by simp) (by simp)
  · rename_i p
    replace h := bind_ok.1 h
    obtain ⟨s₀, s₁, h0, h⟩ := h
    cases h0
    replace h := bind_ok_unit.1 h
    obtain ⟨s₂, h1, h⟩ := h
    replace h := bind_ok.1 h
    obtain ⟨d, s₃, h2, h⟩ := h
    replace h := bind_ok.1 h
    obtain ⟨body, s₄, h3, h⟩ := h
    replace h := bind_ok_unit.1 h
    obtain ⟨s₅, h4, h⟩ := h
    replace h := bind_ok_unit.1 h
    obtain ⟨s₆, h5, h⟩ := h
    cases h
    have k1 : Grow s s₂ := .keeps (setDepth_keeps _) h1
    have d1 : s₂.whileDepth = 0 := by cases h1; rfl
    obtain ⟨k2, _⟩ := funcDecl_wt (hp _ rfl) h2
    have d2 := funcDecl_steady _ _ _ _ _ h2
    rw [d1] at d2
    have e4 : Ext s₄.syms fin := by
      have : Grow s₄ s₅ := by
        refine .keeps (.bind .get fun _ => .bind (funcAt_keeps _) fun f => .ite (.pure _) (.bind ?_ fun _ => leaveFunc_keeps)) h4
        exact .ite (.error _ _) (.ite (.error _ _) (.pure _))
      exact (this.trans (.keeps (setDepth_keeps _) h5)).ext.trans he
    refine ⟨by simp, ?_, block_ends (loop := false) hn hz (k2.ok (k1.ok hs)) (by rw [d2]; decide) (fun hx => by omega) h3 hf.2 hst e4⟩
    intro id ps sym f hi hg hk hx
    cases hi
    have c3 := funcDecl_current h2
    have c4 := block_calm (nodes_calm _ _ hf.2) _ _ _ h3
    obtain ⟨sym', f', p1, p2, p3⟩ := post_ok h4
    rw [c4, c3] at p1
    obtain ⟨sym'', f'', q1, q2, _, _, _, q3, q4, _⟩ := e4.func p1 p2
    rw [hg] at q1
    cases q1
    rw [hk] at q2
    cases q2
    rcases p3 with ⟨p3, _⟩ | ⟨_, p3, _⟩
    · rw [← q4, hx] at p3
      cases p3
    · rw [q3]
      obtain ⟨t₁, t₂, b1, _⟩ := block_inner h3
      have := nodes_ending _ _ _ _ _ b1
      split
      · rename_i hv
        rw [Ne, this, p3]
        simp [hv]
      · rename_i hv
        rw [this.2 (p3.2 hv)]
        simp
  · replace h := bind_ok.1 h
    obtain ⟨a, s₁, h1, h⟩ := h
    cases h
    rcases varDef_defs hs h1 with rfl | ⟨id, x, rfl, h2, h3⟩ <;> exact hempty (by simp) (by simp)
  · replace h := bind_ok.1 h
    obtain ⟨a, s₁, h1, h⟩ := h
    cases h
    have w := (varAssign_wt hs h1 loop before .nil).2
    cases w <;> exact hempty (by simp) (by simp)
  · cases h
  · replace h := bind_ok.1 h
    obtain ⟨a, s₁, h1, h⟩ := h
    cases h
    refine ⟨by simp, by simp, ?_⟩
    cases child <;> trivial
  · replace h := bind_ok.1 h
    obtain ⟨a, s₁, h1, h⟩ := h
    cases h
  · replace h := bind_ok_unit.1 h
    obtain ⟨s₁, h1, h⟩ := h
    rw [needBlock_ok] at h1
    obtain ⟨hb, rfl⟩ := h1
    replace h := bind_ok.1 h
    obtain ⟨e, s₂, h2, h⟩ := h
    replace h := bind_ok.1 h
    obtain ⟨body, s₃, h3, h⟩ := h
    cases h
    obtain ⟨k1, w1, ht⟩ := condition_wt hs h2
    have d1 := condition_steady _ _ _ _ _ h2
    exact ⟨by simp, by simp, block_ends (loop := loop) hn hz (k1.ok hs) (by rw [d1]; exact hd) (by rw [d1]; exact hl) h3 hf hst he⟩
  · replace h := bind_ok_unit.1 h
    obtain ⟨s₁, h1, h⟩ := h
    rw [needIf_ok] at h1
    obtain ⟨hi, rfl⟩ := h1
    replace h := bind_ok_unit.1 h
    obtain ⟨s₁, h1, h⟩ := h
    rw [needBlock_ok] at h1
    obtain ⟨hb, rfl⟩ := h1
    replace h := bind_ok.1 h
    obtain ⟨body, s₃, h3, h⟩ := h
    cases h
    exact ⟨by simp, by simp, block_ends (loop := loop) hn hz hs hd hl h3 hf hst he⟩
  · replace h := bind_ok_unit.1 h
    obtain ⟨s₁, h1, h⟩ := h
    rw [needBlock_ok] at h1
    obtain ⟨hb, rfl⟩ := h1
    replace h := bind_ok_unit.1 h
    obtain ⟨s₁, h1, h⟩ := h
    rw [needIf_ok] at h1
    obtain ⟨hi, rfl⟩ := h1
    replace h := bind_ok.1 h
    obtain ⟨e, s₂, h2, h⟩ := h
    replace h := bind_ok.1 h
    obtain ⟨body, s₃, h3, h⟩ := h
    cases h
    obtain ⟨k1, w1, ht⟩ := condition_wt hs h2
    have d1 := condition_steady _ _ _ _ _ h2
    exact ⟨by simp, by simp, block_ends (loop := loop) hn hz (k1.ok hs) (by rw [d1]; exact hd) (by rw [d1]; exact hl) h3 hf hst he⟩
  · replace h := bind_ok.1 h
    obtain ⟨s₀, s₁, h0, h⟩ := h
    cases h0
    replace h := bind_ok_unit.1 h
    obtain ⟨s₂, h1, h⟩ := h
    have k0 : Grow s s₂ := .keeps (setDepth_keeps _) h1
    have d0 : s₂.whileDepth = (s.whileDepth + 1) % 2 ^ 32 := by cases h1; rfl
    replace h := bind_ok_unit.1 h
    obtain ⟨s₃, h2, h⟩ := h
    rw [needBlock_ok] at h2
    obtain ⟨hb, rfl⟩ := h2
    replace h := bind_ok.1 h
    obtain ⟨e, s₄, h3, h⟩ := h
    replace h := bind_ok.1 h
    obtain ⟨body, s₅, h4, h⟩ := h
    replace h := bind_ok.1 h
    obtain ⟨s₆, s₇, h5, h⟩ := h
    cases h5
    replace h := bind_ok_unit.1 h
    obtain ⟨s₈, h6, h⟩ := h
    cases h
    obtain ⟨k1, w1, ht⟩ := condition_wt (k0.ok hs) h3
    have d1 := condition_steady _ _ _ _ _ h3
    have k3 : Grow s₅ s' := .keeps (setDepth_keeps _) h6
    exact ⟨by simp, by simp, block_ends (loop := true) hn hz (k1.ok (k0.ok hs)) (by rw [d1, d0]; exact Nat.mod_lt _ (by decide)) (fun _ => rfl) h4 hf hst
      (k3.ext.trans he)⟩
  · replace h := bind_ok_unit.1 h
    obtain ⟨s₁, h1, h⟩ := h
    cases h
    exact hempty (by simp) (by simp)
  · replace h := bind_ok_unit.1 h
    obtain ⟨s₁, h1, h⟩ := h
    cases h
    exact hempty (by simp) (by simp)
  · replace h := bind_ok.1 h
    obtain ⟨id, s₁, h1, h⟩ := h
    replace h := bind_ok.1 h
    obtain ⟨body, s₂, h2, h⟩ := h
    replace h := bind_ok_unit.1 h
    obtain ⟨s₃, h3, h⟩ := h
    cases h
    unfold declareNamespace at h1
    replace h1 := bind_ok.1 h1
    obtain ⟨t, t₁, g1, h1⟩ := h1
    replace h1 := bind_ok.1 h1
    obtain ⟨n, t₂, g2, h1⟩ := h1
    replace h1 := bind_ok.1 h1
    obtain ⟨i, t₃, g3, h1⟩ := h1
    rw [newSym_eq] at g3
    cases g3
    replace h1 := bind_ok_unit.1 h1
    obtain ⟨t₄, g4, h1⟩ := h1
    cases h1
    have j1 : Grow s t₁ := .keeps (headTok_keeps _) g1
    have j2 : Grow t₁ t₂ := .keeps (tokName_keeps _) g2
    have j3 : Grow t₂ (t₂.push { name := n, loc := some t, kind := .ns Option.none }) := .push trivial
    have j4 : Grow _ s₁ := .of_eq (mustAdd_grow g4)
    have i1 := headTok_steady _ _ _ _ g1
    have i2 := tokName_steady _ _ _ _ g2
    have i4 := mustAdd_steady _ _ _ _ g4
    have ii : s₁.whileDepth = s.whileDepth := by rw [i4, ← i1, ← i2]; rfl
    have jj := ((j1.trans j2).trans j3).trans j4
    refine ⟨fun _ => ?_, by simp, block_ends (loop := loop) hn hz (jj.ok hs) (by rw [ii]; exact hd) (by rw [ii]; exact hl) h2 hf hst ?_⟩
    · obtain ⟨t₁, t₂, b1, _⟩ := block_inner h2
      exact nodes_stays _ _ _ _ _ b1 (hns rfl)
    · obtain ⟨k2, _⟩ := block_wt (loop := loop) (nodes_wt child) hz (jj.ok hs) (by rw [ii]; exact hd) (by rw [ii]; exact hl) h2
      have := getElem?_append_new t₂.syms ({ name := n, loc := some t, kind := .ns Option.none } : Symbol)
      obtain ⟨sym, m1, m2⟩ := (j4.trans k2).ext.lasting _ _ this
      unfold closeNamespace at h3
      split at h3
      · cases h3
      · rename_i sc _
        rw [updSym_eq _ m1] at h3
        cases h3
        refine (Ext.set m1 ?_).trans he
        unfold Symbol.lasting at m2 ⊢
        simp only at m2 ⊢
        cases hk : sym.kind <;> simp [hk] at m2 ⊢
  · replace h := bind_ok_unit.1 h
    obtain ⟨s₁, h1, h⟩ := h
    cases h
    exact hempty (by simp) (by simp)
  all_goals
    cases h
    exact hempty (by simp) (by simp)

theorem nodes_ends {cfg : Cfg} : ∀ t, NodesEnds cfg t
  | .nil => by
    intro inF before s a s' loop fin _ hs hd hl h _ _ _
    unfold validateNodes at h
    cases h
    trivial
  | .node stmt tok tokEnd child next => by
    intro inF before s a s' loop fin hz hs hd hl h hf hst he
    unfold validateNodes at h
    replace h := bind_ok_unit.1 h
    obtain ⟨s₁, h1, h⟩ := h
    obtain rfl := sane_state h1
    replace h := bind_ok.1 h
    obtain ⟨r, s₂, h2, h⟩ := h
    replace h := bind_ok.1 h
    obtain ⟨rest, s₃, h3, h⟩ := h
    cases h
    obtain ⟨k2, d2, _⟩ := stmt_wt (nodes_wt child) hz.1 hz.2.1 hs hd hl h2
    obtain ⟨k3, _⟩ := nodes_wt next _ _ _ _ loop hz.2.2 (k2.ok hs) (by rw [d2]; exact hd) (by rw [d2]; exact hl) h3
    have x2 := stmt_ends (nodes_ends child) hz.1 hz.2.1 hs hd hl h2 hf.1 hst.2.1 hst.1 (k3.ext.trans he)
    have x3 := nodes_ends next inF _ _ _ _ loop fin hz.2.2 (k2.ok hs) (by rw [d2]; exact hd) (by rw [d2]; exact hl) h3 hf.2 hst.2.2 he
    exact ⟨x2.1, x2.2.1, x2.2.2, x3⟩

/-- In a checked program without functions in functions, whose namespaces are not left by a statement in them, functions end as their
return types say. -/
theorem semantic_ends {cfg : Cfg} {t : Tree} {a : ATree} {s : SS} (hp : Parsed t) (h : semantic cfg t = .ok a s) (hf : Flat false t)
    (hst : NamespacesStay t) : EndsOk s.syms a := by
  unfold semantic at h
  cases hs : setupState cfg with
  | none => rw [hs] at h; cases h
  | some s₀ =>
    rw [hs] at h
    simp only at h
    unfold validateAstTree at h
    replace h := bind_ok.1 h
    obtain ⟨a', s₁, h1, h⟩ := h
    replace h := bind_ok_unit.1 h
    obtain ⟨s₂, h2, h⟩ := h
    replace h := bind_ok_unit.1 h
    obtain ⟨s₃, h3, h⟩ := h
    have h0 : SymsOk s₀.syms ∧ s₀.whileDepth = 0 := by
      unfold setupState at hs
      cases hn : createMainFuncName cfg.filename with
      | none => rw [hn] at hs; cases hs
      | some name =>
        rw [hn] at hs
        cases hs
        refine ⟨?_, rfl⟩
        intro id sym hid
        cases id with
        | zero => cases hid; rfl
        | succ n => cases hid
    have w := nodes_ends t false [] s₀ a' s₁ false s₁.syms (parsed_sized hp) h0.1 (by rw [h0.2]; decide) (by rw [h0.2]; decide) h1 hf hst (.refl _)
    have e : s.syms = s₁.syms ∧ a' = a := by
      have e3 := (resetScopeHead_keeps _ _ _ h3).1.trans (resetScopeHead_keeps _ _ _ h2).1
      split at h
      · cases h; exact ⟨e3, rfl⟩
      · replace h := bind_ok.1 h
        obtain ⟨err, s₄, h4, h⟩ := h
        split at h
        · cases h
        · cases h
          exact ⟨(checkUnused_syms _ _ _ _ _ h4).trans e3, rfl⟩
    rw [e.1, ← e.2]
    exact w

end Skull
