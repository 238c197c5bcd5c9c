import Verif.Proofs.UnusedTree
/-
Only the statements that open and close loops change the depth of loops.
-/
namespace Skull
open Spec

/-- When the step goes on it does not change the depth of loops. -/
def Steady (m : Chk α) : Prop := ∀ s a s', m s = .ok a s' → s'.whileDepth = s.whileDepth

theorem Steady.pure (a : α) : Steady (Pure.pure a : Chk α) := by
  intro s b s' h; cases h; exact rfl
theorem Steady.ub : Steady (Chk.ub : Chk α) := by intro s b s' h; cases h
theorem Steady.stop : Steady (Chk.stop : Chk α) := by intro s b s' h; cases h
theorem Steady.error (c : Code) (t : Option Token) : Steady (Chk.error c t : Chk α) := by intro s b s' h; cases h
theorem Steady.get : Steady Chk.get := by intro s b s' h; cases h; exact rfl
theorem Steady.bind {m : Chk α} {f : α → Chk β} (hm : Steady m) (hf : ∀ a, Steady (f a)) : Steady (m >>= f) := by
  intro s b s' h
  obtain ⟨a, s₁, h1, h2⟩ := bind_ok.1 h
  have k1 := hm _ _ _ h1
  have k2 := hf a _ _ _ h2
  exact k2.trans k1
theorem Steady.ofOption (o : Option α) : Steady (Chk.ofOption o) := by
  cases o with
  | none => exact .ub
  | some a => exact .pure a
theorem Steady.ite {c : Prop} [Decidable c] {m m' : Chk α} (h : Steady m) (h' : Steady m') : Steady (if c then m else m') := by
  split
  · exact h
  · exact h'

theorem lookup_steady (x : List Char) : Steady (lookup x) := by
  intro s a s' h
  unfold lookup at h
  split at h <;> cases h
  exact rfl
theorem symAt_steady (id : Nat) : Steady (symAt id) := by
  intro s a s' h
  unfold symAt at h
  split at h <;> cases h
  exact rfl
theorem tokName_steady (t : Token) : Steady (tokName t) := .ofOption _
theorem headTok_steady (l : List Token) : Steady (headTok l) := by
  cases l with
  | nil => exact .ub
  | cons t ts => exact .pure t
theorem findFuncByName_steady (x : List Char) : Steady (findFuncByName x) := by
  refine .bind (lookup_steady x) fun o => ?_
  split
  · exact .pure _
  · refine .bind (symAt_steady _) fun sym => ?_
    split <;> exact .pure _
theorem findType_steady (x : List Char) : Steady (findType x) := by
  refine .bind (lookup_steady x) fun o => ?_
  split
  · exact .pure _
  · refine .bind (symAt_steady _) fun sym => ?_
    split <;> exact .pure _
theorem directType_steady (o : Option Nat) : Steady (directType o) := by
  unfold directType
  split
  · exact .pure _
  · refine .bind (symAt_steady _) fun sym => ?_
    split <;> exact .pure _
theorem funcOrAlias_steady (x : List Char) : Steady (funcOrAlias x) := by
  refine .bind (findFuncByName_steady x) fun o => ?_
  split
  · exact .pure _
  · refine .bind (findType_steady _) fun sym => ?_
    split <;> exact .pure _
theorem findSymbolType_steady (x : List Char) : Steady (findSymbolType x) := by
  refine .bind (lookup_steady x) fun o => .bind (directType_steady o) fun k => ?_
  split
  · exact funcOrAlias_steady _
  · exact .pure _
theorem tokenToType_steady : ∀ toks, Steady (tokenToType toks)
  | [] => .ub
  | t :: rest => by
    unfold tokenToType
    refine .ite (.bind (tokName_steady t) fun n => findType_steady n) (.ite (.bind (tokenToType_steady rest) fun o => .pure _) (.pure _))
theorem currentScope_steady : Steady currentScope := by
  intro s a s' h
  unfold currentScope at h
  split at h <;> cases h <;> exact rfl
theorem addToScope_steady (i : Nat) (x : List Char) (id : Nat) : Steady (addToScope i x id) := by
  intro s a s' h
  unfold addToScope at h
  split at h
  · cases h
  · split at h <;> cases h
    exact rfl
theorem parentScope_steady : Steady parentScope := by
  intro s a s' h
  unfold parentScope at h
  split at h <;> cases h <;> exact rfl
theorem enterChild_steady (i : Nat) : Steady (enterChild i) := by
  intro s a s' h
  unfold enterChild at h
  split at h
  · cases h
  · split at h
    · split at h <;> cases h
      exact rfl
    · cases h; exact rfl
theorem makeChildScope_steady : Steady makeChildScope := .bind parentScope_steady enterChild_steady
theorem makeAdjacentScope_steady : Steady makeAdjacentScope := by
  intro s a s' h
  unfold makeAdjacentScope at h
  split at h
  · cases h
  · split at h <;> cases h
    exact rfl
theorem resetScopeHead_steady : Steady resetScopeHead := by
  intro s a s' h
  unfold resetScopeHead at h
  split at h <;> cases h <;> exact rfl
theorem toParent_steady : Steady toParent := by
  intro s a s' h
  unfold toParent at h
  split at h
  · cases h; exact rfl
  · split at h <;> cases h
    exact rfl
theorem restoreParentScope_steady : Steady restoreParentScope := .bind resetScopeHead_steady fun _ => toParent_steady
theorem isTopLvlScope_steady : Steady isTopLvlScope := by
  intro s a s' h
  unfold isTopLvlScope at h
  split at h
  · cases h
  · cases h; exact rfl
  · split at h <;> cases h
    exact rfl
theorem makeVariable_steady (ty : Ty) (x : List Char) (c : Bool) : Steady (makeVariable ty x c) := .ite (.pure _) .ub
theorem linkageName_steady (cfg : Cfg) (e : Bool) (x : List Char) : Steady (linkageName cfg e x) := .ite (.ofOption _) (.pure _)
theorem enterFunc_steady (id : Nat) : Steady (enterFunc id) := by intro s a s' h; cases h; exact rfl
theorem leaveFunc_steady : Steady leaveFunc := by
  intro s a s' h
  unfold leaveFunc at h
  split at h <;> cases h
  exact rfl
theorem funcAt_steady (id : Nat) : Steady (funcAt id) := by
  refine .bind (symAt_steady _) fun sym => ?_
  split
  · exact .pure _
  · exact .ub
theorem varAt_steady (id : Nat) : Steady (varAt id) := by
  refine .bind (symAt_steady _) fun sym => ?_
  split
  · exact .pure _
  · exact .ub
theorem scopeFindVar_steady (t : Token) : Steady (scopeFindVar t) := by
  refine .bind (tokName_steady _) fun n => .bind (lookup_steady n) fun o => ?_
  split
  · exact .error _ _
  · refine .bind (symAt_steady _) fun sym => ?_
    split
    · exact .ite (.pure _) (.error _ _)
    · exact .error _ _
    · exact .error _ _
    · exact .ub
    · exact .ub
theorem findFuncByToken_steady (t : Token) : Steady (findFuncByToken t) := by
  refine .bind (tokName_steady _) fun n => .bind (findFuncByName_steady n) fun o => ?_
  split
  · exact .pure _
  · exact .error _ _
theorem evalLit_steady (t : Token) (e : Ev α) : Steady (evalLit t e) := by
  unfold evalLit
  split
  · exact .pure _
  all_goals first | exact .error _ _ | exact .ub
theorem validateConst_steady (cfg : Cfg) (t : Token) : Steady (validateConst cfg t) := by
  unfold validateConst
  split
  · exact .bind (evalLit_steady _ _) fun _ => .pure _
  · exact .bind (evalLit_steady _ _) fun _ => .pure _
  · exact .pure _
  · exact .bind (evalLit_steady _ _) fun _ => .pure _
  · exact .bind (evalLit_steady _ _) fun _ => .ite (.pure _) (.error _ _)
  · exact .stop
theorem isNumeric_steady (r : AExpr) (t : Token) : Steady (isNumeric r t) := .ite (.pure _) (.error _ _)
theorem notDivByZero_steady (r : AExpr) : Steady (notDivByZero r) := by
  unfold notDivByZero
  split
  · refine .ite ?_ (.pure _)
    split
    · exact .ite (.error _ _) (.pure _)
    · exact .ub
    · exact .pure _
  · exact .pure _
theorem validateRestrictions_steady (o : Oper) (r : AExpr) (t : Token) : Steady (validateRestrictions o r t) := by
  unfold validateRestrictions
  split
  all_goals first
    | exact isNumeric_steady _ _
    | exact .bind (notDivByZero_steady _) fun _ => isNumeric_steady _ _
    | exact .bind (.ite (.error _ _) (.pure _)) fun _ => isNumeric_steady _ _
    | exact .ite (.error _ _) (.pure _)
    | exact .pure _
    | skip
  split
  · exact .pure _
  · exact .error _ _
theorem exprType_steady (o : Oper) (r : Ty) : Steady (exprType o r) := by
  unfold exprType
  split
  all_goals first
    | exact .pure _
    | skip
  split
  · exact .pure _
  · exact .ub
theorem checkCount_steady (f : Func) (n : Token) (ps : Args) (k : Nat) : Steady (checkCount f n ps k) := by
  refine .ite (.error _ _) ?_
  split
  · exact .ite (.error _ _) (.pure _)
  · exact .pure _

theorem updSym_steady (id : Nat) (f : Symbol → Symbol) : Steady (updSym id f) := by
  intro s a s' h
  unfold updSym at h
  split at h <;> cases h
  rfl
theorem newSym_steady (sym : Symbol) : Steady (newSym sym) := by intro s a s' h; cases h; rfl
theorem report_steady (c : Code) (t : Option Token) : Steady (report c t) := by intro s a s' h; cases h; rfl
theorem scopeAddSymbol_steady (id : Nat) : Steady (scopeAddSymbol id) := by
  unfold scopeAddSymbol
  refine .bind (symAt_steady _) fun sym => .bind ?_ fun b => ?_
  · unfold symbolAlreadyExists
    refine .bind (findSymbolType_steady _) fun ty => ?_
    split
    · exact .pure _
    · refine .bind ?_ fun _ => .pure _
      unfold reportExisting
      exact .ite (report_steady _ _) (.ite (report_steady _ _) (.ite (report_steady _ _) (.ite (report_steady _ _) (.pure _))))
  · split
    · exact .pure _
    · exact .bind currentScope_steady fun _ => addToScope_steady _ _ _
theorem mustAdd_steady (id : Nat) : Steady (mustAdd id) :=
  .bind (scopeAddSymbol_steady id) fun b => .ite (.pure _) .stop
theorem warn_steady (cfg : Cfg) (c : Code) (t : Option Token) : Steady (warn cfg c t) :=
  .bind (report_steady c t) fun _ => .ite .stop (.pure _)

mutual
theorem validateExpr_steady (cfg : Cfg) : ∀ e, Steady (validateExpr cfg e)
  | .missing => by unfold validateExpr; exact .ub
  | .ident t => by
    unfold validateExpr
    exact .bind (scopeFindVar_steady t) fun _ => .bind (updSym_steady _ _) fun _ => .pure _
  | .const t => by
    unfold validateExpr
    exact .bind (validateConst_steady cfg t) fun _ => .pure _
  | .call n params num => by
    unfold validateExpr
    exact .bind (findFuncByToken_steady n) fun _ => .bind (funcAt_steady _) fun f => .bind (updSym_steady _ _) fun _ =>
      .bind (checkCount_steady _ _ _ _) fun _ => .bind (validateArgs_steady cfg _ params) fun _ => .pure _
  | .un o e => by
    unfold validateExpr
    exact .bind (.ite (.pure _) .ub) fun _ => .bind (validateExpr_steady cfg e) fun r => .bind (validateRestrictions_steady _ _ _) fun _ =>
      .bind (exprType_steady _ _) fun _ => .pure _
  | .bin o l r => by
    unfold validateExpr
    exact .bind (.ite (.pure _) .ub) fun _ => .bind (validateExpr_steady cfg r) fun _ => .bind (validateExpr_steady cfg l) fun _ =>
      .bind (.ite (.error _ _) (.pure _)) fun _ => .bind (validateRestrictions_steady _ _ _) fun _ =>
      .bind (exprType_steady _ _) fun _ => .pure _
theorem validateArgs_steady (cfg : Cfg) : ∀ (tys : List Ty) (args : Args), Steady (validateArgs cfg tys args)
  | [], .nil => by unfold validateArgs; exact .pure _
  | [], .cons .. => by unfold validateArgs; exact .pure _
  | _ :: _, .nil => by unfold validateArgs; exact .ub
  | ty :: tys, .cons first e next => by
    unfold validateArgs
    exact .bind (validateExpr_steady cfg e) fun a => .ite (.error _ _) (.bind (validateArgs_steady cfg tys next) fun _ => .pure _)
end

theorem assertSane_steady (t : Tree) : Steady (assertSaneChild t) := by
  intro s a s' h
  rw [sane_state h]

theorem condition_steady (cfg : Cfg) (c : Expr) : Steady (condition cfg c) := by
  refine .bind (validateExpr_steady cfg c) fun e => .bind ?_ fun _ => .pure _
  unfold validateCond
  refine .ite (.error _ _) ?_
  split
  · exact warn_steady _ _ _
  · exact .pure _

theorem headTok_error_steady (l : List Token) (c : Code) : Steady (do let t ← headTok l; Chk.error c t : Chk α) :=
  .bind (headTok_steady _) fun _ => .error _ _

theorem noDead_steady : ∀ t, Steady (noDeadCodeBelow t)
  | .nil => by unfold noDeadCodeBelow; exact .pure _
  | .node stmt tok _ _ next => by
    unfold noDeadCodeBelow
    split
    · exact noDead_steady next
    · exact noDead_steady next
    · exact noDead_steady next
    · exact headTok_error_steady _ _

theorem return_steady (cfg : Cfg) (e : Expr) (tok : List Token) (next : Tree) : Steady (validateReturn cfg e tok next) := by
  unfold validateReturn
  refine .bind (assertSane_steady _) fun _ => .bind ?_ fun o => .bind .get fun s => .bind (funcAt_steady _) fun f => .bind ?_ fun _ =>
    .bind (noDead_steady _) fun _ => ?_
  · unfold validateOptExpr
    split
    · exact .pure _
    · exact .bind (validateExpr_steady _ _) fun _ => .pure _
  · unfold checkReturn
    split
    · exact .ite (headTok_error_steady _ _) (.pure _)
    · exact .ite (.error _ _) (.ite (.error _ _) (.pure _))
  · exact .pure _

theorem typeAlias_steady (c : Bool) (e : Expr) (tok : List Token) : Steady (validateTypeAlias c e tok) := by
  unfold validateTypeAlias
  exact .ite (headTok_error_steady _ _) (.ite (headTok_error_steady _ _) (.bind (tokenToType_steady _) fun _ =>
    .bind (headTok_steady _) fun _ => .bind (tokName_steady _) fun _ => .bind (newSym_steady _) fun _ => mustAdd_steady _))

theorem varDef_steady (cfg : Cfg) (n : List Token) (c i x : Bool) (e : Expr) (tok te : List Token) :
    Steady (validateVarDef cfg n c i x e tok te) := by
  unfold validateVarDef
  refine .bind (tokenToType_steady _) fun o => ?_
  split
  · exact .bind (typeAlias_steady _ _ _) fun _ => .pure _
  · unfold validateVar
    refine .bind (validateExpr_steady _ _) fun a => .bind ?_ fun id => .bind (updSym_steady _ _) fun _ => .bind (varAt_steady _) fun v =>
      .bind (.ite (.error _ _) (.pure _)) fun _ => .bind ?_ fun _ => .pure _
    · unfold nodeToVar
      refine .bind ?_ fun _ => .bind ?_ fun _ => .bind (headTok_steady _) fun _ => .bind (tokName_steady _) fun _ =>
        .bind (makeVariable_steady _ _ _) fun _ => .bind (linkageName_steady _ _ _) fun _ => .bind (newSym_steady _) fun _ =>
        .bind (mustAdd_steady _) fun _ => .pure _
      · unfold notVoidFuncAssign
        split
        · exact .ite (.error _ _) (.pure _)
        · exact .pure _
      · unfold declaredType
        refine .ite (.pure _) (.bind (tokenToType_steady _) fun o => ?_)
        split
        · exact .pure _
        · exact .error _ _
    · unfold warnTrivial
      split
      · exact .ite (.pure _) (warn_steady _ _ _)
      · exact .pure _

theorem varAssign_steady (cfg : Cfg) (e : Expr) (tok : List Token) : Steady (validateVarAssign cfg e tok) := by
  unfold validateVarAssign
  refine .bind (headTok_steady _) fun _ => .bind (scopeFindVar_steady _) fun p => .ite (.error _ _) (.bind (updSym_steady _ _) fun _ =>
    .bind (validateExpr_steady _ _) fun a => .bind (.ite (.error _ _) (.pure _)) fun _ => .bind ?_ fun _ => .pure _)
  unfold notRedundant
  split
  · exact .ite (.error _ _) (.pure _)
  · exact .pure _

theorem params_steady (ext : Bool) : ∀ ps, Steady (validateParams ext ps)
  | [] => by unfold validateParams; exact .pure _
  | p :: ps => by
    unfold validateParams
    refine .bind (tokenToType_steady _) fun o => ?_
    split
    · exact .error _ _
    · refine .bind (tokName_steady _) fun _ => .bind (makeVariable_steady _ _ _) fun _ => .bind (newSym_steady _) fun _ => .bind ?_ fun b =>
        .ite (.bind (params_steady ext ps) fun _ => .pure _) (.error _ _)
      unfold scopeAddVar
      refine .bind (symAt_steady _) fun _ => .bind (lookup_steady _) fun o => ?_
      split
      · exact .pure _
      · exact scopeAddSymbol_steady _

theorem funcDecl_steady (cfg : Cfg) (p : FuncProto) : Steady (validateFuncDecl cfg p) := by
  unfold validateFuncDecl
  refine .bind (.bind isTopLvlScope_steady fun _ => .ite (.error _ _) (.pure _)) fun _ => .bind ?_ fun _ => .bind (tokName_steady _) fun _ =>
    .bind (linkageName_steady _ _ _) fun _ => .bind (newSym_steady _) fun _ => .bind (enterFunc_steady _) fun _ =>
    .bind (mustAdd_steady _) fun _ => .bind ?_ fun _ => .pure _
  · unfold validateReturnType
    split
    · exact .pure _
    · refine .bind (tokenToType_steady _) fun o => ?_
      split
      · exact .pure _
      · exact .error _ _
  · unfold validateFuncParams
    exact .ite (.pure _) (.bind makeChildScope_steady fun _ => .bind (params_steady _ _) fun _ => .bind (updSym_steady _ _) fun _ =>
      .bind restoreParentScope_steady fun _ => .pure _)

theorem postFunc_steady (t : Tree) : Steady (postValidateFunc t) := by
  unfold postValidateFunc
  refine .bind .get fun _ => .bind (funcAt_steady _) fun f => .ite (.pure _) (.bind ?_ fun _ => leaveFunc_steady)
  exact .ite (.error _ _) (.ite (.error _ _) (.pure _))

end Skull
