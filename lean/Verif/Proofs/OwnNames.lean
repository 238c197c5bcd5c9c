import Verif.Proofs.UnusedTree
import Verif.Proofs.SemDefSafe
import Verif.Props.Classify
import Verif.Spec.OwnNames
/-
The names of the symbols of a program.
-/
namespace Skull.OwnNames
open Skull Skull.Spec

/-- The symbols are named as they should be. -/
def Inv (m : List Char) (s : SS) : Prop := NamesOf m s.syms

/-- When the step goes on, symbols are still named as they should be. -/
def Kept (m : List Char) (c : Chk α) : Prop := ∀ s a s', c s = .ok a s' → Inv m s → Inv m s'

variable {m : List Char}

theorem Kept.pure (a : α) : Kept m (Pure.pure a : Chk α) := by
  intro s b s' h; cases h; exact fun hi => hi
theorem Kept.ub : Kept m (Chk.ub : Chk α) := by intro s b s' h; cases h
theorem Kept.stop : Kept m (Chk.stop : Chk α) := by intro s b s' h; cases h
theorem Kept.error (c : Code) (t : Option Token) : Kept m (Chk.error c t : Chk α) := by intro s b s' h; cases h
theorem Kept.get : Kept m Chk.get := by intro s b s' h; cases h; exact fun hi => hi
theorem Kept.step {c : Chk α} {f : α → Chk β} (hm : Kept m c) (hf : ∀ s a s', c s = .ok a s' → Kept m (f a)) : Kept m (c >>= f) := by
  intro s b s' h
  obtain ⟨a, s₁, h1, h2⟩ := bind_ok.1 h
  exact fun hi => hf _ _ _ h1 _ _ _ h2 (hm _ _ _ h1 hi)
theorem Kept.bind {c : Chk α} {f : α → Chk β} (hm : Kept m c) (hf : ∀ a, Kept m (f a)) : Kept m (c >>= f) := .step hm fun _ a _ _ => hf a
theorem Kept.ofOption (o : Option α) : Kept m (Chk.ofOption o) := by
  cases o with
  | none => exact .ub
  | some a => exact .pure a
theorem Kept.ite {c : Prop} [Decidable c] {x x' : Chk α} (h : Kept m x) (h' : Kept m x') : Kept m (if c then x else x') := by
  split
  · exact h
  · exact h'

theorem lookup_kept (x : List Char) : Kept m (lookup x) := by
  intro s a s' h
  unfold lookup at h
  split at h <;> cases h
  exact fun hi => hi
theorem symAt_kept (id : Nat) : Kept m (symAt id) := by
  intro s a s' h
  unfold symAt at h
  split at h <;> cases h
  exact fun hi => hi
theorem tokName_kept (t : Token) : Kept m (tokName t) := .ofOption _
theorem headTok_kept (l : List Token) : Kept m (headTok l) := by
  cases l with
  | nil => exact .ub
  | cons t ts => exact .pure t
theorem findFuncByName_kept (x : List Char) : Kept m (findFuncByName x) := by
  refine .bind (lookup_kept x) fun o => ?_
  split
  · exact .pure _
  · refine .bind (symAt_kept _) fun sym => ?_
    split <;> exact .pure _
theorem findType_kept (x : List Char) : Kept m (findType x) := by
  refine .bind (lookup_kept x) fun o => ?_
  split
  · exact .pure _
  · refine .bind (symAt_kept _) fun sym => ?_
    split <;> exact .pure _
theorem directType_kept (o : Option Nat) : Kept m (directType o) := by
  unfold directType
  split
  · exact .pure _
  · refine .bind (symAt_kept _) fun sym => ?_
    split <;> exact .pure _
theorem funcOrAlias_kept (x : List Char) : Kept m (funcOrAlias x) := by
  refine .bind (findFuncByName_kept x) fun o => ?_
  split
  · exact .pure _
  · refine .bind (findType_kept _) fun sym => ?_
    split <;> exact .pure _
theorem findSymbolType_kept (x : List Char) : Kept m (findSymbolType x) := by
  refine .bind (lookup_kept x) fun o => .bind (directType_kept o) fun k => ?_
  split
  · exact funcOrAlias_kept _
  · exact .pure _
theorem tokenToType_kept : ∀ toks, Kept m (tokenToType toks)
  | [] => .ub
  | t :: rest => by
    unfold tokenToType
    refine .ite (.bind (tokName_kept t) fun n => findType_kept n) (.ite (.bind (tokenToType_kept rest) fun o => .pure _) (.pure _))
theorem currentScope_kept : Kept m currentScope := by
  intro s a s' h
  unfold currentScope at h
  split at h <;> cases h <;> exact fun hi => hi
theorem addToScope_kept (i : Nat) (x : List Char) (id : Nat) : Kept m (addToScope i x id) := by
  intro s a s' h
  unfold addToScope at h
  split at h
  · cases h
  · split at h <;> cases h
    exact fun hi => hi
theorem parentScope_kept : Kept m parentScope := by
  intro s a s' h
  unfold parentScope at h
  split at h <;> cases h <;> exact fun hi => hi
theorem enterChild_kept (i : Nat) : Kept m (enterChild i) := by
  intro s a s' h
  unfold enterChild at h
  split at h
  · cases h
  · split at h
    · split at h <;> cases h
      exact fun hi => hi
    · cases h; exact fun hi => hi
theorem makeChildScope_kept : Kept m makeChildScope := .bind parentScope_kept enterChild_kept
theorem makeAdjacentScope_kept : Kept m makeAdjacentScope := by
  intro s a s' h
  unfold makeAdjacentScope at h
  split at h
  · cases h
  · split at h <;> cases h
    exact fun hi => hi
theorem resetScopeHead_kept : Kept m resetScopeHead := by
  intro s a s' h
  unfold resetScopeHead at h
  split at h <;> cases h <;> exact fun hi => hi
theorem toParent_kept : Kept m toParent := by
  intro s a s' h
  unfold toParent at h
  split at h
  · cases h; exact fun hi => hi
  · split at h <;> cases h
    exact fun hi => hi
theorem restoreParentScope_kept : Kept m restoreParentScope := .bind resetScopeHead_kept fun _ => toParent_kept
theorem isTopLvlScope_kept : Kept m isTopLvlScope := by
  intro s a s' h
  unfold isTopLvlScope at h
  split at h
  · cases h
  · cases h; exact fun hi => hi
  · split at h <;> cases h
    exact fun hi => hi
theorem makeVariable_kept (ty : Ty) (x : List Char) (c : Bool) : Kept m (makeVariable ty x c) := .ite (.pure _) .ub
theorem linkageName_kept (cfg : Cfg) (e : Bool) (x : List Char) : Kept m (linkageName cfg e x) := .ite (.ofOption _) (.pure _)
theorem enterFunc_kept (id : Nat) : Kept m (enterFunc id) := by intro s a s' h; cases h; exact fun hi => hi
theorem leaveFunc_kept : Kept m leaveFunc := by
  intro s a s' h
  unfold leaveFunc at h
  split at h <;> cases h
  exact fun hi => hi
theorem funcAt_kept (id : Nat) : Kept m (funcAt id) := by
  refine .bind (symAt_kept _) fun sym => ?_
  split
  · exact .pure _
  · exact .ub
theorem varAt_kept (id : Nat) : Kept m (varAt id) := by
  refine .bind (symAt_kept _) fun sym => ?_
  split
  · exact .pure _
  · exact .ub
theorem scopeFindVar_kept (t : Token) : Kept m (scopeFindVar t) := by
  refine .bind (tokName_kept _) fun n => .bind (lookup_kept n) fun o => ?_
  split
  · exact .error _ _
  · refine .bind (symAt_kept _) fun sym => ?_
    split
    · exact .ite (.pure _) (.error _ _)
    · exact .error _ _
    · exact .error _ _
    · exact .ub
    · exact .ub
theorem findFuncByToken_kept (t : Token) : Kept m (findFuncByToken t) := by
  refine .bind (tokName_kept _) fun n => .bind (findFuncByName_kept n) fun o => ?_
  split
  · exact .pure _
  · exact .error _ _
theorem evalLit_kept (t : Token) (e : Ev α) : Kept m (evalLit t e) := by
  unfold evalLit
  split
  · exact .pure _
  all_goals first | exact .error _ _ | exact .ub
theorem validateConst_kept (cfg : Cfg) (t : Token) : Kept m (validateConst cfg t) := by
  unfold validateConst
  split
  · exact .bind (evalLit_kept _ _) fun _ => .pure _
  · exact .bind (evalLit_kept _ _) fun _ => .pure _
  · exact .pure _
  · exact .bind (evalLit_kept _ _) fun _ => .pure _
  · exact .bind (evalLit_kept _ _) fun _ => .ite (.pure _) (.error _ _)
  · exact .stop
theorem isNumeric_kept (r : AExpr) (t : Token) : Kept m (isNumeric r t) := .ite (.pure _) (.error _ _)
theorem notDivByZero_kept (r : AExpr) : Kept m (notDivByZero r) := by
  unfold notDivByZero
  split
  · refine .ite ?_ (.pure _)
    split
    · exact .ite (.error _ _) (.pure _)
    · exact .ub
    · exact .pure _
  · exact .pure _
theorem validateRestrictions_kept (o : Oper) (r : AExpr) (t : Token) : Kept m (validateRestrictions o r t) := by
  unfold validateRestrictions
  split
  all_goals first
    | exact isNumeric_kept _ _
    | exact .bind (notDivByZero_kept _) fun _ => isNumeric_kept _ _
    | exact .bind (.ite (.error _ _) (.pure _)) fun _ => isNumeric_kept _ _
    | exact .ite (.error _ _) (.pure _)
    | exact .pure _
    | skip
  split
  · exact .pure _
  · exact .error _ _
theorem exprType_kept (o : Oper) (r : Ty) : Kept m (exprType o r) := by
  unfold exprType
  split
  all_goals first
    | exact .pure _
    | skip
  split
  · exact .pure _
  · exact .ub
theorem checkCount_kept (f : Func) (n : Token) (ps : Args) (k : Nat) : Kept m (checkCount f n ps k) := by
  refine .ite (.error _ _) ?_
  split
  · exact .ite (.error _ _) (.pure _)
  · exact .pure _

theorem updSym_kept (id : Nat) (f : Symbol → Symbol) (hf : ∀ sym, NamedIn m sym → NamedIn m (f sym)) (he : ∀ sym, IsEntry m sym → IsEntry m (f sym)) :
    Kept m (updSym id f) := by
  intro s a s' h hi
  unfold updSym at h
  split at h <;> cases h
  rename_i old ho
  obtain ⟨⟨e, h1, h2⟩, hi⟩ := hi
  constructor
  · simp only [List.getElem?_set]
    split
    · rename_i e'
      subst e'
      rw [h1] at ho
      cases ho
      rw [if_pos (List.getElem?_eq_some_iff.1 h1).1]
      exact ⟨_, rfl, he _ h2⟩
    · exact ⟨e, h1, h2⟩
  · intro i sym hne hs
    simp only [List.getElem?_set] at hs
    split at hs
    · rename_i e
      subst e
      split at hs
      · cases hs
        exact hf _ (hi _ _ hne ho)
      · cases hs
    · exact hi _ _ hne hs
theorem updVar_kept (id : Nat) (f : Variable → Variable)
    (hf : ∀ v, (f v).name = v.name ∧ (f v).linkageName = v.linkageName ∧ (f v).isExported = v.isExported) : Kept m (updVar id f) := by
  refine updSym_kept _ _ (fun sym h => ?_) fun sym h => by
    split
    · rename_i v hv; exact absurd hv (h.2.2 v)
    · exact h
  split
  · rename_i v hv
    unfold NamedIn at h ⊢
    rw [hv] at h
    obtain ⟨h1, h2, h3⟩ := hf v
    exact ⟨h.1, by show (f v).name = _; rw [h1]; exact h.2.1, by show (f v).linkageName = linkedAs m (f v).isExported _; rw [h2, h3]; exact h.2.2⟩
  · exact h
theorem updFunc_kept (id : Nat) (f : Func → Func) (hf : ∀ g, (f g).isExport = g.isExport) : Kept m (updFunc id f) := by
  refine updSym_kept _ _ (fun sym h => ?_) fun sym h => by
    split
    · exact ⟨h.1, h.2.1, fun v hv => by cases hv⟩
    · exact h
  split
  · rename_i g hg
    unfold NamedIn at h ⊢
    rw [hg] at h
    exact ⟨h.1, by show _ = linkedAs m (f g).isExport _; rw [hf g]; exact h.2⟩
  · exact h
theorem newSym_kept {sym : Symbol} (hn : NamedIn m sym) : Kept m (newSym sym) := by
  intro s a s' h hi
  cases h
  obtain ⟨⟨e, h1, h2⟩, hi⟩ := hi
  refine ⟨⟨e, by simp only [List.getElem?_append, (List.getElem?_eq_some_iff.1 h1).1, if_true]; exact h1, h2⟩, fun i sym' hne hs => ?_⟩
  simp only [List.getElem?_append] at hs
  split at hs
  · exact hi _ _ hne hs
  · have := List.mem_of_getElem? hs
    simp only [List.mem_singleton] at this
    subst this
    exact hn
theorem report_kept (c : Code) (t : Option Token) : Kept m (report c t) := by intro s a s' h; cases h; exact fun hi => hi
theorem scopeAddSymbol_kept (id : Nat) : Kept m (scopeAddSymbol id) := by
  unfold scopeAddSymbol
  refine .bind (symAt_kept _) fun sym => .bind ?_ fun b => ?_
  · unfold symbolAlreadyExists
    refine .bind (findSymbolType_kept _) fun ty => ?_
    split
    · exact .pure _
    · refine .bind ?_ fun _ => .pure _
      unfold reportExisting
      exact .ite (report_kept _ _) (.ite (report_kept _ _) (.ite (report_kept _ _) (.ite (report_kept _ _) (.pure _))))
  · split
    · exact .pure _
    · exact .bind currentScope_kept fun _ => addToScope_kept _ _ _
theorem mustAdd_kept (id : Nat) : Kept m (mustAdd id) :=
  .bind (scopeAddSymbol_kept id) fun b => .ite (.pure _) .stop
theorem warn_kept (cfg : Cfg) (c : Code) (t : Option Token) : Kept m (warn cfg c t) :=
  .bind (report_kept c t) fun _ => .ite .stop (.pure _)

mutual
theorem validateExpr_kept (cfg : Cfg) : ∀ e, Kept m (validateExpr cfg e)
  | .missing => by unfold validateExpr; exact .ub
  | .ident t => by
    unfold validateExpr
    exact .bind (scopeFindVar_kept t) fun _ => .bind (updVar_kept _ _ fun _ => ⟨rfl, rfl, rfl⟩) fun _ => .pure _
  | .const t => by
    unfold validateExpr
    exact .bind (validateConst_kept cfg t) fun _ => .pure _
  | .call n params num => by
    unfold validateExpr
    exact .bind (findFuncByToken_kept n) fun _ => .bind (funcAt_kept _) fun f => .bind (updFunc_kept _ _ fun _ => rfl) fun _ =>
      .bind (checkCount_kept _ _ _ _) fun _ => .bind (validateArgs_kept cfg _ params) fun _ => .pure _
  | .un o e => by
    unfold validateExpr
    exact .bind (.ite (.pure _) .ub) fun _ => .bind (validateExpr_kept cfg e) fun r => .bind (validateRestrictions_kept _ _ _) fun _ =>
      .bind (exprType_kept _ _) fun _ => .pure _
  | .bin o l r => by
    unfold validateExpr
    exact .bind (.ite (.pure _) .ub) fun _ => .bind (validateExpr_kept cfg r) fun _ => .bind (validateExpr_kept cfg l) fun _ =>
      .bind (.ite (.error _ _) (.pure _)) fun _ => .bind (validateRestrictions_kept _ _ _) fun _ =>
      .bind (exprType_kept _ _) fun _ => .pure _
theorem validateArgs_kept (cfg : Cfg) : ∀ (tys : List Ty) (args : Args), Kept m (validateArgs cfg tys args)
  | [], .nil => by unfold validateArgs; exact .pure _
  | [], .cons .. => by unfold validateArgs; exact .pure _
  | _ :: _, .nil => by unfold validateArgs; exact .ub
  | ty :: tys, .cons first e next => by
    unfold validateArgs
    exact .bind (validateExpr_kept cfg e) fun a => .ite (.error _ _) (.bind (validateArgs_kept cfg tys next) fun _ => .pure _)
end

theorem assertSane_kept (t : Tree) : Kept m (assertSaneChild t) := by
  intro s a s' h
  rw [sane_state h]; exact fun hi => hi

theorem condition_kept (cfg : Cfg) (c : Expr) : Kept m (condition cfg c) := by
  refine .bind (validateExpr_kept cfg c) fun e => .bind ?_ fun _ => .pure _
  unfold validateCond
  refine .ite (.error _ _) ?_
  split
  · exact warn_kept _ _ _
  · exact .pure _

theorem headTok_error_kept (l : List Token) (c : Code) : Kept m (do let t ← headTok l; Chk.error c t : Chk α) :=
  .bind (headTok_kept _) fun _ => .error _ _

theorem noDead_kept : ∀ t, Kept m (noDeadCodeBelow t)
  | .nil => by unfold noDeadCodeBelow; exact .pure _
  | .node stmt tok _ _ next => by
    unfold noDeadCodeBelow
    split
    · exact noDead_kept next
    · exact noDead_kept next
    · exact noDead_kept next
    · exact headTok_error_kept _ _

theorem return_kept (cfg : Cfg) (e : Expr) (tok : List Token) (next : Tree) : Kept m (validateReturn cfg e tok next) := by
  unfold validateReturn
  refine .bind (assertSane_kept _) fun _ => .bind ?_ fun o => .bind .get fun s => .bind (funcAt_kept _) fun f => .bind ?_ fun _ =>
    .bind (noDead_kept _) fun _ => ?_
  · unfold validateOptExpr
    split
    · exact .pure _
    · exact .bind (validateExpr_kept _ _) fun _ => .pure _
  · unfold checkReturn
    split
    · exact .ite (headTok_error_kept _ _) (.pure _)
    · exact .ite (.error _ _) (.ite (.error _ _) (.pure _))
  · exact .pure _

theorem typeAlias_kept (c : Bool) (e : Expr) (tok : List Token) : Kept m (validateTypeAlias c e tok) := by
  unfold validateTypeAlias
  exact .ite (headTok_error_kept _ _) (.ite (headTok_error_kept _ _) (.bind (tokenToType_kept _) fun _ =>
    .bind (headTok_kept _) fun _ => .bind (tokName_kept _) fun _ => .bind (newSym_kept trivial) fun _ => mustAdd_kept _))

/-- The text of the token is a name, also for the linker. -/
def NameTok (cfg : Cfg) (m : List Char) (t : Token) : Prop :=
  ∀ x, tokenToString t = some x → OwnName x ∧ mangleName cfg.filename x = some (m ++ ['.'] ++ x)

theorem tokName_ok {t : Token} {s s' : SS} {x : List Char} (h : tokName t s = .ok x s') : tokenToString t = some x := by
  unfold tokName at h
  cases e : tokenToString t with
  | none => rw [e] at h; cases h
  | some y =>
    rw [e] at h
    cases h
    rfl

theorem link_ok {cfg : Cfg} {b : Bool} {x link : List Char} (hx : mangleName cfg.filename x = some (m ++ ['.'] ++ x)) {s s' : SS}
    (h : linkageName cfg b x s = .ok link s') : link = linkedAs m b x := by
  unfold linkageName at h
  cases b with
  | false => cases h; rfl
  | true =>
    rw [if_pos rfl, hx] at h
    cases h
    rfl

theorem var_ok {ty : Ty} {x : List Char} {c : Bool} {s s' : SS} {v : Variable} (h : makeVariable ty x c s = .ok v s') :
    v = { type := ty, name := x, linkageName := x, isConst := c } := by
  unfold makeVariable at h
  split at h
  · cases h; rfl
  · cases h

theorem head_ok {l : List Token} {t : Token} {s s' : SS} (h : headTok l s = .ok t s') : ∃ r, l = t :: r := by
  cases l with
  | nil => cases h
  | cons u us => cases h; exact ⟨_, rfl⟩

theorem varDef_kept (cfg : Cfg) (n : List Token) (c i x : Bool) (e : Expr) (tok te : List Token) (hn : ∀ t r, n = t :: r → NameTok cfg m t) :
    Kept m (validateVarDef cfg n c i x e tok te) := by
  unfold validateVarDef
  refine .bind (tokenToType_kept _) fun o => ?_
  split
  · exact .bind (typeAlias_kept _ _ _) fun _ => .pure _
  · unfold validateVar
    refine .bind (validateExpr_kept _ _) fun a => .bind ?_ fun id => .bind (updVar_kept _ _ fun _ => ⟨rfl, rfl, rfl⟩) fun _ =>
      .bind (varAt_kept _) fun v => .bind (.ite (.error _ _) (.pure _)) fun _ => .bind ?_ fun _ => .pure _
    · unfold nodeToVar
      refine .bind ?_ fun _ => .bind ?_ fun _ => .step (headTok_kept _) fun _ t _ ht => .step (tokName_kept _) fun _ str _ hs =>
        .step (makeVariable_kept _ _ _) fun _ v _ hv => .step (linkageName_kept _ _ _) fun _ link _ hl => .bind (newSym_kept ?_) fun _ =>
        .bind (mustAdd_kept _) fun _ => .pure _
      · unfold notVoidFuncAssign
        split
        · exact .ite (.error _ _) (.pure _)
        · exact .pure _
      · unfold declaredType
        refine .ite (.pure _) (.bind (tokenToType_kept _) fun o => ?_)
        split
        · exact .pure _
        · exact .error _ _
      · obtain ⟨r, hr⟩ := head_ok ht
        obtain ⟨h1, h2⟩ := hn t r hr str (tokName_ok hs)
        have h3 := var_ok hv
        subst h3
        exact ⟨h1, rfl, link_ok h2 hl⟩
    · unfold warnTrivial
      split
      · exact .ite (.pure _) (warn_kept _ _ _)
      · exact .pure _

theorem varAssign_kept (cfg : Cfg) (e : Expr) (tok : List Token) : Kept m (validateVarAssign cfg e tok) := by
  unfold validateVarAssign
  refine .bind (headTok_kept _) fun _ => .bind (scopeFindVar_kept _) fun p => .ite (.error _ _) (.bind (updVar_kept _ _ fun _ => ⟨rfl, rfl, rfl⟩) fun _ =>
    .bind (validateExpr_kept _ _) fun a => .bind (.ite (.error _ _) (.pure _)) fun _ => .bind ?_ fun _ => .pure _)
  unfold notRedundant
  split
  · exact .ite (.error _ _) (.pure _)
  · exact .pure _

theorem params_kept (cfg : Cfg) (ext : Bool) : ∀ ps : List Param, (∀ q ∈ ps, NameTok cfg m q.name) → Kept m (validateParams ext ps)
  | [], _ => by unfold validateParams; exact .pure _
  | p :: ps, h => by
    unfold validateParams
    refine .bind (tokenToType_kept _) fun o => ?_
    split
    · exact .error _ _
    · refine .step (tokName_kept _) fun _ str _ hs => .step (makeVariable_kept _ _ _) fun _ v _ hv => .bind (newSym_kept ?_) fun _ => .bind ?_ fun b =>
        .ite (.bind (params_kept cfg ext ps fun q hq => h q (.tail _ hq)) fun _ => .pure _) (.error _ _)
      · have h3 := var_ok hv
        subst h3
        exact ⟨(h p (.head _) str (tokName_ok hs)).1, rfl, rfl⟩
      · unfold scopeAddVar
        refine .bind (symAt_kept _) fun _ => .bind (lookup_kept _) fun o => ?_
        split
        · exact .pure _
        · exact scopeAddSymbol_kept _

theorem funcDecl_kept (cfg : Cfg) (p : FuncProto) (hn : NameTok cfg m p.name) (hp : ∀ q ∈ p.params, NameTok cfg m q.name) :
    Kept m (validateFuncDecl cfg p) := by
  unfold validateFuncDecl
  refine .bind (.bind isTopLvlScope_kept fun _ => .ite (.error _ _) (.pure _)) fun _ => .bind ?_ fun _ => .step (tokName_kept _) fun _ str _ hs =>
    .step (linkageName_kept _ _ _) fun _ link _ hl => .bind (newSym_kept ?_) fun _ => .bind (enterFunc_kept _) fun _ =>
    .bind (mustAdd_kept _) fun _ => .bind ?_ fun _ => .pure _
  · unfold validateReturnType
    split
    · exact .pure _
    · refine .bind (tokenToType_kept _) fun o => ?_
      split
      · exact .pure _
      · exact .error _ _
  · obtain ⟨h1, h2⟩ := hn str (tokName_ok hs)
    exact ⟨h1, link_ok h2 hl⟩
  · unfold validateFuncParams
    exact .ite (.pure _) (.bind makeChildScope_kept fun _ => .bind (params_kept cfg _ _ fun q hq => hp q (List.mem_of_mem_take hq)) fun _ =>
      .bind (updFunc_kept _ _ fun _ => rfl) fun _ => .bind restoreParentScope_kept fun _ => .pure _)

theorem postFunc_kept (t : Tree) : Kept m (postValidateFunc t) := by
  unfold postValidateFunc
  refine .bind .get fun _ => .bind (funcAt_kept _) fun f => .ite (.pure _) (.bind ?_ fun _ => leaveFunc_kept)
  exact .ite (.error _ _) (.ite (.error _ _) (.pure _))


/-- The names in the statement are names. -/
def StmtNames (cfg : Cfg) (m : List Char) (st : Stmt) : Prop :=
  (∀ p, st = .funcProto p → NameTok cfg m p.name ∧ ∀ q ∈ p.params, NameTok cfg m q.name) ∧
    ∀ n c i x e, st = .varDef n c i x e → ∀ t r, n = t :: r → NameTok cfg m t

theorem setDepth_kept (d : Nat) : Kept m (setDepth d) := by intro s a s' h; cases h; exact fun hi => hi

theorem jump_kept (c : Code) (tok : List Token) (next : Tree) : Kept m (validateJump c tok next) := by
  unfold validateJump
  exact .bind .get fun _ => .ite (noDead_kept _) (headTok_error_kept _ _)

theorem needBlock_kept (t : Tree) (tok : List Token) : Kept m (needBlock t tok) := by
  unfold needBlock
  repeat' (first | exact .pure _ | exact headTok_error_kept _ _ | exact .ub | exact .error _ _ | split)

theorem needIf_kept (b : List Stmt) (tok : List Token) : Kept m (needIf b tok) := by
  unfold needIf
  repeat' (first | exact .pure _ | exact headTok_error_kept _ _ | exact .ub | exact .error _ _ | split)

theorem block_kept {nodes : Chk ATree} (h : Kept m nodes) : Kept m (block nodes) := by
  unfold block
  exact .bind makeChildScope_kept fun _ => .bind h fun _ => .bind resetScopeHead_kept fun _ => .bind restoreParentScope_kept fun _ =>
    .bind makeAdjacentScope_kept fun _ => .pure _

theorem closeNamespace_kept (id : Nat) : Kept m (closeNamespace id) := by
  intro s a s' h
  unfold closeNamespace at h
  split at h
  · cases h
  · rename_i sc _
    exact updSym_kept id (fun sym => { sym with kind := .ns sc }) (fun _ _ => trivial) (fun _ h => ⟨h.1, h.2.1, fun v hv => by cases hv⟩) _ _ _ h

theorem import_kept (cfg : Cfg) (tok : List Token) : Kept m (validateImport cfg tok) := by
  unfold validateImport
  exact .bind (headTok_kept _) fun _ => .bind (tokName_kept _) fun _ => .ite (.error _ _) (.ite (.error _ _) (.pure _))

theorem stmt_kept (cfg : Cfg) (before : List Stmt) (st : Stmt) (tok te : List Token) (child next : Tree) {nodes : Chk ATree}
    (hs : StmtNames cfg m st) (hn : Kept m nodes) : Kept m (validateStmt cfg before st tok te child next nodes) := by
  unfold validateStmt
  split
  · exact .bind (return_kept _ _ _ _) fun _ => .pure _
  · exact .bind (noDead_kept _) fun _ => .pure _
  · obtain ⟨h1, h2⟩ := hs.1 _ rfl
    exact .bind .get fun _ => .bind (setDepth_kept _) fun _ => .bind (funcDecl_kept cfg _ h1 h2) fun _ => .bind (block_kept hn) fun _ =>
      .bind (postFunc_kept _) fun _ => .bind (setDepth_kept _) fun _ => .pure _
  · exact .bind (varDef_kept _ _ _ _ _ _ _ _ (hs.2 _ _ _ _ _ rfl)) fun _ => .pure _
  · exact .bind (varAssign_kept _ _ _) fun _ => .pure _
  · exact .ub
  · exact .bind (validateExpr_kept _ _) fun _ => .pure _
  · exact headTok_error_kept _ _
  · exact .bind (needBlock_kept _ _) fun _ => .bind (condition_kept _ _) fun _ => .bind (block_kept hn) fun _ => .pure _
  · exact .bind (needIf_kept _ _) fun _ => .bind (needBlock_kept _ _) fun _ => .bind (block_kept hn) fun _ => .pure _
  · exact .bind (needBlock_kept _ _) fun _ => .bind (needIf_kept _ _) fun _ => .bind (condition_kept _ _) fun _ => .bind (block_kept hn) fun _ => .pure _
  · exact .bind .get fun _ => .bind (setDepth_kept _) fun _ => .bind (needBlock_kept _ _) fun _ => .bind (condition_kept _ _) fun _ =>
      .bind (block_kept hn) fun _ => .bind .get fun _ => .bind (setDepth_kept _) fun _ => .pure _
  · exact .bind (jump_kept _ _ _) fun _ => .pure _
  · exact .bind (jump_kept _ _ _) fun _ => .pure _
  · refine .bind ?_ fun _ => .bind (block_kept hn) fun _ => .bind (closeNamespace_kept _) fun _ => .pure _
    unfold declareNamespace
    exact .bind (headTok_kept _) fun _ => .bind (tokName_kept _) fun _ => .bind (newSym_kept trivial) fun _ => .bind (mustAdd_kept _) fun _ => .pure _
  · exact .bind (import_kept _ _) fun _ => .pure _
  all_goals exact .pure _

theorem nodes_kept (cfg : Cfg) : ∀ (t : Tree) (before : List Stmt), AllStmts (StmtNames cfg m) t → Kept m (validateNodes cfg before t)
  | .nil, _, _ => by unfold validateNodes; exact .pure _
  | .node st tok te child next, before, h => by
    unfold validateNodes
    exact .bind (assertSane_kept _) fun _ => .bind (stmt_kept cfg before st tok te child next h.1 (nodes_kept cfg child [] h.2.1)) fun _ =>
      .bind (nodes_kept cfg next (st :: before) h.2.2) fun _ => .pure _

theorem semantic_named {cfg : Cfg} {t : Tree} {a : ATree} {s : SS} (hm : createMainFuncName cfg.filename = some ('.' :: m))
    (ht : AllStmts (StmtNames cfg m) t) (h : semantic cfg t = .ok a s) : NamesOf m s.syms := by
  unfold semantic at h
  split at h
  · cases h
  · rename_i s0 h0
    have hk : Kept m (validateAstTree cfg t) := by
      unfold validateAstTree
      refine .bind (nodes_kept cfg t [] ht) fun a => .bind resetScopeHead_kept fun _ => .bind resetScopeHead_kept fun _ =>
        .ite (.pure _) (.bind ?_ fun _ => .ite .stop (.pure _))
      intro s b s' hc hi
      unfold Inv
      rw [checkUnused_syms _ _ _ _ _ hc]
      exact hi
    refine hk _ _ _ h ?_
    unfold setupState at h0
    rw [hm] at h0
    cases h0
    refine ⟨⟨_, rfl, rfl, rfl, fun v hv => by cases hv⟩, fun i sym hne hs => ?_⟩
    cases i with
    | zero => exact absurd rfl hne
    | succ i => cases hs

/- ### Source texts -/

theorem identifier_len (text : List Char) (h : (wordType text).1 = .identifier) : (wordType text).2 = text.length := by
  unfold wordType at h ⊢
  repeat' split at h
  all_goals first | rfl | (cases h; done) | (cases h <;> rfl) | simp_all

/-- The names in a source. -/
theorem name_token {w : Bool} {src : List Char} {toks toks' : List Token} (h1 : tokenize w src = some (.ok toks))
    (h2 : classifyTokens toks = some toks') {t' : Token} (ht : t' ∈ toks') (hn : t'.ty = .identifier ∨ t'.ty = .newIdentifier) {x : List Char}
    (hx : tokenToString t' = some x) : OwnName x := by
  have hv := (SemDef.real_token h1 h2 ht).name hn x hx
  obtain ⟨t, hm, hc⟩ := SemHeap.classify_mem h2 t' ht
  have hb : t.begin.isSome := by
    rw [← SemHeap.classify_begin hc]
    unfold tokenToString at hx
    split at hx
    · cases hx
    · rename_i e; rw [e]; rfl
  obtain ⟨l, hl⟩ := real_matches h1 t hm hb
  obtain ⟨after, hs, hb⟩ := hl.begin
  have hu : t.ty = .unknown := by
    by_cases hu : t.ty = .unknown
    · exact hu
    · exfalso
      unfold classifyToken at hc
      rw [if_pos hu] at hc
      cases hc
      rw [hl.ty] at hn
      revert hn
      unfold kindType
      repeat' split
      all_goals simp
  have hlen := SemDef.classify_len hc
  have hb' := SemHeap.classify_begin hc
  rw [hb] at hb'
  have ht : t = word l.text after t.line t.col := by
    obtain ⟨b, n, ty, ln, c⟩ := t
    have := hl.len
    simp only at hb this hu
    subst hb this hu
    rfl
  have hne : l.text ≠ [] := by
    intro e
    have h0 : t.len = 0 := by rw [hl.len, e]; rfl
    unfold tokenToString at hx
    rw [hb'] at hx
    have : t'.len = 0 := by omega
    rw [this] at hx
    cases hx
    cases hv
  rw [ht] at hc
  have hty : typeOf l.text after t.line t.col = some t'.ty := by unfold typeOf; rw [hc]; rfl
  unfold tokenToString at hx
  rw [hb'] at hx
  rcases hn with hn | hn
  · rw [hn] at hty
    have h3 := (C09_identifiers l.text after t.line t.col hne).1 hty
    have h4 := classify_word l.text after t.line t.col hne
    rw [hc] at h4
    have h5 : (wordType l.text).1 = .identifier := by rw [typeOf_eq _ _ _ _ hne] at hty; exact Option.some.inj hty
    have h6 : t'.len = l.text.length := by
      rw [← identifier_len _ h5]
      cases h4
      rfl
    rw [h6] at hx
    cases hx
    rw [List.take_left]
    exact h3
  · have h3 := C09_declarations l.text after t.line t.col hne
    rw [hn] at hty
    obtain ⟨name, e, h4, h5, _⟩ := h3.1.1 hty
    have h6 := (h3.2 _ hc hn).1
    rw [h6] at hx
    cases hx
    rw [e]
    simp only [List.length_append, List.length_singleton, Nat.add_sub_cancel, List.append_assoc, List.take_left]
    exact ⟨h4, h5⟩

theorem source_names {cfg : Cfg} {w : Bool} {src dir : List Char} {toks toks' : List Token} {t : Tree} {s : PS}
    (h1 : tokenize w src = some (.ok toks)) (h2 : classifyTokens toks = some toks') (h3 : parseAstTree toks' = .ok (some t) s)
    (hf : cfg.filename = dir ++ (m ++ ".sk".toList)) (hd : IsDir dir) (hb : IsBase m) (hn : NulFree m) (hl : m.length + src.length + 3 < 2 ^ 64) :
    AllStmts (StmtNames cfg m) t := by
  have key : ∀ u ∈ toks', u.ty = .identifier ∨ u.ty = .newIdentifier → NameTok cfg m u := by
    intro u hu hty x hx
    have hr := SemDef.real_token h1 h2 hu
    have := SemDef.text_length hx
    have := hr.short
    exact ⟨name_token h1 h2 hu hty hx, by
      rw [hf, C21_linkage_name dir m x hd hb hn (SemDef.varName_nul ((varName_iff x).1 (hr.name hty x hx))) (by omega)]⟩
  refine (parsed_written h3).mono ?_
  intro st hw
  rcases hw with rfl | ⟨pre, pos, ts, rfl, hw⟩
  · exact ⟨(fun _ h => by cases h), (fun _ _ _ _ _ h => by cases h)⟩
  · refine ⟨fun p hp => ⟨?_, fun q hq => ?_⟩, fun n c i x e hst u r hu => ?_⟩
    · subst hp
      cases hw with
      | func _ h _ _ _ _ _ => exact key _ (List.mem_append_right _ (List.mem_append_right _ (.head _))) (.inl h)
    · obtain ⟨h4, h5⟩ := SemHeap.written_params hw p hp q hq
      exact key _ (List.mem_append_right _ h4) (.inr h5)
    · subst hst hu
      cases hw with
      | implicit _ h _ _ => exact key _ (List.mem_append_right _ (List.mem_append_right _ (.head _))) (.inl h)
      | explicit _ h _ _ => exact key _ (List.mem_append_right _ (List.mem_append_right _ (.head _))) (.inr h)

end Skull.OwnNames
