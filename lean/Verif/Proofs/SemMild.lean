import Verif.Proofs.Told
import Verif.Model.Semantic
/-
Steps of the semantic check that make no symbol and no scope, whether they fail or not.
-/
namespace Skull.SemHeap

set_option maxRecDepth 4000

/-- What matters of a symbol for the memory it owns. -/
inductive Shape
  | var (exported : Bool)
  | func (exported hasTypes : Bool)
  | plain
  deriving DecidableEq

def shapeOf (k : SymKind) : Shape :=
  match k with
  | .var v => .var v.isExported
  | .func f => .func f.isExport (decide (f.numParams ≠ 0))
  | .alias => .plain
  | .ns _ => .plain

def shape (sym : Symbol) : Shape := shapeOf sym.kind

/-- The same scopes, and symbols of the same shape. -/
structure Same (s s' : SS) : Prop where
  scopes : s'.scopes = s.scopes
  scope : s'.scope = s.scope
  syms : s'.syms.map shape = s.syms.map shape

theorem Same.refl (s : SS) : Same s s := ⟨rfl, rfl, rfl⟩

theorem Same.trans {s s' s'' : SS} (h : Same s s') (h' : Same s' s'') : Same s s'' :=
  ⟨h'.scopes.trans h.scopes, h'.scope.trans h.scope, h'.syms.trans h.syms⟩

/-- The state a step ends in, if it does. -/
def After (m : SRes α) (P : SS → Prop) : Prop :=
  match m with
  | .ok _ s => P s
  | .fail s => P s
  | .ub => True

def Mild (m : Chk α) : Prop := ∀ s, After (m s) (Same s)

theorem mild_pure (a : α) : Mild (pure a : Chk α) := fun s => Same.refl s
theorem mild_ub : Mild (Chk.ub : Chk α) := fun _ => trivial
theorem mild_stop : Mild (Chk.stop : Chk α) := fun s => Same.refl s
theorem mild_get : Mild Chk.get := fun s => Same.refl s
theorem mild_error (c : Code) (t : Option Token) : Mild (Chk.error c t : Chk α) := fun _ => ⟨rfl, rfl, rfl⟩
theorem mild_report (c : Code) (t : Option Token) : Mild (report c t) := fun _ => ⟨rfl, rfl, rfl⟩
theorem mild_ofOption (o : Option α) : Mild (Chk.ofOption o) := by
  cases o with
  | none => exact mild_ub
  | some a => exact mild_pure a

theorem mild_bind {m : Chk α} {f : α → Chk β} (hm : Mild m) (hf : ∀ a, Mild (f a)) : Mild (m >>= f) := by
  intro s
  show After (Chk.bind m f s) _
  unfold Chk.bind
  have h := hm s
  cases e : m s with
  | ok a s' =>
    rw [e] at h
    have h2 := hf a s'
    show After (f a s') _
    cases e2 : f a s' with
    | ok b s2 => rw [e2] at h2; exact h.trans h2
    | fail s2 => rw [e2] at h2; exact h.trans h2
    | ub => trivial
  | fail s' => rw [e] at h; exact h
  | ub => trivial

syntax "mild_step" : tactic
macro_rules | `(tactic| mild_step) => `(tactic| assumption)
macro_rules | `(tactic| mild_step) => `(tactic| with_reducible exact mild_pure _)
macro_rules | `(tactic| mild_step) => `(tactic| with_reducible exact mild_ub)
macro_rules | `(tactic| mild_step) => `(tactic| with_reducible exact mild_stop)
macro_rules | `(tactic| mild_step) => `(tactic| with_reducible exact mild_get)
macro_rules | `(tactic| mild_step) => `(tactic| with_reducible exact mild_error _ _)
macro_rules | `(tactic| mild_step) => `(tactic| with_reducible exact mild_report _ _)
macro_rules | `(tactic| mild_step) => `(tactic| with_reducible exact mild_ofOption _)

syntax "mild" : tactic
macro_rules
  | `(tactic| mild) => `(tactic|
      repeat' (first
        | (with_reducible refine mild_bind ?_ (fun _ => ?_))
        | mild_step
        | split))

theorem mild_lookup (n : List Char) : Mild (lookup n) := by
  intro s; unfold lookup; cases s.find n with
  | none => trivial
  | some r => exact Same.refl s
theorem mild_symAt (i : Nat) : Mild (symAt i) := by
  intro s; unfold symAt; cases s.syms[i]? with
  | none => trivial
  | some r => exact Same.refl s
macro_rules | `(tactic| mild_step) => `(tactic| with_reducible exact mild_lookup _)
macro_rules | `(tactic| mild_step) => `(tactic| with_reducible exact mild_symAt _)

theorem mild_updSym (i : Nat) {f : Symbol → Symbol} (hf : ∀ sym, shape (f sym) = shape sym) : Mild (updSym i f) := by
  intro s
  unfold updSym
  cases e : s.syms[i]? with
  | none => trivial
  | some sym =>
    refine ⟨rfl, rfl, ?_⟩
    show (s.syms.set i (f sym)).map shape = _
    rw [List.map_set, hf]
    have : (s.syms.map shape)[i]? = some (shape sym) := by rw [List.getElem?_map, e]; rfl
    apply List.ext_getElem?
    intro j
    rw [List.getElem?_set]
    split
    · rename_i hj
      subst hj
      rw [this]
      split
      · rfl
      · rename_i hl
        rw [List.getElem?_eq_none (by omega)] at this
        cases this
    · rfl

theorem mild_updVar (i : Nat) {f : Variable → Variable} (hf : ∀ v, (f v).isExported = v.isExported) : Mild (updVar i f) := by
  refine mild_updSym i fun sym => ?_
  unfold shape
  split
  · rename_i h; rw [h]; simp only [shapeOf, hf]
  · rfl

theorem mild_updFunc (i : Nat) {f : Func → Func} (hf : ∀ v, (f v).isExport = v.isExport)
    (hn : ∀ v, (f v).numParams = v.numParams) : Mild (updFunc i f) := by
  refine mild_updSym i fun sym => ?_
  unfold shape
  split
  · rename_i h; rw [h]; simp only [shapeOf, hf, hn]
  · rfl
macro_rules | `(tactic| mild_step) => `(tactic| (with_reducible refine mild_updVar _ ?_) <;> exact fun _ => rfl)
macro_rules | `(tactic| mild_step) => `(tactic| (with_reducible refine mild_updFunc _ ?_ ?_) <;> exact fun _ => rfl)

theorem mild_tokName (t : Token) : Mild (tokName t) := mild_ofOption _
macro_rules | `(tactic| mild_step) => `(tactic| with_reducible exact mild_tokName _)
theorem mild_headTok (t : List Token) : Mild (headTok t) := by unfold headTok; mild
macro_rules | `(tactic| mild_step) => `(tactic| with_reducible exact mild_headTok _)
theorem mild_findFuncByName (n : List Char) : Mild (findFuncByName n) := by unfold findFuncByName; mild
macro_rules | `(tactic| mild_step) => `(tactic| with_reducible exact mild_findFuncByName _)
theorem mild_findType (n : List Char) : Mild (findType n) := by unfold findType; mild
macro_rules | `(tactic| mild_step) => `(tactic| with_reducible exact mild_findType _)
theorem mild_directType (o : Option Nat) : Mild (directType o) := by unfold directType; mild
macro_rules | `(tactic| mild_step) => `(tactic| with_reducible exact mild_directType _)
theorem mild_funcOrAlias (n : List Char) : Mild (funcOrAlias n) := by unfold funcOrAlias; mild
macro_rules | `(tactic| mild_step) => `(tactic| with_reducible exact mild_funcOrAlias _)
theorem mild_findSymbolType (n : List Char) : Mild (findSymbolType n) := by unfold findSymbolType; mild
macro_rules | `(tactic| mild_step) => `(tactic| with_reducible exact mild_findSymbolType _)
theorem mild_reportExisting (ty : SymType) (sym : Symbol) : Mild (reportExisting ty sym) := by unfold reportExisting; mild
macro_rules | `(tactic| mild_step) => `(tactic| with_reducible exact mild_reportExisting _ _)
theorem mild_tokenToType (ts : List Token) : Mild (tokenToType ts) := by
  induction ts with
  | nil => exact mild_ub
  | cons t rest ih => unfold tokenToType; mild
macro_rules | `(tactic| mild_step) => `(tactic| with_reducible exact mild_tokenToType _)
theorem mild_makeVariable (ty : Ty) (n : List Char) (c : Bool) : Mild (makeVariable ty n c) := by unfold makeVariable; mild
macro_rules | `(tactic| mild_step) => `(tactic| with_reducible exact mild_makeVariable _ _ _)
theorem mild_isTopLvlScope : Mild isTopLvlScope := by
  intro s; unfold isTopLvlScope
  split
  · trivial
  · exact Same.refl s
  · split
    · trivial
    · exact Same.refl s
macro_rules | `(tactic| mild_step) => `(tactic| with_reducible exact mild_isTopLvlScope)

theorem mild_scopeFindVar (t : Token) : Mild (scopeFindVar t) := by unfold scopeFindVar; mild
macro_rules | `(tactic| mild_step) => `(tactic| with_reducible exact mild_scopeFindVar _)
theorem mild_evalLit (t : Token) (e : Ev α) : Mild (evalLit t e) := by unfold evalLit; mild
macro_rules | `(tactic| mild_step) => `(tactic| with_reducible exact mild_evalLit _ _)
theorem mild_toBytes (t : Token) (e : List Nat) : Mild (toBytes t e) := by unfold toBytes; mild
macro_rules | `(tactic| mild_step) => `(tactic| with_reducible exact mild_toBytes _ _)
theorem mild_validateConst (cfg : Cfg) (t : Token) : Mild (validateConst cfg t) := by unfold validateConst; mild
macro_rules | `(tactic| mild_step) => `(tactic| with_reducible exact mild_validateConst _ _)
theorem mild_isNumeric (e : AExpr) (t : Token) : Mild (isNumeric e t) := by unfold isNumeric; mild
macro_rules | `(tactic| mild_step) => `(tactic| with_reducible exact mild_isNumeric _ _)
theorem mild_notDivByZero (e : AExpr) : Mild (notDivByZero e) := by unfold notDivByZero; mild
macro_rules | `(tactic| mild_step) => `(tactic| with_reducible exact mild_notDivByZero _)
theorem mild_validatePow (e : AExpr) : Mild (validatePow e) := by unfold validatePow; mild
macro_rules | `(tactic| mild_step) => `(tactic| with_reducible exact mild_validatePow _)
theorem mild_validateRestrictions (o : Oper) (e : AExpr) (t : Token) : Mild (validateRestrictions o e t) := by
  unfold validateRestrictions; mild
macro_rules | `(tactic| mild_step) => `(tactic| with_reducible exact mild_validateRestrictions _ _ _)
theorem mild_exprType (o : Oper) (ty : Ty) : Mild (exprType o ty) := by unfold exprType; mild
macro_rules | `(tactic| mild_step) => `(tactic| with_reducible exact mild_exprType _ _)
theorem mild_findFuncByToken (t : Token) : Mild (findFuncByToken t) := by unfold findFuncByToken; mild
macro_rules | `(tactic| mild_step) => `(tactic| with_reducible exact mild_findFuncByToken _)
theorem mild_funcAt (i : Nat) : Mild (funcAt i) := by unfold funcAt; mild
macro_rules | `(tactic| mild_step) => `(tactic| with_reducible exact mild_funcAt _)
theorem mild_checkCount (f : Func) (t : Token) (ps : Args) (n : Nat) : Mild (checkCount f t ps n) := by unfold checkCount; mild
macro_rules | `(tactic| mild_step) => `(tactic| with_reducible exact mild_checkCount _ _ _ _)
theorem mild_operFits (b : Bool) : Mild (operFits b) := by unfold operFits; mild
macro_rules | `(tactic| mild_step) => `(tactic| with_reducible exact mild_operFits _)
theorem mild_sameTypes (l r : AExpr) : Mild (sameTypes l r) := by unfold sameTypes; mild
macro_rules | `(tactic| mild_step) => `(tactic| with_reducible exact mild_sameTypes _ _)

mutual
theorem mild_validateExpr (cfg : Cfg) : (e : Expr) → Mild (validateExpr cfg e)
  | .missing => by unfold validateExpr; mild
  | .ident t => by unfold validateExpr; mild
  | .const t => by unfold validateExpr; mild
  | .call name params num => by
    have ih := fun tys => mild_validateArgs cfg tys params
    unfold validateExpr
    repeat' (first | (with_reducible refine mild_bind ?_ (fun _ => ?_)) | exact ih _ | mild_step | split)
  | .un o rhs => by
    have ih := mild_validateExpr cfg rhs
    unfold validateExpr
    mild
  | .bin o lhs rhs => by
    have ih := mild_validateExpr cfg rhs
    have ih2 := mild_validateExpr cfg lhs
    unfold validateExpr
    mild
theorem mild_validateArgs (cfg : Cfg) : (tys : List Ty) → (as : Args) → Mild (validateArgs cfg tys as)
  | [], .nil => by unfold validateArgs; mild
  | [], .cons .. => by unfold validateArgs; mild
  | _ :: _, .nil => by unfold validateArgs; mild
  | _ :: tys, .cons _ e next => by
    have ih := mild_validateExpr cfg e
    have ih2 := mild_validateArgs cfg tys next
    unfold validateArgs
    mild
end
macro_rules | `(tactic| mild_step) => `(tactic| with_reducible exact mild_validateExpr _ _)

theorem mild_warn (cfg : Cfg) (c : Code) (t : Option Token) : Mild (warn cfg c t) := by unfold warn; mild
macro_rules | `(tactic| mild_step) => `(tactic| with_reducible exact mild_warn _ _ _)
theorem mild_assertSaneChild (t : Tree) : Mild (assertSaneChild t) := by unfold assertSaneChild; mild
macro_rules | `(tactic| mild_step) => `(tactic| with_reducible exact mild_assertSaneChild _)
theorem mild_noDeadCodeBelow (t : Tree) : Mild (noDeadCodeBelow t) := by
  induction t with
  | nil => unfold noDeadCodeBelow; mild
  | node s a b c n _ ih => unfold noDeadCodeBelow; mild
macro_rules | `(tactic| mild_step) => `(tactic| with_reducible exact mild_noDeadCodeBelow _)
theorem mild_needIf (b : List Stmt) (t : List Token) : Mild (needIf b t) := by unfold needIf; mild
macro_rules | `(tactic| mild_step) => `(tactic| with_reducible exact mild_needIf _ _)
theorem mild_validateCond (cfg : Cfg) (e : AExpr) : Mild (validateCond cfg e) := by unfold validateCond; mild
macro_rules | `(tactic| mild_step) => `(tactic| with_reducible exact mild_validateCond _ _)
theorem mild_needBlock (c : Tree) (t : List Token) : Mild (needBlock c t) := by unfold needBlock; mild
macro_rules | `(tactic| mild_step) => `(tactic| with_reducible exact mild_needBlock _ _)
theorem mild_checkReturn (b : Bool) (f : Func) (e : Option AExpr) (t : List Token) : Mild (checkReturn b f e t) := by
  unfold checkReturn; mild
macro_rules | `(tactic| mild_step) => `(tactic| with_reducible exact mild_checkReturn _ _ _ _)
theorem mild_validateOptExpr (cfg : Cfg) (e : Expr) : Mild (validateOptExpr cfg e) := by unfold validateOptExpr; mild
macro_rules | `(tactic| mild_step) => `(tactic| with_reducible exact mild_validateOptExpr _ _)
theorem mild_validateReturn (cfg : Cfg) (e : Expr) (t : List Token) (n : Tree) : Mild (validateReturn cfg e t n) := by
  unfold validateReturn; mild
macro_rules | `(tactic| mild_step) => `(tactic| with_reducible exact mild_validateReturn _ _ _ _)
theorem mild_linkageName (cfg : Cfg) (b : Bool) (n : List Char) : Mild (linkageName cfg b n) := by unfold linkageName; mild
macro_rules | `(tactic| mild_step) => `(tactic| with_reducible exact mild_linkageName _ _ _)
theorem mild_notVoidFuncAssign (e : AExpr) : Mild (notVoidFuncAssign e) := by unfold notVoidFuncAssign; mild
macro_rules | `(tactic| mild_step) => `(tactic| with_reducible exact mild_notVoidFuncAssign _)
theorem mild_declaredType (b : Bool) (e : AExpr) (n : List Token) : Mild (declaredType b e n) := by unfold declaredType; mild
macro_rules | `(tactic| mild_step) => `(tactic| with_reducible exact mild_declaredType _ _ _)
theorem mild_compatible (e : AExpr) (ty : Ty) : Mild (compatible e ty) := by unfold compatible; mild
macro_rules | `(tactic| mild_step) => `(tactic| with_reducible exact mild_compatible _ _)
theorem mild_varAt (i : Nat) : Mild (varAt i) := by unfold varAt; mild
macro_rules | `(tactic| mild_step) => `(tactic| with_reducible exact mild_varAt _)
theorem mild_warnTrivial (cfg : Cfg) (e : AExpr) (b : Bool) : Mild (warnTrivial cfg e b) := by unfold warnTrivial; mild
macro_rules | `(tactic| mild_step) => `(tactic| with_reducible exact mild_warnTrivial _ _ _)
theorem mild_notRedundant (e : AExpr) (i : Nat) : Mild (notRedundant e i) := by unfold notRedundant; mild
macro_rules | `(tactic| mild_step) => `(tactic| with_reducible exact mild_notRedundant _ _)
theorem mild_validateVarAssign (cfg : Cfg) (e : Expr) (t : List Token) : Mild (validateVarAssign cfg e t) := by
  unfold validateVarAssign; mild
macro_rules | `(tactic| mild_step) => `(tactic| with_reducible exact mild_validateVarAssign _ _ _)
theorem mild_validateReturnType (o : Option (List Token)) : Mild (validateReturnType o) := by unfold validateReturnType; mild
macro_rules | `(tactic| mild_step) => `(tactic| with_reducible exact mild_validateReturnType _)
theorem mild_notNested (p : FuncProto) : Mild (notNested p) := by unfold notNested; mild
macro_rules | `(tactic| mild_step) => `(tactic| with_reducible exact mild_notNested _)
theorem mild_enterFunc (i : Nat) : Mild (enterFunc i) := fun _ => ⟨rfl, rfl, rfl⟩
macro_rules | `(tactic| mild_step) => `(tactic| with_reducible exact mild_enterFunc _)
theorem mild_checkReturns (f : Func) (t : Tree) : Mild (checkReturns f t) := by unfold checkReturns; mild
macro_rules | `(tactic| mild_step) => `(tactic| with_reducible exact mild_checkReturns _ _)
theorem mild_leaveFunc : Mild leaveFunc := by
  intro s; unfold leaveFunc
  split
  · trivial
  · exact ⟨rfl, rfl, rfl⟩
macro_rules | `(tactic| mild_step) => `(tactic| with_reducible exact mild_leaveFunc)
theorem mild_postValidateFunc (t : Tree) : Mild (postValidateFunc t) := by unfold postValidateFunc; mild
macro_rules | `(tactic| mild_step) => `(tactic| with_reducible exact mild_postValidateFunc _)
theorem mild_validateImport (cfg : Cfg) (t : List Token) : Mild (validateImport cfg t) := by unfold validateImport; mild
macro_rules | `(tactic| mild_step) => `(tactic| with_reducible exact mild_validateImport _ _)
theorem mild_setDepth (d : Nat) : Mild (setDepth d) := fun _ => ⟨rfl, rfl, rfl⟩
macro_rules | `(tactic| mild_step) => `(tactic| with_reducible exact mild_setDepth _)
theorem mild_validateJump (c : Code) (t : List Token) (n : Tree) : Mild (validateJump c t n) := by unfold validateJump; mild
macro_rules | `(tactic| mild_step) => `(tactic| with_reducible exact mild_validateJump _ _ _)
theorem mild_condition (cfg : Cfg) (e : Expr) : Mild (condition cfg e) := by unfold condition; mild
macro_rules | `(tactic| mild_step) => `(tactic| with_reducible exact mild_condition _ _)
theorem mild_warnIf (cfg : Cfg) (a b : Bool) (c : Code) (t : Option Token) : Mild (warnIf cfg a b c t) := by unfold warnIf; mild
macro_rules | `(tactic| mild_step) => `(tactic| with_reducible exact mild_warnIf _ _ _ _ _)
theorem mild_unusedSym (cfg : Cfg) (b : Bool) (s : Symbol) : Mild (unusedSym cfg b s) := by unfold unusedSym; mild
macro_rules | `(tactic| mild_step) => `(tactic| with_reducible exact mild_unusedSym _ _ _)
theorem mild_checkUnused (cfg : Cfg) (b : Bool) (t : ATree) : Mild (checkUnused cfg b t) := by
  fun_induction checkUnused cfg b t with
  | case1 => exact mild_pure _
  | case2 => mild
  | case3 => mild
  | case4 _ _ _ _ _ _ _ ih => exact mild_bind (mild_symAt _) fun _ => mild_bind (mild_unusedSym _ _ _) fun _ => ih _
  | case5 _ _ _ _ _ _ _ ih => exact mild_bind (mild_symAt _) fun _ => mild_bind (mild_unusedSym _ _ _) fun _ => ih _
  | case6 _ _ _ _ _ _ _ ih => exact ih
  | case7 _ _ _ _ _ _ _ _ _ ih1 ih2 => exact mild_bind ih1 fun _ => ih2 _

end Skull.SemHeap
