import Verif.Proofs.SemSound
/-
The functions that the check refers to as the current and the last one are functions.
-/
namespace Skull.SemDef

open Skull.Spec

set_option maxRecDepth 4000

/-- A symbol is a function. -/
def FuncSym (s : SS) (i : Nat) : Prop := ∃ sym, s.syms[i]? = some sym ∧ sym.kind.symType = .func

def FuncsOk (s : SS) : Prop := FuncSym s s.currentFunc ∧ ∀ l, s.lastFunc = some l → FuncSym s l

/-- What stays of a symbol: its name for the linker, and what a function gives and whether it is external. -/
structure SymStays (sym sym' : Symbol) : Prop where
  kind : sym'.kind.symType = sym.kind.symType
  link : sym'.linkageName = sym.linkageName
  func : ∀ f, sym.kind = .func f → ∃ f', sym'.kind = .func f' ∧ f'.returnType = f.returnType ∧ f'.isExternal = f.isExternal

theorem SymStays.refl (sym : Symbol) : SymStays sym sym := ⟨rfl, rfl, fun f h => ⟨f, h, rfl, rfl⟩⟩

theorem SymStays.trans {a b c : Symbol} (h : SymStays a b) (h' : SymStays b c) : SymStays a c := by
  refine ⟨h'.kind.trans h.kind, h'.link.trans h.link, fun f hf => ?_⟩
  obtain ⟨g, h1, h2, h3⟩ := h.func f hf
  obtain ⟨k, h4, h5, h6⟩ := h'.func g h1
  exact ⟨k, h4, h5.trans h2, h6.trans h3⟩

/-- Symbols stay what they are. -/
def Kinds (s s' : SS) : Prop :=
  ∀ (i : Nat) (sym : Symbol), s.syms[i]? = some sym → ∃ sym' : Symbol, s'.syms[i]? = some sym' ∧ SymStays sym sym'

structure Keep (s s' : SS) : Prop where
  kinds : Kinds s s'
  funcs : FuncsOk s → FuncsOk s'
  last : s.lastFunc.isSome = true → s'.lastFunc.isSome = true

theorem Kinds.refl (s : SS) : Kinds s s := fun _ sym h => ⟨sym, h, .refl _⟩
theorem Kinds.trans {s s' s'' : SS} (h : Kinds s s') (h' : Kinds s' s'') : Kinds s s'' := by
  intro i sym hs
  obtain ⟨a, h1, h2⟩ := h i sym hs
  obtain ⟨b, h3, h4⟩ := h' i a h1
  exact ⟨b, h3, h2.trans h4⟩

theorem FuncSym.keep {s s' : SS} {i} (h : FuncSym s i) (hk : Kinds s s') : FuncSym s' i := by
  obtain ⟨sym, h1, h2⟩ := h
  obtain ⟨sym', h3, h4⟩ := hk i sym h1
  exact ⟨sym', h3, h4.kind.trans h2⟩

theorem FuncsOk.keep {s s' : SS} (h : FuncsOk s) (hk : Kinds s s') (h1 : s'.currentFunc = s.currentFunc)
    (h2 : s'.lastFunc = s.lastFunc) : FuncsOk s' := by
  refine ⟨?_, ?_⟩
  · rw [h1]; exact h.1.keep hk
  · rw [h2]; exact fun l hl => (h.2 l hl).keep hk

theorem Keep.of {s s' : SS} (hk : Kinds s s') (h1 : s'.currentFunc = s.currentFunc) (h2 : s'.lastFunc = s.lastFunc) : Keep s s' :=
  ⟨hk, fun h => h.keep hk h1 h2, fun h => by rw [h2]; exact h⟩

theorem Keep.same {s s' : SS} (h : s'.syms = s.syms) (h1 : s'.currentFunc = s.currentFunc) (h2 : s'.lastFunc = s.lastFunc) :
    Keep s s' := .of (fun i sym hs => ⟨sym, by rw [h]; exact hs, .refl _⟩) h1 h2

theorem Keep.refl (s : SS) : Keep s s := ⟨.refl s, fun h => h, fun h => h⟩
theorem Keep.trans {s s' s'' : SS} (h : Keep s s') (h' : Keep s' s'') : Keep s s'' :=
  ⟨h.kinds.trans h'.kinds, fun h0 => h'.funcs (h.funcs h0), fun h0 => h'.last (h.last h0)⟩

/-- The state a step ends in, if it goes on. -/
def Then (m : SRes α) (P : SS → Prop) : Prop :=
  match m with
  | .ok _ s => P s
  | .fail _ => True
  | .ub => True

def Still (m : Chk α) : Prop := ∀ s, Then (m s) (Keep s)

theorem Still.ok {m : Chk α} (h : Still m) {s a s'} (hm : m s = .ok a s') : Keep s s' := by
  have := h s
  rw [hm] at this
  exact this

theorem Then.mono {m : SRes α} {P Q : SS → Prop} (h : Then m P) (hpq : ∀ s, P s → Q s) : Then m Q := by
  cases m with
  | ok a s => exact hpq s h
  | fail => trivial
  | ub => trivial

theorem still_pure (a : α) : Still (pure a : Chk α) := fun s => Keep.refl s
theorem still_ub : Still (Chk.ub : Chk α) := fun _ => trivial
theorem still_stop : Still (Chk.stop : Chk α) := fun _ => trivial
theorem still_get : Still Chk.get := fun s => Keep.refl s
theorem still_error (c : Code) (t : Option Token) : Still (Chk.error c t : Chk α) := fun _ => trivial
theorem still_report (c : Code) (t : Option Token) : Still (report c t) := fun _ => .same rfl rfl rfl
theorem still_ofOption (o : Option α) : Still (Chk.ofOption o) := by
  cases o with
  | none => exact still_ub
  | some a => exact still_pure a

theorem still_bind {m : Chk α} {f : α → Chk β} (hm : Still m) (hf : ∀ a, Still (f a)) : Still (m >>= f) := by
  intro s
  show Then (Chk.bind m f s) _
  unfold Chk.bind
  have h := hm s
  cases e : m s with
  | ok a s' =>
    rw [e] at h
    have h2 := hf a s'
    show Then (f a s') _
    cases e2 : f a s' with
    | ok b s2 => rw [e2] at h2; exact h.trans h2
    | fail s2 => trivial
    | ub => trivial
  | fail s' => trivial
  | ub => trivial

syntax "still_step" : tactic
macro_rules | `(tactic| still_step) => `(tactic| assumption)
macro_rules | `(tactic| still_step) => `(tactic| with_reducible exact still_pure _)
macro_rules | `(tactic| still_step) => `(tactic| with_reducible exact still_ub)
macro_rules | `(tactic| still_step) => `(tactic| with_reducible exact still_stop)
macro_rules | `(tactic| still_step) => `(tactic| with_reducible exact still_get)
macro_rules | `(tactic| still_step) => `(tactic| with_reducible exact still_error _ _)
macro_rules | `(tactic| still_step) => `(tactic| with_reducible exact still_report _ _)
macro_rules | `(tactic| still_step) => `(tactic| with_reducible exact still_ofOption _)

syntax "still" : tactic
macro_rules
  | `(tactic| still) => `(tactic|
      repeat' (first
        | (with_reducible refine still_bind ?_ (fun _ => ?_))
        | still_step
        | split))

theorem still_lookup (n : List Char) : Still (lookup n) := by
  intro s; unfold lookup; cases s.find n with
  | none => trivial
  | some r => exact Keep.refl s
theorem still_symAt (i : Nat) : Still (symAt i) := by
  intro s; unfold symAt; cases s.syms[i]? with
  | none => trivial
  | some r => exact Keep.refl s
macro_rules | `(tactic| still_step) => `(tactic| with_reducible exact still_lookup _)
macro_rules | `(tactic| still_step) => `(tactic| with_reducible exact still_symAt _)

theorem still_updSym (i : Nat) {f : Symbol → Symbol} (hf : ∀ sym, SymStays sym (f sym)) : Still (updSym i f) := by
  intro s
  unfold updSym
  cases e : s.syms[i]? with
  | none => trivial
  | some sym =>
    refine .of (fun j sym' hj => ?_) rfl rfl
    show ∃ sym'', (s.syms.set i (f sym))[j]? = some sym'' ∧ _
    by_cases h : i = j
    · subst h
      rw [e] at hj
      cases hj
      exact ⟨_, getElem?_set_self' e, hf _⟩
    · rw [List.getElem?_set_ne h]
      exact ⟨sym', hj, .refl _⟩

theorem still_updVar (i : Nat) (f : Variable → Variable) : Still (updVar i f) := by
  refine still_updSym i fun sym => ?_
  split
  · rename_i h
    exact ⟨by rw [h]; rfl, rfl, fun g hg => by rw [h] at hg; cases hg⟩
  · exact .refl _

theorem still_updFunc (i : Nat) (f : Func → Func) (hf : ∀ g, (f g).returnType = g.returnType ∧ (f g).isExternal = g.isExternal) :
    Still (updFunc i f) := by
  refine still_updSym i fun sym => ?_
  split
  · rename_i g h
    refine ⟨by rw [h]; rfl, rfl, fun g' hg => ?_⟩
    rw [h] at hg
    cases hg
    exact ⟨_, rfl, (hf g).1, (hf g).2⟩
  · exact .refl _
macro_rules | `(tactic| still_step) => `(tactic| with_reducible exact still_updVar _ _)
macro_rules | `(tactic| still_step) => `(tactic| with_reducible exact still_updFunc _ _ (fun _ => ⟨rfl, rfl⟩))
theorem still_newSym (sym : Symbol) : Still (newSym sym) := by
  intro s
  exact .of (fun i sym' h => ⟨sym', by rw [← h]; exact List.getElem?_append_left (get_lt h), .refl _⟩) rfl rfl
macro_rules | `(tactic| still_step) => `(tactic| with_reducible exact still_newSym _)

theorem still_tokName (t : Token) : Still (tokName t) := still_ofOption _
macro_rules | `(tactic| still_step) => `(tactic| with_reducible exact still_tokName _)
theorem still_headTok (t : List Token) : Still (headTok t) := by unfold headTok; still
macro_rules | `(tactic| still_step) => `(tactic| with_reducible exact still_headTok _)
theorem still_findFuncByName (n : List Char) : Still (findFuncByName n) := by unfold findFuncByName; still
macro_rules | `(tactic| still_step) => `(tactic| with_reducible exact still_findFuncByName _)
theorem still_findType (n : List Char) : Still (findType n) := by unfold findType; still
macro_rules | `(tactic| still_step) => `(tactic| with_reducible exact still_findType _)
theorem still_directType (o : Option Nat) : Still (directType o) := by unfold directType; still
macro_rules | `(tactic| still_step) => `(tactic| with_reducible exact still_directType _)
theorem still_funcOrAlias (n : List Char) : Still (funcOrAlias n) := by unfold funcOrAlias; still
macro_rules | `(tactic| still_step) => `(tactic| with_reducible exact still_funcOrAlias _)
theorem still_findSymbolType (n : List Char) : Still (findSymbolType n) := by unfold findSymbolType; still
macro_rules | `(tactic| still_step) => `(tactic| with_reducible exact still_findSymbolType _)
theorem still_reportExisting (ty : SymType) (sym : Symbol) : Still (reportExisting ty sym) := by unfold reportExisting; still
macro_rules | `(tactic| still_step) => `(tactic| with_reducible exact still_reportExisting _ _)
theorem still_tokenToType (ts : List Token) : Still (tokenToType ts) := by
  induction ts with
  | nil => exact still_ub
  | cons t rest ih => unfold tokenToType; still
macro_rules | `(tactic| still_step) => `(tactic| with_reducible exact still_tokenToType _)
theorem still_makeVariable (ty : Ty) (n : List Char) (c : Bool) : Still (makeVariable ty n c) := by unfold makeVariable; still
macro_rules | `(tactic| still_step) => `(tactic| with_reducible exact still_makeVariable _ _ _)
theorem still_isTopLvlScope : Still isTopLvlScope := by
  intro s; unfold isTopLvlScope
  split
  · trivial
  · exact Keep.refl s
  · split
    · trivial
    · exact Keep.refl s
macro_rules | `(tactic| still_step) => `(tactic| with_reducible exact still_isTopLvlScope)

theorem still_scopeFindVar (t : Token) : Still (scopeFindVar t) := by unfold scopeFindVar; still
macro_rules | `(tactic| still_step) => `(tactic| with_reducible exact still_scopeFindVar _)
theorem still_evalLit (t : Token) (e : Ev α) : Still (evalLit t e) := by unfold evalLit; still
macro_rules | `(tactic| still_step) => `(tactic| with_reducible exact still_evalLit _ _)
theorem still_toBytes (t : Token) (e : List Nat) : Still (toBytes t e) := by unfold toBytes; still
macro_rules | `(tactic| still_step) => `(tactic| with_reducible exact still_toBytes _ _)
theorem still_validateConst (cfg : Cfg) (t : Token) : Still (validateConst cfg t) := by unfold validateConst; still
macro_rules | `(tactic| still_step) => `(tactic| with_reducible exact still_validateConst _ _)
theorem still_isNumeric (e : AExpr) (t : Token) : Still (isNumeric e t) := by unfold isNumeric; still
macro_rules | `(tactic| still_step) => `(tactic| with_reducible exact still_isNumeric _ _)
theorem still_notDivByZero (e : AExpr) : Still (notDivByZero e) := by unfold notDivByZero; still
macro_rules | `(tactic| still_step) => `(tactic| with_reducible exact still_notDivByZero _)
theorem still_validatePow (e : AExpr) : Still (validatePow e) := by unfold validatePow; still
macro_rules | `(tactic| still_step) => `(tactic| with_reducible exact still_validatePow _)
theorem still_validateRestrictions (o : Oper) (e : AExpr) (t : Token) : Still (validateRestrictions o e t) := by
  unfold validateRestrictions; still
macro_rules | `(tactic| still_step) => `(tactic| with_reducible exact still_validateRestrictions _ _ _)
theorem still_exprType (o : Oper) (ty : Ty) : Still (exprType o ty) := by unfold exprType; still
macro_rules | `(tactic| still_step) => `(tactic| with_reducible exact still_exprType _ _)
theorem still_findFuncByToken (t : Token) : Still (findFuncByToken t) := by unfold findFuncByToken; still
macro_rules | `(tactic| still_step) => `(tactic| with_reducible exact still_findFuncByToken _)
theorem still_funcAt (i : Nat) : Still (funcAt i) := by unfold funcAt; still
macro_rules | `(tactic| still_step) => `(tactic| with_reducible exact still_funcAt _)
theorem still_checkCount (f : Func) (t : Token) (ps : Args) (n : Nat) : Still (checkCount f t ps n) := by unfold checkCount; still
macro_rules | `(tactic| still_step) => `(tactic| with_reducible exact still_checkCount _ _ _ _)
theorem still_operFits (b : Bool) : Still (operFits b) := by unfold operFits; still
macro_rules | `(tactic| still_step) => `(tactic| with_reducible exact still_operFits _)
theorem still_sameTypes (l r : AExpr) : Still (sameTypes l r) := by unfold sameTypes; still
macro_rules | `(tactic| still_step) => `(tactic| with_reducible exact still_sameTypes _ _)

mutual
theorem still_validateExpr (cfg : Cfg) : (e : Expr) → Still (validateExpr cfg e)
  | .missing => by unfold validateExpr; still
  | .ident t => by unfold validateExpr; still
  | .const t => by unfold validateExpr; still
  | .call name params num => by
    have ih := fun tys => still_validateArgs cfg tys params
    unfold validateExpr
    repeat' (first | (with_reducible refine still_bind ?_ (fun _ => ?_)) | exact ih _ | still_step | split)
  | .un o rhs => by
    have ih := still_validateExpr cfg rhs
    unfold validateExpr
    still
  | .bin o lhs rhs => by
    have ih := still_validateExpr cfg rhs
    have ih2 := still_validateExpr cfg lhs
    unfold validateExpr
    still
theorem still_validateArgs (cfg : Cfg) : (tys : List Ty) → (as : Args) → Still (validateArgs cfg tys as)
  | [], .nil => by unfold validateArgs; still
  | [], .cons .. => by unfold validateArgs; still
  | _ :: _, .nil => by unfold validateArgs; still
  | _ :: tys, .cons _ e next => by
    have ih := still_validateExpr cfg e
    have ih2 := still_validateArgs cfg tys next
    unfold validateArgs
    still
end
macro_rules | `(tactic| still_step) => `(tactic| with_reducible exact still_validateExpr _ _)

theorem still_warn (cfg : Cfg) (c : Code) (t : Option Token) : Still (warn cfg c t) := by unfold warn; still
macro_rules | `(tactic| still_step) => `(tactic| with_reducible exact still_warn _ _ _)
theorem still_assertSaneChild (t : Tree) : Still (assertSaneChild t) := by unfold assertSaneChild; still
macro_rules | `(tactic| still_step) => `(tactic| with_reducible exact still_assertSaneChild _)
theorem still_noDeadCodeBelow (t : Tree) : Still (noDeadCodeBelow t) := by
  induction t with
  | nil => unfold noDeadCodeBelow; still
  | node s a b c n _ ih => unfold noDeadCodeBelow; still
macro_rules | `(tactic| still_step) => `(tactic| with_reducible exact still_noDeadCodeBelow _)
theorem still_needIf (b : List Stmt) (t : List Token) : Still (needIf b t) := by unfold needIf; still
macro_rules | `(tactic| still_step) => `(tactic| with_reducible exact still_needIf _ _)
theorem still_validateCond (cfg : Cfg) (e : AExpr) : Still (validateCond cfg e) := by unfold validateCond; still
macro_rules | `(tactic| still_step) => `(tactic| with_reducible exact still_validateCond _ _)
theorem still_needBlock (c : Tree) (t : List Token) : Still (needBlock c t) := by unfold needBlock; still
macro_rules | `(tactic| still_step) => `(tactic| with_reducible exact still_needBlock _ _)
theorem still_checkReturn (b : Bool) (f : Func) (e : Option AExpr) (t : List Token) : Still (checkReturn b f e t) := by
  unfold checkReturn; still
macro_rules | `(tactic| still_step) => `(tactic| with_reducible exact still_checkReturn _ _ _ _)
theorem still_validateOptExpr (cfg : Cfg) (e : Expr) : Still (validateOptExpr cfg e) := by unfold validateOptExpr; still
macro_rules | `(tactic| still_step) => `(tactic| with_reducible exact still_validateOptExpr _ _)
theorem still_validateReturn (cfg : Cfg) (e : Expr) (t : List Token) (n : Tree) : Still (validateReturn cfg e t n) := by
  unfold validateReturn; still
macro_rules | `(tactic| still_step) => `(tactic| with_reducible exact still_validateReturn _ _ _ _)
theorem still_linkageName (cfg : Cfg) (b : Bool) (n : List Char) : Still (linkageName cfg b n) := by unfold linkageName; still
macro_rules | `(tactic| still_step) => `(tactic| with_reducible exact still_linkageName _ _ _)
theorem still_notVoidFuncAssign (e : AExpr) : Still (notVoidFuncAssign e) := by unfold notVoidFuncAssign; still
macro_rules | `(tactic| still_step) => `(tactic| with_reducible exact still_notVoidFuncAssign _)
theorem still_declaredType (b : Bool) (e : AExpr) (n : List Token) : Still (declaredType b e n) := by unfold declaredType; still
macro_rules | `(tactic| still_step) => `(tactic| with_reducible exact still_declaredType _ _ _)
theorem still_compatible (e : AExpr) (ty : Ty) : Still (compatible e ty) := by unfold compatible; still
macro_rules | `(tactic| still_step) => `(tactic| with_reducible exact still_compatible _ _)
theorem still_varAt (i : Nat) : Still (varAt i) := by unfold varAt; still
macro_rules | `(tactic| still_step) => `(tactic| with_reducible exact still_varAt _)
theorem still_warnTrivial (cfg : Cfg) (e : AExpr) (b : Bool) : Still (warnTrivial cfg e b) := by unfold warnTrivial; still
macro_rules | `(tactic| still_step) => `(tactic| with_reducible exact still_warnTrivial _ _ _)
theorem still_notRedundant (e : AExpr) (i : Nat) : Still (notRedundant e i) := by unfold notRedundant; still
macro_rules | `(tactic| still_step) => `(tactic| with_reducible exact still_notRedundant _ _)
theorem still_validateVarAssign (cfg : Cfg) (e : Expr) (t : List Token) : Still (validateVarAssign cfg e t) := by
  unfold validateVarAssign; still
macro_rules | `(tactic| still_step) => `(tactic| with_reducible exact still_validateVarAssign _ _ _)
theorem still_validateReturnType (o : Option (List Token)) : Still (validateReturnType o) := by unfold validateReturnType; still
macro_rules | `(tactic| still_step) => `(tactic| with_reducible exact still_validateReturnType _)
theorem still_notNested (p : FuncProto) : Still (notNested p) := by unfold notNested; still
macro_rules | `(tactic| still_step) => `(tactic| with_reducible exact still_notNested _)
theorem still_checkReturns (f : Func) (t : Tree) : Still (checkReturns f t) := by unfold checkReturns; still
macro_rules | `(tactic| still_step) => `(tactic| with_reducible exact still_checkReturns _ _)
theorem still_leaveFunc : Still leaveFunc := by
  intro s; unfold leaveFunc
  split
  · trivial
  · rename_i l hl
    exact ⟨.refl _, fun h => ⟨h.2 l hl, h.2⟩, fun h => h⟩
macro_rules | `(tactic| still_step) => `(tactic| with_reducible exact still_leaveFunc)
theorem still_postValidateFunc (t : Tree) : Still (postValidateFunc t) := by unfold postValidateFunc; still
macro_rules | `(tactic| still_step) => `(tactic| with_reducible exact still_postValidateFunc _)
theorem still_validateImport (cfg : Cfg) (t : List Token) : Still (validateImport cfg t) := by unfold validateImport; still
macro_rules | `(tactic| still_step) => `(tactic| with_reducible exact still_validateImport _ _)
theorem still_setDepth (d : Nat) : Still (setDepth d) := fun _ => .same rfl rfl rfl
macro_rules | `(tactic| still_step) => `(tactic| with_reducible exact still_setDepth _)
theorem still_validateJump (c : Code) (t : List Token) (n : Tree) : Still (validateJump c t n) := by unfold validateJump; still
macro_rules | `(tactic| still_step) => `(tactic| with_reducible exact still_validateJump _ _ _)
theorem still_condition (cfg : Cfg) (e : Expr) : Still (condition cfg e) := by unfold condition; still
macro_rules | `(tactic| still_step) => `(tactic| with_reducible exact still_condition _ _)

/- ### Scopes -/

theorem still_currentScope : Still currentScope := by
  intro s; unfold currentScope; split
  · exact Keep.refl s
  · exact .same rfl rfl rfl
macro_rules | `(tactic| still_step) => `(tactic| with_reducible exact still_currentScope)
theorem still_addToScope (i : Nat) (n : List Char) (id : Nat) : Still (addToScope i n id) := by
  intro s; unfold addToScope
  repeat' split
  all_goals first | trivial | exact .same rfl rfl rfl
macro_rules | `(tactic| still_step) => `(tactic| with_reducible exact still_addToScope _ _ _)
theorem still_symbolAlreadyExists (sym : Symbol) : Still (symbolAlreadyExists sym) := by unfold symbolAlreadyExists; still
macro_rules | `(tactic| still_step) => `(tactic| with_reducible exact still_symbolAlreadyExists _)
theorem still_scopeAddSymbol (id : Nat) : Still (scopeAddSymbol id) := by unfold scopeAddSymbol; still
macro_rules | `(tactic| still_step) => `(tactic| with_reducible exact still_scopeAddSymbol _)
theorem still_scopeAddVar (id : Nat) : Still (scopeAddVar id) := by unfold scopeAddVar; still
macro_rules | `(tactic| still_step) => `(tactic| with_reducible exact still_scopeAddVar _)
theorem still_mustAdd (id : Nat) : Still (mustAdd id) := by unfold mustAdd; still
macro_rules | `(tactic| still_step) => `(tactic| with_reducible exact still_mustAdd _)
theorem still_parentScope : Still parentScope := by
  intro s; unfold parentScope; split
  · exact Keep.refl s
  · exact .same rfl rfl rfl
macro_rules | `(tactic| still_step) => `(tactic| with_reducible exact still_parentScope)
theorem still_enterChild (i : Nat) : Still (enterChild i) := by
  intro s; unfold enterChild
  repeat' split
  all_goals first | trivial | exact .same rfl rfl rfl
macro_rules | `(tactic| still_step) => `(tactic| with_reducible exact still_enterChild _)
theorem still_makeChildScope : Still makeChildScope := by unfold makeChildScope; still
macro_rules | `(tactic| still_step) => `(tactic| with_reducible exact still_makeChildScope)
theorem still_makeAdjacentScope : Still makeAdjacentScope := by
  intro s; unfold makeAdjacentScope
  repeat' split
  all_goals first | trivial | exact .same rfl rfl rfl
macro_rules | `(tactic| still_step) => `(tactic| with_reducible exact still_makeAdjacentScope)
theorem still_resetScopeHead : Still resetScopeHead := by
  intro s; unfold resetScopeHead
  repeat' split
  all_goals first | trivial | exact .same rfl rfl rfl
macro_rules | `(tactic| still_step) => `(tactic| with_reducible exact still_resetScopeHead)
theorem still_toParent : Still toParent := by
  intro s; unfold toParent
  repeat' split
  all_goals first | trivial | exact .same rfl rfl rfl
macro_rules | `(tactic| still_step) => `(tactic| with_reducible exact still_toParent)
theorem still_restoreParentScope : Still restoreParentScope := by unfold restoreParentScope; still
macro_rules | `(tactic| still_step) => `(tactic| with_reducible exact still_restoreParentScope)

/- ### Statements -/

theorem still_validateTypeAlias (b : Bool) (e : Expr) (t : List Token) : Still (validateTypeAlias b e t) := by
  unfold validateTypeAlias; still
macro_rules | `(tactic| still_step) => `(tactic| with_reducible exact still_validateTypeAlias _ _ _)
theorem still_nodeToVar (cfg : Cfg) (n : List Token) (a b c : Bool) (e : AExpr) : Still (nodeToVar cfg n a b c e) := by
  unfold nodeToVar; still
macro_rules | `(tactic| still_step) => `(tactic| with_reducible exact still_nodeToVar _ _ _ _ _ _)
theorem still_validateVar (cfg : Cfg) (n : List Token) (a b c : Bool) (e : Expr) : Still (validateVar cfg n a b c e) := by
  unfold validateVar; still
macro_rules | `(tactic| still_step) => `(tactic| with_reducible exact still_validateVar _ _ _ _ _ _)
theorem still_validateVarDef (cfg : Cfg) (n : List Token) (a b c : Bool) (e : Expr) (t t' : List Token) :
    Still (validateVarDef cfg n a b c e t t') := by
  unfold validateVarDef; still
macro_rules | `(tactic| still_step) => `(tactic| with_reducible exact still_validateVarDef _ _ _ _ _ _ _ _)
theorem still_validateParams (x : Bool) (ps : List Param) : Still (validateParams x ps) := by
  induction ps with
  | nil => unfold validateParams; still
  | cons p ps ih => unfold validateParams; still
macro_rules | `(tactic| still_step) => `(tactic| with_reducible exact still_validateParams _ _)
theorem still_validateFuncParams (p : FuncProto) (id : Nat) : Still (validateFuncParams p id) := by
  unfold validateFuncParams; still
macro_rules | `(tactic| still_step) => `(tactic| with_reducible exact still_validateFuncParams _ _)
theorem still_block {nodes : Chk ATree} (h : Still nodes) : Still (block nodes) := by unfold block; still

theorem still_enter {s : SS} {id : Nat} (h : FuncSym s id) {a s'} (he : enterFunc id s = .ok a s') : Keep s s' := by
  unfold enterFunc at he
  cases he
  refine ⟨.refl _, fun hf => ⟨h, fun l hl => ?_⟩, fun _ => rfl⟩
  cases hl
  exact hf.1

theorem still_decl {sym : Symbol} (hs : sym.kind.symType = .func) {f : Nat → Chk α} (hf : ∀ id, Still (f id)) :
    Still (newSym sym >>= fun id => enterFunc id >>= fun _ => f id) := by
  intro s
  rw [bind_of _ (newSym_eq _ _)]
  have h1 : Keep s (s.push sym) := (still_newSym _).ok (newSym_eq sym s)
  have h2 : enterFunc s.syms.length (s.push sym) = .ok () _ := rfl
  rw [bind_of _ h2]
  exact (hf _ _).mono fun s' h => (h1.trans (still_enter ⟨_, push_get _ _, hs⟩ h2)).trans h

theorem still_validateFuncDecl (cfg : Cfg) (p : FuncProto) : Still (validateFuncDecl cfg p) := by
  unfold validateFuncDecl
  refine still_bind (still_notNested _) fun _ => still_bind (still_validateReturnType _) fun ret => still_bind (still_tokName _) fun str =>
    still_bind (still_linkageName _ _ _) fun link => ?_
  exact still_decl rfl fun id => still_bind (still_mustAdd _) fun _ => still_bind (still_validateFuncParams _ _) fun _ => still_pure _
macro_rules | `(tactic| still_step) => `(tactic| with_reducible exact still_validateFuncDecl _ _)

theorem declareNs_ok {tok : List Token} {s s' : SS} {id} (h : declareNamespace tok s = .ok id s') :
    Keep s s' ∧ ∃ sym, s'.syms[id]? = some sym ∧ sym.kind.symType = .ns := by
  have hk : Keep s s' := Still.ok (by unfold declareNamespace; still) h
  refine ⟨hk, ?_⟩
  unfold declareNamespace at h
  replace h := bind_ok.1 h
  obtain ⟨t, s₂, h2, h1⟩ := h
  replace h1 := bind_ok.1 h1
  obtain ⟨x, s₃, h3, h1⟩ := h1
  rw [bind_of _ (newSym_eq _ _)] at h1
  replace h1 := bind_ok_unit.1 h1
  obtain ⟨s₄, h4, h1⟩ := h1
  cases h1
  obtain ⟨sym, g1, g2⟩ := ((still_mustAdd _).ok h4).kinds _ _ (push_get _ _)
  exact ⟨sym, g1, g2.kind⟩

theorem still_ns {nodes : Chk ATree} (h : Still nodes) (tok : List Token) : Still (do
    let id ← declareNamespace tok
    let body ← block nodes
    closeNamespace id
    pure (Ann.ns id, body)) := by
  intro s
  show Then (Chk.bind _ _ s) _
  unfold Chk.bind
  cases e : declareNamespace tok s with
  | fail => trivial
  | ub => trivial
  | ok id s₁ =>
    obtain ⟨k1, sym, g1, g2⟩ := declareNs_ok e
    show Then (Chk.bind _ _ s₁) _
    unfold Chk.bind
    cases e2 : block nodes s₁ with
    | fail => trivial
    | ub => trivial
    | ok body s₂ =>
      have k2 := (still_block h).ok e2
      obtain ⟨sym', g3, g4⟩ := k2.kinds _ _ g1
      refine Then.mono ?_ fun s' h => (k1.trans k2).trans h
      show Then (Chk.bind _ _ s₂) _
      unfold Chk.bind closeNamespace
      cases blockScope s₂ with
      | none => trivial
      | some sc =>
        simp only [updSym_eq _ g3]
        refine .of (fun j sym₁ hj => ?_) rfl rfl
        show ∃ sym'', (s₂.syms.set id _)[j]? = some sym'' ∧ _
        by_cases hij : id = j
        · subst hij
          rw [g3] at hj
          cases hj
          refine ⟨_, getElem?_set_self' g3, by rw [g4.kind, g2]; rfl, rfl, fun f hf => ?_⟩
          have := g4.kind.trans g2
          rw [hf] at this
          cases this
        · rw [List.getElem?_set_ne hij]
          exact ⟨sym₁, hj, .refl _⟩

theorem still_stmt (cfg : Cfg) (before : List Stmt) (stmt : Stmt) (tok te : List Token) (child next : Tree) {nodes : Chk ATree}
    (h : Still nodes) : Still (validateStmt cfg before stmt tok te child next nodes) := by
  have hb := still_block h
  have hn := still_ns h tok
  unfold validateStmt
  repeat' (first | assumption | (with_reducible refine still_bind ?_ (fun _ => ?_)) | still_step | split)

theorem still_nodes (cfg : Cfg) : ∀ (t : Tree) (before : List Stmt), Still (validateNodes cfg before t)
  | .nil, before => by unfold validateNodes; still
  | .node stmt tok te child next, before => by
    have h1 := still_stmt cfg before stmt tok te child next (still_nodes cfg child [])
    have h2 := still_nodes cfg next (stmt :: before)
    unfold validateNodes
    still

end Skull.SemDef
