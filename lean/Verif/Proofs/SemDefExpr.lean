import Verif.Proofs.SemDefTokens
import Verif.Proofs.SemDefFuncs
import Verif.Spec.Defined
/-
Where the check of an expression, a type or a name is defined.
-/
namespace Skull.SemDef

open Skull.Spec

theorem def_bind {m : Chk α} {f : α → Chk β} {s : SS} (h : m s ≠ .ub) (hf : ∀ a s', m s = .ok a s' → f a s' ≠ .ub) :
    (m >>= f) s ≠ .ub := by
  show Chk.bind m f s ≠ .ub
  unfold Chk.bind
  cases e : m s with
  | ok a s' => exact hf a s' e
  | fail => simp
  | ub => exact absurd e h

theorem def_of {m : Chk α} {s : SS} {a s'} (h : m s = .ok a s') : m s ≠ .ub := by rw [h]; simp

theorem def_pure (a : α) (s : SS) : (pure a : Chk α) s ≠ .ub := by simp [pure_def]
theorem def_stop (s : SS) : (Chk.stop : Chk α) s ≠ .ub := by simp [Chk.stop]
theorem def_error (c : Code) (t : Option Token) (s : SS) : (Chk.error c t : Chk α) s ≠ .ub := by simp [Chk.error]
theorem def_report (c : Code) (t : Option Token) (s : SS) : report c t s ≠ .ub := by simp [report]
theorem def_headTok {l : List Token} (h : l ≠ []) (s : SS) : headTok l s ≠ .ub := by
  cases l with
  | nil => exact absurd rfl h
  | cons => simp [headTok, pure_def]

theorem def_failTok {l : List Token} {code : Code} (h : l ≠ []) (s : SS) :
    (do let t ← headTok l; Chk.error code t : Chk α) s ≠ .ub :=
  def_bind (def_headTok h s) fun _ _ _ => def_error _ _ _

theorem def_warn (cfg : Cfg) (c : Code) (t : Option Token) (s : SS) : warn cfg c t s ≠ .ub := by
  refine def_bind (def_report _ _ _) fun _ _ _ => ?_
  split
  · exact def_stop _
  · exact def_pure _ _

/-- The token has a text. -/
def Spelled (t : Token) : Prop := ∃ x, Text t x

theorem def_tokName {t : Token} (h : Spelled t) (s : SS) : tokName t s ≠ .ub := by
  obtain ⟨x, h⟩ := h
  exact def_of (tokName_eq s h)

theorem def_findVar {s B E t} (hi : SInv s B E none) (ht : Spelled t) (hv : VarFits E t) : scopeFindVar t s ≠ .ub := by
  obtain ⟨x, ht⟩ := ht
  unfold scopeFindVar
  rw [bind_of _ (tokName_eq s ht), bind_of _ (lookup_eq hi x)]
  cases hr : E.resolve x with
  | none => exact def_error _ _ _
  | some id =>
    obtain ⟨sym, d, h1, h2, h3, h4⟩ := hi.found hr
    simp only
    rw [bind_of _ (symAt_eq h1)]
    cases hk : sym.kind with
    | var v =>
      simp only
      split
      · exact def_pure _ _
      · exact def_error _ _ _
    | alias => exact def_error _ _ _
    | func f =>
      rw [hk] at h4
      cases h4
      exact absurd h2 ((hv x ht).1 _ _)
    | ns o =>
      rw [hk] at h4
      cases h4 <;> exact absurd h2 ((hv x ht).2 _)

theorem def_findFunc {s B E t} (hi : SInv s B E none) (ht : Spelled t) : findFuncByToken t s ≠ .ub := by
  obtain ⟨x, ht⟩ := ht
  unfold findFuncByToken
  obtain ⟨o, ho⟩ : ∃ o, findFuncByName x s = .ok o s := ⟨_, findFuncByName_eq hi x⟩
  rw [bind_of _ (tokName_eq s ht), bind_of _ ho]
  cases o with
  | none => exact def_error _ _ _
  | some id => exact def_pure _ _

/-- The value of a literal is defined. -/
def LitSafe (cfg : Cfg) (t : Token) : Prop := ∀ s, validateConst cfg t s ≠ .ub

mutual
/-- Nothing in an expression is undefined, names aside. -/
def ExprSafe (cfg : Cfg) : Expr → Prop
  | .missing => False
  | .ident t => Spelled t
  | .const t => LitSafe cfg t
  | .call n args _ => Spelled n ∧ ArgsSafe cfg args
  | .un o e => isPrefixOper o = true ∧ ExprSafe cfg e
  | .bin o l r => isInfixOper o = true ∧ ExprSafe cfg l ∧ ExprSafe cfg r
def ArgsSafe (cfg : Cfg) : Args → Prop
  | .nil => True
  | .cons _ e next => ExprSafe cfg e ∧ ArgsSafe cfg next
end

theorem def_count (f : Func) (n : Token) (args : Args) (num : Nat) (s : SS) : checkCount f n args num s ≠ .ub := by
  unfold checkCount
  repeat' split
  all_goals first | exact def_error _ _ _ | exact def_pure _ _

theorem def_numeric (r : AExpr) (t : Token) (s : SS) : isNumeric r t s ≠ .ub := by
  unfold isNumeric
  split
  · exact def_pure _ _
  · exact def_error _ _ _

theorem def_divByZero {E e a} (ha : Anno E e a) (s : SS) : notDivByZero a s ≠ .ub := by
  cases e <;> cases a <;> first | (cases ha; done) | skip
  case const.const t t' v =>
    obtain ⟨rfl, h⟩ := ha
    unfold notDivByZero
    simp only
    split
    · rename_i hty
      obtain ⟨i, hi⟩ := h hty
      rw [hi]
      simp only
      split
      · exact def_error _ _ _
      · exact def_pure _ _
    · exact def_pure _ _
  all_goals exact def_pure _ _

theorem def_restrictions {E e a} (ha : Anno E e a) (o : Oper) (t : Token) (s : SS) : validateRestrictions o a t s ≠ .ub := by
  unfold validateRestrictions
  split
  all_goals first
    | exact def_numeric _ _ _
    | exact def_pure _ _
    | exact def_bind (def_divByZero ha _) fun _ _ _ => def_numeric _ _ _
    | (refine def_bind ?_ fun _ _ _ => def_numeric _ _ _
       unfold validatePow
       split
       · exact def_error _ _ _
       · exact def_pure _ _)
    | (split
       · exact def_error _ _ _
       · exact def_pure _ _)
    | (cases a <;> first | exact def_error _ _ _ | (generalize AExpr.type _ = ty; cases ty; exact def_error _ _ _; exact def_pure _ _))

theorem def_exprType {o : Oper} {ty : Ty} (h : o = .deref → ∃ τ, ty = .ref τ) (s : SS) : exprType o ty s ≠ .ub := by
  unfold exprType
  split
  all_goals first
    | exact def_pure _ _
    | (obtain ⟨τ, rfl⟩ := h rfl
       exact def_pure _ _)

theorem def_sameTypes (l r : AExpr) (s : SS) : sameTypes l r s ≠ .ub := by
  unfold sameTypes
  split
  · exact def_error _ _ _
  · exact def_pure _ _

theorem def_operFits {b : Bool} (h : b = true) (s : SS) : operFits b s ≠ .ub := by
  rw [h]; exact def_pure _ _

mutual

theorem expr_defined {cfg : Cfg} {W : World} (hW : W.strtod = cfg.strtod) {B E} : ∀ (e : Expr) (s : SS), SInv s B E none →
    Expr.Counted e → ExprSafe cfg e → (∀ u, SubExpr (.ident u) e → VarFits E u) → validateExpr cfg e s ≠ .ub
  | .missing, s, _, _, hs, _ => hs.elim
  | .ident t, s, hi, _, hs, hv => by
    simp only [validateExpr]
    refine def_bind (def_findVar hi hs (hv t .here)) fun p s₁ h1 => ?_
    obtain ⟨rfl, x, sym, _, _, _, h5, _⟩ := scopeFindVar_sound hi (id := p.1) (v := p.2) h1
    obtain ⟨s₂, h6, _⟩ := updVar_flag (f := fun v => { v with wasRead := true }) h5 (fun v => rfl)
    show (updVar p.1 (fun v => { v with wasRead := true }) >>= _) s₁ ≠ .ub
    rw [bind_of _ h6]
    exact def_pure _ _
  | .const t, s, _, _, hs, _ => by
    simp only [validateExpr]
    exact def_bind (hs s) fun _ _ _ => def_pure _ _
  | .call n args num, s, hi, hc, hs, hv => by
    simp only [validateExpr]
    refine def_bind (def_findFunc hi hs.1) fun id s₁ h1 => ?_
    obtain ⟨rfl, x, sym, f, ps, _, _, _, h2, h3, h4, h5⟩ := findFunc_sound hi h1
    rw [bind_of _ (funcAt_eq h2 h3)]
    obtain ⟨s₂, h6, hq⟩ := updFunc_flag (f := fun f => { f with wasCalled := true }) h2 (fun v => rfl)
    rw [bind_of _ h6]
    refine def_bind (def_count _ _ _ _ _) fun _ s₃ h7 => ?_
    rw [checkCount_ok hc] at h7
    obtain ⟨h7, rfl⟩ := h7
    refine def_bind ?_ fun _ _ _ => def_pure _ _
    refine args_defined hW args f.paramTypes _ (hi.quiet hq) ?_ hs.2 fun u hu => hv u (.arg hu)
    rw [h4, ← h5, h7]
    exact hc
  | .un o e, s, hi, hc, hs, hv => by
    simp only [validateExpr]
    refine def_bind (def_operFits hs.1 s) fun _ s₁ h0 => ?_
    rw [operFits_ok] at h0
    obtain ⟨_, rfl⟩ := h0
    refine def_bind (expr_defined hW e _ hi hc hs.2 fun u hu => hv u (.un hu)) fun r s₂ h1 => ?_
    obtain ⟨_, ha, hq⟩ := expr_sound hW e _ _ _ h1 hi hc
    refine def_bind (def_restrictions ha _ _ _) fun _ s₃ h2 => ?_
    refine def_bind (def_exprType (fun ho => ?_) _) fun _ _ _ => def_pure _ _
    subst ho
    exact ((derefRule ha).1 h2).1.2
  | .bin o l r, s, hi, hc, hs, hv => by
    simp only [validateExpr]
    refine def_bind (def_operFits hs.1 s) fun _ s₁ h0 => ?_
    rw [operFits_ok] at h0
    obtain ⟨_, rfl⟩ := h0
    refine def_bind (expr_defined hW r _ hi hc.2 hs.2.2 fun u hu => hv u (.right hu)) fun ra s₂ h1 => ?_
    obtain ⟨_, ha, hq⟩ := expr_sound hW r _ _ _ h1 hi hc.2
    refine def_bind (expr_defined hW l _ (hi.quiet hq) hc.1 hs.2.1 fun u hu => hv u (.left hu)) fun la s₃ h2 => ?_
    refine def_bind (def_sameTypes _ _ _) fun _ s₄ h3 => ?_
    refine def_bind (def_restrictions ha _ _ _) fun _ s₅ h4 => ?_
    refine def_bind (def_exprType (fun ho => ?_) _) fun _ _ _ => def_pure _ _
    subst ho
    exact absurd hs.1 (by decide)

theorem args_defined {cfg : Cfg} {W : World} (hW : W.strtod = cfg.strtod) {B E} : ∀ (args : Args) (ps : List Ty) (s : SS),
    SInv s B E none → Args.Counted args ps.length → ArgsSafe cfg args → (∀ u, SubArgs (.ident u) args → VarFits E u) →
    validateArgs cfg ps args s ≠ .ub
  | .nil, [], s, _, _, _, _ => by simp only [validateArgs]; exact def_pure _ _
  | .nil, _ :: _, s, _, hc, _, _ => by simp [Args.Counted] at hc
  | .cons _ _ _, [], s, _, _, _, _ => by simp only [validateArgs]; exact def_pure _ _
  | .cons first e next, ty :: tys, s, hi, hc, hs, hv => by
    simp only [validateArgs]
    obtain ⟨hc1, n, hn, hc2⟩ := hc
    refine def_bind (expr_defined hW e _ hi hc1 hs.1 fun u hu => hv u (.here hu)) fun a s₁ h1 => ?_
    obtain ⟨_, ha, hq⟩ := expr_sound hW e _ _ _ h1 hi hc1
    split
    · exact def_error _ _ _
    · refine def_bind (args_defined hW next tys _ (hi.quiet hq) ?_ hs.2 fun u hu => hv u (.next hu)) fun _ _ _ => def_pure _ _
      simp only [List.length_cons, Nat.add_right_cancel_iff] at hn
      rw [hn]
      exact hc2

end

/- ### Types and names -/

/-- The tokens begin with a type, or with no type. -/
def Typed (l : List Token) : Prop := (∀ t ∈ l, Spelled t) ∧ ∃ t ∈ l, t.ty ≠ .operRef

theorem def_type {s B E pend} (hi : SInv s B E pend) : ∀ {l : List Token}, Typed l → tokenToType l s ≠ .ub
  | [], h => by obtain ⟨_, t, h, _⟩ := h; cases h
  | t :: rest, h => by
    unfold tokenToType
    split
    · obtain ⟨x, hx⟩ := h.1 t (.head _)
      rw [bind_of _ (tokName_eq s hx), findType_eq hi]
      simp
    · split
      · rename_i hr
        refine def_bind (def_type hi ⟨fun u hu => h.1 u (.tail _ hu), ?_⟩) fun _ _ _ => def_pure _ _
        obtain ⟨u, hu, hne⟩ := h.2
        cases hu with
        | head => exact absurd hr hne
        | tail _ hu => exact ⟨u, hu, hne⟩
      · exact def_pure _ _

theorem def_scopeAdd {s B E pend id sym} (hi : SInv s B E pend) (hs : s.syms[id]? = some sym) : scopeAddSymbol id s ≠ .ub := by
  obtain ⟨k, h1, h2⟩ := findSymbolType_eq hi sym.name
  by_cases hf : E.Free sym.name
  · obtain ⟨s', ok, h, _⟩ := scopeAdd_free hi hs hf
    exact def_of h
  · unfold scopeAddSymbol
    rw [bind_of _ (symAt_eq hs)]
    refine def_bind ?_ fun b s₁ h3 => ?_
    · unfold symbolAlreadyExists
      rw [bind_of _ h1]
      split
      · exact def_pure _ _
      · refine def_bind ?_ fun _ _ _ => def_pure _ _
        unfold reportExisting
        repeat' split
        all_goals first | exact def_report _ _ _ | exact def_pure _ _
    · cases b with
      | true => exact def_pure _ _
      | false =>
        exfalso
        unfold symbolAlreadyExists at h3
        rw [bind_of _ h1] at h3
        rw [if_neg (fun h => hf (h2.1 h))] at h3
        obtain ⟨_, _, _, h⟩ := bind_ok.1 h3
        cases h

theorem def_mustAdd {s B E pend id sym} (hi : SInv s B E pend) (hs : s.syms[id]? = some sym) : mustAdd id s ≠ .ub := by
  unfold mustAdd
  refine def_bind (def_scopeAdd hi hs) fun b _ _ => ?_
  split
  · exact def_pure _ _
  · exact def_stop _

/-- The token is a name that variables may have, and that can be exported. -/
def Named (cfg : Cfg) (t : Token) : Prop := ∃ x, Text t x ∧ VarName x ∧ mangleName cfg.filename x ≠ none

theorem Named.spelled {cfg t} (h : Named cfg t) : Spelled t := ⟨_, h.choose_spec.1⟩

theorem def_makeVariable {ty x c} (h : VarName x) (s : SS) : makeVariable ty x c s ≠ .ub :=
  def_of (makeVariable_ok.2 ⟨h, rfl, rfl⟩)

theorem def_linkage {cfg : Cfg} {x} (h : mangleName cfg.filename x ≠ none) (b : Bool) (s : SS) : linkageName cfg b x s ≠ .ub := by
  unfold linkageName
  cases b with
  | false => exact def_pure _ _
  | true =>
    cases e : mangleName cfg.filename x with
    | none => exact absurd e h
    | some y => exact def_pure _ _

end Skull.SemDef
