import Verif.Proofs.Elab
import Verif.Proofs.SemDefFuncs
import Verif.Proofs.SemDet
import Verif.Proofs.ParsePlaced
/-
What the check makes of expressions belongs to them.
-/
namespace Skull.Elab
open Skull.Spec

theorem decl_at {E : Env} {x id d} (h : E.decl x = some d) (hr : E.resolve x = some id) : E.decls[id]? = some d := by
  unfold Env.decl at h
  rw [hr] at h
  exact h

theorem const_el {cfg : Cfg} {W : World} (hW : W.strtod = cfg.strtod) {t v} {s s' : SS} (h : validateConst cfg t s = .ok v s') :
    litVal W.strtod t = some (.ofConst v, v.type) := by
  unfold validateConst at h
  unfold litVal
  cases ht : t.ty <;> simp only [ht] at h ⊢ <;> first | (cases h; done) | skip
  case intConst =>
    replace h := bind_ok.1 h
    obtain ⟨i, s₁, h1, h⟩ := h
    replace h1 := evalLit_ok.1 h1
    cases h
    rw [h1.1]
    rfl
  case floatConst =>
    replace h := bind_ok.1 h
    obtain ⟨i, s₁, h1, h⟩ := h
    replace h1 := evalLit_ok.1 h1
    cases h
    rw [hW, h1.1]
    rfl
  case boolConst => cases h; rfl
  case runeConst =>
    replace h := bind_ok.1 h
    obtain ⟨i, s₁, h1, h⟩ := h
    replace h1 := evalLit_ok.1 h1
    cases h
    rw [h1.1]
    rfl
  case strConst =>
    replace h := bind_ok.1 h
    obtain ⟨str, s₁, h1, h⟩ := h
    replace h1 := evalLit_ok.1 h1
    obtain ⟨h1, rfl⟩ := h1
    unfold toBytes at h
    split at h
    · cases h
      cases he : evalStr t with
      | none => rw [he] at h1; cases h1
      | some r =>
        rw [he] at h1
        simp only [Option.getD_some] at h1
        subst h1
        rfl
    · cases h

theorem exprType_el {o : Oper} {τ ty : Ty} {s s' : SS} (h : exprType o τ s = .ok ty s') : ty = operType o τ := by
  unfold exprType at h
  cases o <;> simp only at h <;> first | (cases h; rfl) | skip
  case deref =>
    cases τ with
    | ref i => cases h; rfl
    | prim => cases h

mutual
theorem expr_el {cfg : Cfg} {W : World} (hW : W.strtod = cfg.strtod) {B E} : ∀ (e : Expr) (s : SS) (a : AExpr) (s' : SS),
    validateExpr cfg e s = .ok a s' → SInv s B E none → Expr.Counted e → ElE W E e a
  | .missing, s, a, s', h, _, _ => by simp [validateExpr, Chk.ub] at h
  | .ident t, s, a, s', h, hi, _ => by
    simp only [validateExpr] at h
    replace h := bind_ok.1 h
    obtain ⟨⟨id, v⟩, s₁, h1, h⟩ := h
    have h1 := scopeFindVar_sound hi h1
    obtain ⟨rfl, x, sym, h2, h3, h4, h5, h6⟩ := h1
    simp only at h
    obtain ⟨s₂, h7, h8⟩ := updVar_flag (f := fun v => { v with wasRead := true }) h5 (fun v => rfl)
    rw [bind_of _ h7] at h
    cases h
    exact .ident h2 h3 (decl_at h4 h3)
  | .const t, s, a, s', h, _, _ => by
    simp only [validateExpr] at h
    replace h := bind_ok.1 h
    obtain ⟨v, s₁, h1, h⟩ := h
    cases h
    exact .const (const_el hW h1)
  | .call n params num, s, a, s', h, hi, hc => by
    simp only [validateExpr] at h
    replace h := bind_ok.1 h
    obtain ⟨id, s₁, h1, h⟩ := h
    have h1 := findFunc_sound hi h1
    obtain ⟨rfl, x, sym, f, ps, h2, h3, h4, h5, h6, h7, h8⟩ := h1
    rw [bind_of _ (funcAt_eq h5 h6)] at h
    obtain ⟨s₂, h9, h10⟩ := updFunc_flag (f := fun f => { f with wasCalled := true }) h5 (fun v => rfl)
    rw [bind_of _ h9] at h
    have hc : Args.Counted params num := by simpa only [Expr.Counted] using hc
    replace h := bind_ok_unit.1 h
    obtain ⟨s₃, h11, h⟩ := h
    rw [checkCount_ok hc] at h11
    obtain ⟨h11, rfl⟩ := h11
    replace h := bind_ok.1 h
    obtain ⟨as, s₄, h12, h⟩ := h
    cases h
    have h12 := args_el hW params ps _ _ _ (h7 ▸ h12) (hi.quiet h10) (by rw [← h8, h11]; exact hc)
    exact .call h2 h3 (decl_at h4 h3) h12
  | .un o e, s, a, s', h, hi, hc => by
    simp only [validateExpr] at h
    replace h := bind_ok_unit.1 h
    obtain ⟨s₀, h0, h⟩ := h
    rw [operFits_ok] at h0
    obtain ⟨h0, rfl⟩ := h0
    replace h := bind_ok.1 h
    obtain ⟨r, s₁, h1, h⟩ := h
    have hc : Expr.Counted e := by simpa only [Expr.Counted] using hc
    have h1 := expr_el hW e _ _ _ h1 hi hc
    replace h := bind_ok_unit.1 h
    obtain ⟨s₂, h2, h⟩ := h
    replace h := bind_ok.1 h
    obtain ⟨ty, s₃, h3, h⟩ := h
    cases h
    rw [exprType_el h3]
    exact .un h1
  | .bin o l r, s, a, s', h, hi, hc => by
    simp only [validateExpr] at h
    replace h := bind_ok_unit.1 h
    obtain ⟨s₀, h0, h⟩ := h
    rw [operFits_ok] at h0
    obtain ⟨h0, rfl⟩ := h0
    have hc : Expr.Counted l ∧ Expr.Counted r := by simpa only [Expr.Counted] using hc
    replace h := bind_ok.1 h
    obtain ⟨ra, s₁, h1, h⟩ := h
    have hq := expr_sound hW r _ _ _ h1 hi hc.2
    have h1 := expr_el hW r _ _ _ h1 hi hc.2
    replace h := bind_ok.1 h
    obtain ⟨la, s₂, h2, h⟩ := h
    have h2 := expr_el hW l _ _ _ h2 (hi.quiet hq.2.2) hc.1
    replace h := bind_ok_unit.1 h
    obtain ⟨s₃, h3, h⟩ := h
    replace h := bind_ok_unit.1 h
    obtain ⟨s₄, h4, h⟩ := h
    replace h := bind_ok.1 h
    obtain ⟨ty, s₅, h5, h⟩ := h
    cases h
    rw [exprType_el h5]
    exact .bin h2 h1
theorem args_el {cfg : Cfg} {W : World} (hW : W.strtod = cfg.strtod) {B E} : ∀ (args : Args) (ps : List Ty) (s : SS) (as : AArgs)
    (s' : SS), validateArgs cfg ps args s = .ok as s' → SInv s B E none → Args.Counted args ps.length → ElA W E args as ps
  | .nil, [], s, as, s', h, _, _ => by
    simp only [validateArgs] at h
    cases h
    exact .nil
  | .nil, p :: ps, s, as, s', h, _, hc => by simp [Args.Counted] at hc
  | .cons first e next, [], s, as, s', h, _, hc => by simp [Args.Counted] at hc
  | .cons first e next, ty :: tys, s, as, s', h, hi, hc => by
    simp only [validateArgs] at h
    replace h := bind_ok.1 h
    obtain ⟨a, s₁, h1, h⟩ := h
    have hc : Expr.Counted e ∧ Args.Counted next tys.length := by
      simp only [Args.Counted, List.length_cons] at hc
      obtain ⟨h1, n, h2, h3⟩ := hc
      have : n = tys.length := by omega
      exact ⟨h1, this ▸ h3⟩
    have hq := expr_sound hW e _ _ _ h1 hi hc.1
    have h1 := expr_el hW e _ _ _ h1 hi hc.1
    split at h
    · cases h
    · rename_i hty
      replace h := bind_ok.1 h
      obtain ⟨rest, s₂, h2, h⟩ := h
      cases h
      have h2 := args_el hW next tys _ _ _ h2 (hi.quiet hq.2.2) hc.2
      have hty : a.type = ty := by simpa using hty
      subst hty
      exact .cons h1 h2
end

/- ### What a value begins with -/

/-- A name that stands for a variable or a function. -/
def Known (E : Env) (t : Token) : Prop := ∃ x id d, Text t x ∧ E.resolve x = some id ∧ E.decls[id]? = some d ∧ d.Used

theorem decl_known {E : Env} {t x d} (h : Text t x) (hd : E.decl x = some d) (hu : d.Used) : Known E t := by
  unfold Env.decl at hd
  cases hr : E.resolve x with
  | none => rw [hr] at hd; cases hd
  | some id =>
    rw [hr] at hd
    exact ⟨x, id, d, h, hr, hd, hu⟩

/-- A name at the beginning, perhaps behind an ampersand, is known. -/
def Leads (E : Env) : List ExprItem → Prop
  | [] => False
  | .leaf t :: _ => isName t = true → Known E t
  | .op ty :: rest => ty = .operRef → ∃ t more, rest = .leaf t :: more ∧ Known E t

theorem leads_append {E : Env} {l m} (h : Leads E l) : Leads E (l ++ m) := by
  cases l with
  | nil => exact h.elim
  | cons i rest =>
    cases i with
    | leaf t => exact h
    | op ty =>
      intro he
      obtain ⟨t, more, h1, h2⟩ := h he
      exact ⟨t, more ++ m, by rw [h1]; rfl, h2⟩

theorem typed_leads {W E} : ∀ (e : Expr) {τ}, HasType W E e τ → Leads E (readExpr e)
  | .missing, _, h => by cases h
  | .ident t, _, h => by
    cases h with
    | ident h1 h2 => exact fun _ => decl_known h1 h2 trivial
  | .const t, _, h => by
    intro hn
    cases h with
    | const h =>
      unfold isName at hn
      cases h with
      | int h => rw [h] at hn; cases hn
      | float h => rw [h] at hn; cases hn
      | bool h => rw [h] at hn; cases hn
      | rune h => rw [h] at hn; cases hn
      | str h => rw [h] at hn; cases hn
  | .call n as _, _, h => by
    cases h with
    | call h1 h2 _ => exact fun _ => decl_known h1 h2 trivial
  | .un o e, _, h => by
    cases h with
    | un h1 h2 =>
      intro ho
      cases o <;> first | (simp [unType] at h2; done) | (cases ho; done)
    | ref h1 =>
      intro _
      cases h1 with
      | ident h1 h2 => exact ⟨_, [], rfl, decl_known h1 h2 trivial⟩
    | deref h1 => intro ho; cases ho
  | .bin o l r, _, h => by
    cases h with
    | bin h1 _ _ _ =>
      rw [readExpr]
      exact leads_append (typed_leads l h1)

theorem type_none_known {E : Env} {t x id d} (h1 : Text t x) (h2 : E.resolve x = some id) (h3 : E.decls[id]? = some d) (hu : d.Used)
    (h : ∀ y, Text t y → E.typeNamed y = none) : builtinType x = none := by
  have := h x h1
  unfold Env.typeNamed Env.decl at this
  rw [h2, Option.bind_some, h3] at this
  cases d <;> first | (exact hu.elim) | exact this

theorem typeAt_name {E : Env} {t rest o} (hn : t.ty = .identifier ∨ t.ty = .dotIdentifier) (h : TypeAt E (t :: rest) o) :
    ∀ y, Text t y → E.typeNamed y = o := by
  intro y hy
  cases h with
  | name _ h2 => rw [text_det hy h2]
  | ref h1 => rw [h1] at hn; rcases hn with hn | hn <;> cases hn
  | other h1 h2 => rcases hn with hn | hn <;> contradiction

theorem typeAt_ref {E : Env} {t rest} (hn : t.ty = .operRef) (h : TypeAt E (t :: rest) none) : TypeAt E rest none := by
  generalize ho : (none : Option Ty) = o at h
  cases h with
  | name h1 => rw [hn] at h1; rcases h1 with h1 | h1 <;> cases h1
  | @ref _ _ τ _ h2 =>
    cases τ with
    | none => exact h2
    | some τ => cases ho
  | other _ _ h3 => exact absurd hn h3

theorem isName_iff {t : Token} : isName t = true ↔ t.ty = .identifier ∨ t.ty = .dotIdentifier := by simp [isName]

theorem noType_name {E : Env} {t rest} (hk : Known E t) (hn : isName t = true) (h : TypeAt E (t :: rest) none) : NoType E (t :: rest) := by
  have hn' := isName_iff.1 hn
  obtain ⟨x, id, d, h1, h2, h3, h4⟩ := hk
  unfold NoType
  rw [if_pos hn']
  exact ⟨x, id, d, h1, h2, h3, h4, type_none_known h1 h2 h3 h4 (typeAt_name hn' h)⟩

theorem noType_of {E : Env} {ex ts : List Token} (hl : Leads E (items ex)) (h : TypeAt E (ex ++ ts) none) : NoType E (ex ++ ts) := by
  cases ex with
  | nil => exact hl.elim
  | cons t ex =>
    by_cases hn : isName t = true
    · have hp : ¬ (t.ty = .parenOpen ∨ t.ty = .parenClose ∨ t.ty = .comma) := by
        rcases isName_iff.1 hn with h | h <;> rw [h] <;> simp
      rw [items, if_neg hp, if_pos (.inl hn)] at hl
      exact noType_name (hl hn) hn h
    · have hn' := fun h => hn (isName_iff.2 h)
      by_cases hr : t.ty = .operRef
      · have hp : ¬ (t.ty = .parenOpen ∨ t.ty = .parenClose ∨ t.ty = .comma) := by rw [hr]; simp
        have hlit : ¬ (isName t = true ∨ isLiteral t = true) := by simp [isName, isLiteral, hr]
        rw [items, if_neg hp, if_neg hlit] at hl
        obtain ⟨u, more, h1, h2⟩ := hl hr
        have h' := typeAt_ref hr h
        show NoType E (t :: (ex ++ ts))
        unfold NoType
        rw [if_neg hn', if_pos hr]
        change TypeAt E (ex ++ ts) none at h'
        cases ex with
        | nil => cases h1
        | cons v ex =>
          by_cases hvn : isName v = true
          · have hp : ¬ (v.ty = .parenOpen ∨ v.ty = .parenClose ∨ v.ty = .comma) := by
              rcases isName_iff.1 hvn with h | h <;> rw [h] <;> simp
            rw [items, if_neg hp, if_pos (.inl hvn)] at h1
            cases h1
            exact noType_name h2 hvn h'
          · show NoType E (v :: (ex ++ ts))
            unfold NoType
            rw [if_neg (fun h => hvn (isName_iff.2 h))]
            by_cases hvr : v.ty = .operRef
            · have hp : ¬ (v.ty = .parenOpen ∨ v.ty = .parenClose ∨ v.ty = .comma) := by rw [hvr]; simp
              have hlit : ¬ (isName v = true ∨ isLiteral v = true) := by simp [isName, isLiteral, hvr]
              rw [items, if_neg hp, if_neg hlit] at h1
              cases h1
            · rw [if_neg hvr]
              trivial
      · show NoType E (t :: (ex ++ ts))
        unfold NoType
        rw [if_neg hn', if_neg hr]
        trivial

/-- Types end where they end. -/
theorem typeOf_split : ∀ {ty ty' r r' : List Token}, TypeOf ty → TypeOf ty' → ty ++ r = ty' ++ r' → r = r'
  | _, _, r, r', .name h, h', e => by
    cases h' with
    | name => cases e; rfl
    | ref h1 => cases e; simp [isName, h1] at h
  | _, _, r, r', .ref h1 h2, h', e => by
    cases h' with
    | name h => cases e; simp [isName, h1] at h
    | ref h3 h4 =>
      injection e with _ e
      exact typeOf_split h2 h4 e

/-- The value of a definition that is no alias does not begin with a type. -/
theorem written_noType {W E tok te name cst imp exp e τ} (h : AsWritten (.varDef name cst imp exp e) tok te) (ht : HasType W E e τ)
    (hn : TypeAt E te.tail none) : NoType E te.tail := by
  rcases h with h | ⟨⟨ts, h⟩, n, ty, hv, h1, h2⟩
  · cases h
  · have key : ∃ ex ts, te.tail = ex ++ ts ∧ ExprOf ex e := by
      cases h with
      | implicit _ _ _ hex =>
        have := h1 rfl
        subst this
        injection hv with _ hv
        change _ = te at hv
        subst hv
        exact ⟨_, _, rfl, hex⟩
      | explicit _ _ hty hex =>
        injection hv with _ hv
        have := typeOf_split hty (h2 rfl) hv
        subst this
        exact ⟨_, _, rfl, hex⟩
    obtain ⟨ex, ts, h3, h4⟩ := key
    rw [h3] at hn ⊢
    refine noType_of ?_ hn
    rw [← h4.2.1]
    exact typed_leads e ht

end Skull.Elab
