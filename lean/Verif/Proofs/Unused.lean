import Verif.Spec.Uses
import Verif.Proofs.SemSound
/-
The check marks exactly the symbols that the checked tree uses.
-/
namespace Skull
open Spec

/- ### Steps that leave the symbols and the diagnostics alone -/

/-- When the step goes on it changes neither the symbols nor the diagnostics. -/
def Keeps (m : Chk α) : Prop := ∀ s a s', m s = .ok a s' → s'.syms = s.syms ∧ s'.diags = s.diags

theorem Keeps.pure (a : α) : Keeps (Pure.pure a : Chk α) := by
  intro s b s' h; cases h; exact ⟨rfl, rfl⟩
theorem Keeps.ub : Keeps (Chk.ub : Chk α) := by intro s b s' h; cases h
theorem Keeps.stop : Keeps (Chk.stop : Chk α) := by intro s b s' h; cases h
theorem Keeps.error (c : Code) (t : Option Token) : Keeps (Chk.error c t : Chk α) := by intro s b s' h; cases h
theorem Keeps.get : Keeps Chk.get := by intro s b s' h; cases h; exact ⟨rfl, rfl⟩
theorem Keeps.bind {m : Chk α} {f : α → Chk β} (hm : Keeps m) (hf : ∀ a, Keeps (f a)) : Keeps (m >>= f) := by
  intro s b s' h
  obtain ⟨a, s₁, h1, h2⟩ := bind_ok.1 h
  have k1 := hm _ _ _ h1
  have k2 := hf a _ _ _ h2
  exact ⟨k2.1.trans k1.1, k2.2.trans k1.2⟩
theorem Keeps.ofOption (o : Option α) : Keeps (Chk.ofOption o) := by
  cases o with
  | none => exact .ub
  | some a => exact .pure a
theorem Keeps.ite {c : Prop} [Decidable c] {m m' : Chk α} (h : Keeps m) (h' : Keeps m') : Keeps (if c then m else m') := by
  split
  · exact h
  · exact h'

theorem lookup_keeps (x : List Char) : Keeps (lookup x) := by
  intro s a s' h
  unfold lookup at h
  split at h <;> cases h
  exact ⟨rfl, rfl⟩
theorem symAt_keeps (id : Nat) : Keeps (symAt id) := by
  intro s a s' h
  unfold symAt at h
  split at h <;> cases h
  exact ⟨rfl, rfl⟩
theorem tokName_keeps (t : Token) : Keeps (tokName t) := .ofOption _
theorem headTok_keeps (l : List Token) : Keeps (headTok l) := by
  cases l with
  | nil => exact .ub
  | cons t ts => exact .pure t
theorem findFuncByName_keeps (x : List Char) : Keeps (findFuncByName x) := by
  refine .bind (lookup_keeps x) fun o => ?_
  split
  · exact .pure _
  · refine .bind (symAt_keeps _) fun sym => ?_
    split <;> exact .pure _
theorem findType_keeps (x : List Char) : Keeps (findType x) := by
  refine .bind (lookup_keeps x) fun o => ?_
  split
  · exact .pure _
  · refine .bind (symAt_keeps _) fun sym => ?_
    split <;> exact .pure _
theorem directType_keeps (o : Option Nat) : Keeps (directType o) := by
  unfold directType
  split
  · exact .pure _
  · refine .bind (symAt_keeps _) fun sym => ?_
    split <;> exact .pure _
theorem funcOrAlias_keeps (x : List Char) : Keeps (funcOrAlias x) := by
  refine .bind (findFuncByName_keeps x) fun o => ?_
  split
  · exact .pure _
  · refine .bind (findType_keeps _) fun sym => ?_
    split <;> exact .pure _
theorem findSymbolType_keeps (x : List Char) : Keeps (findSymbolType x) := by
  refine .bind (lookup_keeps x) fun o => .bind (directType_keeps o) fun k => ?_
  split
  · exact funcOrAlias_keeps _
  · exact .pure _
theorem tokenToType_keeps : ∀ toks, Keeps (tokenToType toks)
  | [] => .ub
  | t :: rest => by
    unfold tokenToType
    refine .ite (.bind (tokName_keeps t) fun n => findType_keeps n) (.ite (.bind (tokenToType_keeps rest) fun o => .pure _) (.pure _))
theorem currentScope_keeps : Keeps currentScope := by
  intro s a s' h
  unfold currentScope at h
  split at h <;> cases h <;> exact ⟨rfl, rfl⟩
theorem addToScope_keeps (i : Nat) (x : List Char) (id : Nat) : Keeps (addToScope i x id) := by
  intro s a s' h
  unfold addToScope at h
  split at h
  · cases h
  · split at h <;> cases h
    exact ⟨rfl, rfl⟩
theorem parentScope_keeps : Keeps parentScope := by
  intro s a s' h
  unfold parentScope at h
  split at h <;> cases h <;> exact ⟨rfl, rfl⟩
theorem enterChild_keeps (i : Nat) : Keeps (enterChild i) := by
  intro s a s' h
  unfold enterChild at h
  split at h
  · cases h
  · split at h
    · split at h <;> cases h
      exact ⟨rfl, rfl⟩
    · cases h; exact ⟨rfl, rfl⟩
theorem makeChildScope_keeps : Keeps makeChildScope := .bind parentScope_keeps enterChild_keeps
theorem makeAdjacentScope_keeps : Keeps makeAdjacentScope := by
  intro s a s' h
  unfold makeAdjacentScope at h
  split at h
  · cases h
  · split at h <;> cases h
    exact ⟨rfl, rfl⟩
theorem resetScopeHead_keeps : Keeps resetScopeHead := by
  intro s a s' h
  unfold resetScopeHead at h
  split at h <;> cases h <;> exact ⟨rfl, rfl⟩
theorem toParent_keeps : Keeps toParent := by
  intro s a s' h
  unfold toParent at h
  split at h
  · cases h; exact ⟨rfl, rfl⟩
  · split at h <;> cases h
    exact ⟨rfl, rfl⟩
theorem restoreParentScope_keeps : Keeps restoreParentScope := .bind resetScopeHead_keeps fun _ => toParent_keeps
theorem isTopLvlScope_keeps : Keeps isTopLvlScope := by
  intro s a s' h
  unfold isTopLvlScope at h
  split at h
  · cases h
  · cases h; exact ⟨rfl, rfl⟩
  · split at h <;> cases h
    exact ⟨rfl, rfl⟩
theorem makeVariable_keeps (ty : Ty) (x : List Char) (c : Bool) : Keeps (makeVariable ty x c) := .ite (.pure _) .ub
theorem linkageName_keeps (cfg : Cfg) (e : Bool) (x : List Char) : Keeps (linkageName cfg e x) := .ite (.ofOption _) (.pure _)
theorem setDepth_keeps (d : Nat) : Keeps (setDepth d) := by intro s a s' h; cases h; exact ⟨rfl, rfl⟩
theorem enterFunc_keeps (id : Nat) : Keeps (enterFunc id) := by intro s a s' h; cases h; exact ⟨rfl, rfl⟩
theorem leaveFunc_keeps : Keeps leaveFunc := by
  intro s a s' h
  unfold leaveFunc at h
  split at h <;> cases h
  exact ⟨rfl, rfl⟩
theorem funcAt_keeps (id : Nat) : Keeps (funcAt id) := by
  refine .bind (symAt_keeps _) fun sym => ?_
  split
  · exact .pure _
  · exact .ub
theorem varAt_keeps (id : Nat) : Keeps (varAt id) := by
  refine .bind (symAt_keeps _) fun sym => ?_
  split
  · exact .pure _
  · exact .ub
theorem scopeFindVar_keeps (t : Token) : Keeps (scopeFindVar t) := by
  refine .bind (tokName_keeps _) fun n => .bind (lookup_keeps n) fun o => ?_
  split
  · exact .error _ _
  · refine .bind (symAt_keeps _) fun sym => ?_
    split
    · exact .ite (.pure _) (.error _ _)
    · exact .error _ _
    · exact .error _ _
    · exact .ub
    · exact .ub
theorem findFuncByToken_keeps (t : Token) : Keeps (findFuncByToken t) := by
  refine .bind (tokName_keeps _) fun n => .bind (findFuncByName_keeps n) fun o => ?_
  split
  · exact .pure _
  · exact .error _ _
theorem evalLit_keeps (t : Token) (e : Ev α) : Keeps (evalLit t e) := by
  unfold evalLit
  split
  · exact .pure _
  all_goals first | exact .error _ _ | exact .ub
theorem validateConst_keeps (cfg : Cfg) (t : Token) : Keeps (validateConst cfg t) := by
  unfold validateConst
  split
  · exact .bind (evalLit_keeps _ _) fun _ => .pure _
  · exact .bind (evalLit_keeps _ _) fun _ => .pure _
  · exact .pure _
  · exact .bind (evalLit_keeps _ _) fun _ => .pure _
  · exact .bind (evalLit_keeps _ _) fun _ => .ite (.pure _) (.error _ _)
  · exact .stop
theorem isNumeric_keeps (r : AExpr) (t : Token) : Keeps (isNumeric r t) := .ite (.pure _) (.error _ _)
theorem notDivByZero_keeps (r : AExpr) : Keeps (notDivByZero r) := by
  unfold notDivByZero
  split
  · refine .ite ?_ (.pure _)
    split
    · exact .ite (.error _ _) (.pure _)
    · exact .ub
    · exact .pure _
  · exact .pure _
theorem validateRestrictions_keeps (o : Oper) (r : AExpr) (t : Token) : Keeps (validateRestrictions o r t) := by
  unfold validateRestrictions
  split
  all_goals first
    | exact isNumeric_keeps _ _
    | exact .bind (notDivByZero_keeps _) fun _ => isNumeric_keeps _ _
    | exact .bind (.ite (.error _ _) (.pure _)) fun _ => isNumeric_keeps _ _
    | exact .ite (.error _ _) (.pure _)
    | exact .pure _
    | skip
  split
  · exact .pure _
  · exact .error _ _
theorem exprType_keeps (o : Oper) (r : Ty) : Keeps (exprType o r) := by
  unfold exprType
  split
  all_goals first
    | exact .pure _
    | skip
  split
  · exact .pure _
  · exact .ub
theorem checkCount_keeps (f : Func) (n : Token) (ps : Args) (k : Nat) : Keeps (checkCount f n ps k) := by
  refine .ite (.error _ _) ?_
  split
  · exact .ite (.error _ _) (.pure _)
  · exact .pure _

/- ### Marks -/

/-- The marks the check sets on symbols. -/
inductive Mark
  | read | assigned | called

/-- Whether a symbol has a mark. -/
def Symbol.mark (sym : Symbol) : Mark → Bool
  | .read => match sym.kind with | .var v => v.wasRead | _ => false
  | .assigned => match sym.kind with | .var v => v.wasReassigned | _ => false
  | .called => match sym.kind with | .func f => f.wasCalled | _ => false

/-- Whether there is a symbol with the mark. -/
def SS.mark (s : SS) (m : Mark) (id : Nat) : Bool := (s.syms[id]?).any (·.mark m)

/-- The part of a symbol that stays. -/
def Symbol.fixed (sym : Symbol) : Option Token × SymType × Bool × Bool :=
  (sym.loc, sym.kind.symType, match sym.kind with | .var v => (v.isConst, v.isExported) | _ => (false, false))

/-- From `s` to `s'` exactly the marks `u` were set, `w` says whether warnings are errors. -/
structure Tr (w : Bool) (s s' : SS) (u : Mark → Nat → Bool) : Prop where
  len : s.syms.length ≤ s'.syms.length
  fixed : ∀ (id : Nat) (sym : Symbol), s.syms[id]? = some sym → ∃ sym' : Symbol, s'.syms[id]? = some sym' ∧ sym'.fixed = sym.fixed
  marks : ∀ m id, s'.mark m id = (s.mark m id || u m id)
  diags : ∃ ds, s'.diags = ds ++ s.diags ∧ (∀ d ∈ ds, isUnusedCode d.code = false) ∧ (w = true → ds = [])

/-- No marks. -/
def noUse : Mark → Nat → Bool := fun _ _ => false
/-- All marks of both. -/
def orUse (u v : Mark → Nat → Bool) : Mark → Nat → Bool := fun m id => u m id || v m id

theorem Tr.of_eq {w} {s s' : SS} (h : s'.syms = s.syms ∧ s'.diags = s.diags) : Tr w s s' noUse := by
  refine ⟨by rw [h.1]; exact Nat.le_refl _, fun id sym hs => ⟨sym, by rw [h.1]; exact hs, rfl⟩, fun m id => ?_, [], by rw [h.2]; rfl,
    (fun _ h => by cases h), fun _ => rfl⟩
  unfold SS.mark noUse
  rw [h.1, Bool.or_false]

theorem Tr.refl (w : Bool) (s : SS) : Tr w s s noUse := .of_eq ⟨rfl, rfl⟩

theorem Tr.keeps {w} {m : Chk α} (hk : Keeps m) {s a s'} (h : m s = .ok a s') : Tr w s s' noUse := .of_eq (hk _ _ _ h)

theorem Tr.congr {w s s' u v} (h : Tr w s s' u) (e : ∀ m id, v m id = u m id) : Tr w s s' v :=
  ⟨h.len, h.fixed, fun m id => by rw [e]; exact h.marks m id, h.diags⟩

theorem Tr.trans {w s s' s'' u v} (h : Tr w s s' u) (h' : Tr w s' s'' v) : Tr w s s'' (orUse u v) := by
  refine ⟨Nat.le_trans h.len h'.len, fun id sym hs => ?_, fun m id => ?_, ?_⟩
  · obtain ⟨sym₁, h1, h2⟩ := h.fixed id sym hs
    obtain ⟨sym₂, h3, h4⟩ := h'.fixed id sym₁ h1
    exact ⟨sym₂, h3, h4.trans h2⟩
  · rw [h'.marks, h.marks, orUse, Bool.or_assoc]
  · obtain ⟨ds, h1, h2, h3⟩ := h.diags
    obtain ⟨es, h4, h5, h6⟩ := h'.diags
    refine ⟨es ++ ds, by rw [h4, h1, List.append_assoc], fun d hd => ?_, fun hw => by rw [h3 hw, h6 hw]; rfl⟩
    rcases List.mem_append.1 hd with hd | hd
    · exact h5 d hd
    · exact h2 d hd

theorem Tr.then {w s s' s'' u} (h : Tr w s s' u) (h' : Tr w s' s'' noUse) : Tr w s s'' u :=
  (h.trans h').congr fun m id => by simp [orUse, noUse]

theorem Tr.after {w s s' s'' u} (h : Tr w s s' noUse) (h' : Tr w s' s'' u) : Tr w s s'' u :=
  (h.trans h').congr fun m id => by simp [orUse, noUse]

/-- Changing one symbol. -/
theorem Tr.set {w} {s : SS} {id : Nat} {sym sym' : Symbol} (u : Mark → Nat → Bool) (hs : s.syms[id]? = some sym)
    (hf : sym'.fixed = sym.fixed) (hm : ∀ m, sym'.mark m = (sym.mark m || u m id)) (hu : ∀ m j, j ≠ id → u m j = false) :
    Tr w s { s with syms := s.syms.set id sym' } u := by
  refine ⟨by simp, fun j symj hj => ?_, fun m j => ?_, [], rfl, (fun _ h => by cases h), fun _ => rfl⟩
  · by_cases e : id = j
    · subst e
      rw [hs] at hj
      cases hj
      exact ⟨sym', getElem?_set_self' hs, hf⟩
    · exact ⟨symj, by simp only; rw [getElem?_set_ne' e]; exact hj, rfl⟩
  · unfold SS.mark
    by_cases e : id = j
    · subst e
      simp only
      rw [getElem?_set_self' hs, hs]
      exact hm m
    · simp only
      rw [getElem?_set_ne' e, hu m j (Ne.symm e), Bool.or_false]

/-- A new symbol. -/
theorem Tr.push {w} (s : SS) (sym : Symbol) :
    Tr w s (s.push sym) (fun m id => id == s.syms.length && sym.mark m) := by
  refine ⟨by simp [SS.push], fun j symj hj => ⟨symj, getElem?_append_old hj, rfl⟩, fun m j => ?_, [], rfl, (fun _ h => by cases h),
    fun _ => rfl⟩
  unfold SS.mark SS.push
  simp only
  by_cases e : j = s.syms.length
  · subst e
    rw [getElem?_append_new]
    have : s.syms[s.syms.length]? = none := by simp
    rw [this]
    simp
  · have : (s.syms ++ [sym])[j]? = s.syms[j]? := by
      by_cases hl : j < s.syms.length
      · rw [List.getElem?_append_left hl]
      · have : s.syms.length < j := by omega
        rw [List.getElem?_eq_none (by simp; omega), List.getElem?_eq_none (by omega)]
    rw [this]
    simp [e]

/- ### Expressions -/

/-- The marks an expression sets. -/
def AExpr.use (a : AExpr) : Mark → Nat → Bool
  | .read, id => a.reads id
  | .assigned, _ => false
  | .called, id => a.calls id

/-- The marks arguments set. -/
def AArgs.use (a : AArgs) : Mark → Nat → Bool
  | .read, id => a.reads id
  | .assigned, _ => false
  | .called, id => a.calls id

/-- One mark. -/
def oneUse (k : Mark) (i : Nat) : Mark → Nat → Bool
  | m, id => (match k, m with | .read, .read | .assigned, .assigned | .called, .called => true | _, _ => false) && i == id

theorem scopeFindVar_at {t id v s s'} (h : scopeFindVar t s = .ok (id, v) s') : ∃ sym, s'.syms[id]? = some sym ∧ sym.kind = .var v := by
  unfold scopeFindVar at h
  replace h := bind_ok.1 h
  obtain ⟨n, s₁, h1, h⟩ := h
  replace h := bind_ok.1 h
  obtain ⟨o, s₂, h2, h⟩ := h
  split at h
  · cases h
  · replace h := bind_ok.1 h
    obtain ⟨sym, s₃, h3, h⟩ := h
    have h4 : s₂.syms[‹Nat›]? = some sym ∧ s₃ = s₂ := by
      unfold symAt at h3
      split at h3 <;> cases h3
      exact ⟨by assumption, rfl⟩
    obtain ⟨h4, rfl⟩ := h4
    cases hk : sym.kind with
    | var v' =>
      simp only [hk] at h
      split at h
      · cases h; exact ⟨sym, h4, hk⟩
      · cases h
    | ns o => simp only [hk] at h; cases o <;> cases h
    | _ => simp only [hk] at h; cases h

theorem updVar_tr {w id s s' sym v} (f : Variable → Variable) (u : Mark → Nat → Bool) (hs : s.syms[id]? = some sym)
    (hk : sym.kind = .var v) (hf : (f v).isConst = v.isConst ∧ (f v).isExported = v.isExported)
    (hm : ∀ m, ({ sym with kind := .var (f v) } : Symbol).mark m = (sym.mark m || u m id)) (hu : ∀ m j, j ≠ id → u m j = false)
    (h : updVar id f s = .ok () s') : Tr w s s' u := by
  unfold updVar at h
  rw [updSym_eq _ hs] at h
  cases h
  refine .set u hs ?_ ?_ hu
  · simp only [hk, Symbol.fixed, SymKind.symType, hf.1, hf.2]
  · simpa only [hk] using hm

theorem updFunc_tr {w id s s' sym g} (f : Func → Func) (u : Mark → Nat → Bool) (hs : s.syms[id]? = some sym)
    (hk : sym.kind = .func g)
    (hm : ∀ m, ({ sym with kind := .func (f g) } : Symbol).mark m = (sym.mark m || u m id)) (hu : ∀ m j, j ≠ id → u m j = false)
    (h : updFunc id f s = .ok () s') : Tr w s s' u := by
  unfold updFunc at h
  rw [updSym_eq _ hs] at h
  cases h
  refine .set u hs ?_ ?_ hu
  · simp only [hk, Symbol.fixed, SymKind.symType]
  · simpa only [hk] using hm

theorem oneUse_ne (k : Mark) (i : Nat) (m : Mark) (j : Nat) (h : j ≠ i) : oneUse k i m j = false := by
  simp only [oneUse, Bool.and_eq_false_iff, beq_eq_false_iff_ne]
  exact .inr (Ne.symm h)

mutual

theorem expr_tr {cfg : Cfg} {w : Bool} : ∀ (e : Expr) (s : SS) (a : AExpr) (s' : SS), validateExpr cfg e s = .ok a s' → Tr w s s' a.use
  | .missing, s, a, s', h => by simp [validateExpr, Chk.ub] at h
  | .ident t, s, a, s', h => by
    simp only [validateExpr] at h
    replace h := bind_ok.1 h
    obtain ⟨⟨id, v⟩, s₁, h1, h⟩ := h
    obtain ⟨sym, h2, h3⟩ := scopeFindVar_at h1
    replace h := bind_ok_unit.1 h
    obtain ⟨s₂, h4, h⟩ := h
    cases h
    refine .after (.keeps (scopeFindVar_keeps t) h1) (.congr (updVar_tr _ (oneUse .read id) h2 h3 ⟨rfl, rfl⟩ ?_ (oneUse_ne _ _) h4) ?_)
    · intro m; cases m <;> simp [Symbol.mark, h3, oneUse]
    · intro m j; cases m <;> simp [AExpr.use, AExpr.reads, AExpr.calls, oneUse]
  | .const t, s, a, s', h => by
    simp only [validateExpr] at h
    replace h := bind_ok.1 h
    obtain ⟨v, s₁, h1, h⟩ := h
    cases h
    refine .congr (.keeps (validateConst_keeps cfg t) h1) ?_
    intro m j; cases m <;> simp [AExpr.use, AExpr.reads, AExpr.calls, noUse]
  | .call n params num, s, a, s', h => by
    simp only [validateExpr] at h
    replace h := bind_ok.1 h
    obtain ⟨id, s₁, h1, h⟩ := h
    replace h := bind_ok.1 h
    obtain ⟨f, s₂, h2, h⟩ := h
    replace h := bind_ok_unit.1 h
    obtain ⟨s₃, h3, h⟩ := h
    replace h := bind_ok_unit.1 h
    obtain ⟨s₄, h4, h⟩ := h
    replace h := bind_ok.1 h
    obtain ⟨as, s₅, h5, h⟩ := h
    cases h
    have k1 : Tr w s s₁ noUse := .keeps (findFuncByToken_keeps n) h1
    obtain ⟨rfl, sym, hs, hk⟩ := funcAt_ok h2
    have k3 : Tr w s₂ s₃ (oneUse .called id) := by
      refine updFunc_tr _ _ hs hk ?_ (oneUse_ne _ _) h3
      intro m; cases m <;> simp [Symbol.mark, hk, oneUse]
    have k4 : Tr w s₃ s₄ noUse := .keeps (checkCount_keeps _ _ _ _) h4
    refine .congr (.after k1 ((k3.then k4).trans (args_tr params _ _ _ _ h5))) ?_
    intro m j; cases m <;> simp [AExpr.use, AExpr.reads, AExpr.calls, AArgs.use, oneUse, orUse]
  | .un o e, s, a, s', h => by
    simp only [validateExpr] at h
    replace h := bind_ok_unit.1 h
    obtain ⟨s₀, h0, h⟩ := h
    rw [operFits_ok] at h0
    obtain ⟨h0, rfl⟩ := h0
    replace h := bind_ok.1 h
    obtain ⟨r, s₁, h1, h⟩ := h
    replace h := bind_ok_unit.1 h
    obtain ⟨s₂, h2, h⟩ := h
    replace h := bind_ok.1 h
    obtain ⟨ty, s₃, h3, h⟩ := h
    cases h
    refine .congr (((expr_tr e _ _ _ h1).then (.keeps (validateRestrictions_keeps _ _ _) h2)).then (.keeps (exprType_keeps _ _) h3)) ?_
    intro m j; cases m <;> simp [AExpr.use, AExpr.reads, AExpr.calls]
  | .bin o l r, s, a, s', h => by
    simp only [validateExpr] at h
    replace h := bind_ok_unit.1 h
    obtain ⟨s₀, h0, h⟩ := h
    rw [operFits_ok] at h0
    obtain ⟨h0, rfl⟩ := h0
    replace h := bind_ok.1 h
    obtain ⟨ra, s₁, h1, h⟩ := h
    replace h := bind_ok.1 h
    obtain ⟨la, s₂, h2, h⟩ := h
    replace h := bind_ok_unit.1 h
    obtain ⟨s₃, h3, h⟩ := h
    rw [sameTypes_ok] at h3
    obtain ⟨h3, rfl⟩ := h3
    replace h := bind_ok_unit.1 h
    obtain ⟨s₄, h4, h⟩ := h
    replace h := bind_ok.1 h
    obtain ⟨ty, s₅, h5, h⟩ := h
    cases h
    refine .congr ((((expr_tr r _ _ _ h1).trans (expr_tr l _ _ _ h2)).then (.keeps (validateRestrictions_keeps _ _ _) h4)).then
      (.keeps (exprType_keeps _ _) h5)) ?_
    intro m j; cases m <;> simp [AExpr.use, AExpr.reads, AExpr.calls, orUse, Bool.or_comm]

theorem args_tr {cfg : Cfg} {w : Bool} : ∀ (args : Args) (ps : List Ty) (s : SS) (as : AArgs) (s' : SS),
    validateArgs cfg ps args s = .ok as s' → Tr w s s' as.use
  | .nil, [], s, as, s', h => by
    simp only [validateArgs] at h
    cases h
    refine .congr (.refl w _) ?_
    intro m j; cases m <;> simp [AArgs.use, AArgs.reads, AArgs.calls, noUse]
  | .nil, p :: ps, s, as, s', h => by simp [validateArgs, Chk.ub] at h
  | .cons first e next, [], s, as, s', h => by
    simp only [validateArgs] at h
    cases h
    refine .congr (.refl w _) ?_
    intro m j; cases m <;> simp [AArgs.use, AArgs.reads, AArgs.calls, noUse]
  | .cons first e next, ty :: tys, s, as, s', h => by
    simp only [validateArgs] at h
    replace h := bind_ok.1 h
    obtain ⟨a, s₁, h1, h⟩ := h
    split at h
    · cases h
    · replace h := bind_ok.1 h
      obtain ⟨rest, s₂, h2, h⟩ := h
      cases h
      refine .congr ((expr_tr e _ _ _ h1).trans (args_tr next tys _ _ _ h2)) ?_
      intro m j; cases m <;> simp [AExpr.use, AArgs.use, AArgs.reads, AArgs.calls, orUse]

end

end Skull
