import Verif.Proofs.UnusedTree
import Verif.Proofs.ParseCounted
import Verif.Spec.Checked
/-
The semantic check gives a tree in which every node has what its statement needs.
-/
namespace Skull
open Spec

/-- What does not change of a symbol after its declaration has been checked. -/
def Symbol.lasting (sym : Symbol) : Symbol :=
  { sym with kind := match sym.kind with
      | .var v => .var { v with wasReassigned := false, wasRead := false }
      | .func f => .func { f with wasCalled := false }
      | .alias => .alias
      | .ns _ => .ns none }

/-- The symbols are those of before, up to what may change, and new ones. -/
structure Ext (a b : List Symbol) : Prop where
  len : a.length ≤ b.length
  lasting : ∀ (id : Nat) (sym : Symbol), a[id]? = some sym → ∃ sym' : Symbol, b[id]? = some sym' ∧ sym'.lasting = sym.lasting

theorem Ext.refl (a : List Symbol) : Ext a a := ⟨Nat.le_refl _, fun _ sym h => ⟨sym, h, rfl⟩⟩

theorem Ext.of_eq {a b : List Symbol} (h : b = a) : Ext a b := by subst h; exact .refl _

theorem Ext.trans {a b c : List Symbol} (h : Ext a b) (h' : Ext b c) : Ext a c :=
  ⟨Nat.le_trans h.len h'.len, fun id sym hs => by
    obtain ⟨sym', h1, h2⟩ := h.lasting id sym hs
    obtain ⟨sym'', h3, h4⟩ := h'.lasting id sym' h1
    exact ⟨sym'', h3, h4.trans h2⟩⟩

theorem Ext.push (a : List Symbol) (sym : Symbol) : Ext a (a ++ [sym]) := by
  refine ⟨by simp, fun id s h => ⟨s, ?_, rfl⟩⟩
  rw [List.getElem?_append_left]
  · exact h
  · exact (List.getElem?_eq_some_iff.1 h).1

theorem Ext.set {a : List Symbol} {id : Nat} {sym sym' : Symbol} (hs : a[id]? = some sym) (h : sym'.lasting = sym.lasting) : Ext a (a.set id sym') := by
  refine ⟨by simp, fun j s hj => ?_⟩
  by_cases e : id = j
  · subst e
    cases hs.symm.trans hj
    exact ⟨sym', List.getElem?_set_self (List.getElem?_eq_some_iff.1 hs).1, h⟩
  · exact ⟨s, by rw [List.getElem?_set_ne e]; exact hj, rfl⟩

/-- A change of a symbol that was not there before. -/
theorem Ext.setNew {a b : List Symbol} (h : Ext a b) {id : Nat} (hid : a.length ≤ id) (sym : Symbol) : Ext a (b.set id sym) := by
  refine ⟨by simpa using h.len, fun j s hj => ?_⟩
  obtain ⟨s', h1, h2⟩ := h.lasting j s hj
  have : j < a.length := (List.getElem?_eq_some_iff.1 hj).1
  exact ⟨s', by rw [List.getElem?_set_ne (by omega)]; exact h1, h2⟩

theorem lasting_var {sym sym' : Symbol} {v} (h : sym'.lasting = sym.lasting) (hk : sym.kind = .var v) :
    ∃ v', sym'.kind = .var v' ∧ { v' with wasReassigned := false, wasRead := false } = { v with wasReassigned := false, wasRead := false } ∧
      sym'.name = sym.name := by
  unfold Symbol.lasting at h
  rw [hk] at h
  cases hk' : sym'.kind <;> simp only [hk', Symbol.mk.injEq, SymKind.var.injEq, reduceCtorEq, and_false] at h
  exact ⟨_, rfl, h.2.2.2.2, h.1⟩

theorem lasting_func {sym sym' : Symbol} {f} (h : sym'.lasting = sym.lasting) (hk : sym.kind = .func f) :
    ∃ f', sym'.kind = .func f' ∧ { f' with wasCalled := false } = { f with wasCalled := false } ∧ sym'.name = sym.name := by
  unfold Symbol.lasting at h
  rw [hk] at h
  cases hk' : sym'.kind <;> simp only [hk', Symbol.mk.injEq, SymKind.func.injEq, reduceCtorEq, and_false] at h
  exact ⟨_, rfl, h.2.2.2.2, h.1⟩

theorem Ext.var {a b : List Symbol} (h : Ext a b) {id : Nat} {sym : Symbol} {v} (hs : a[id]? = some sym) (hk : sym.kind = .var v) :
    ∃ (sym' : Symbol) (v' : Variable), b[id]? = some sym' ∧ sym'.kind = .var v' ∧ sym'.name = sym.name ∧ v'.name = v.name ∧ v'.type = v.type ∧
      v'.isConst = v.isConst ∧ v'.isExported = v.isExported ∧ v'.isDefined = v.isDefined ∧ v'.constExpr = v.constExpr := by
  obtain ⟨sym', h1, h2⟩ := h.lasting _ _ hs
  obtain ⟨v', h3, h4, h5⟩ := lasting_var h2 hk
  simp only [Variable.mk.injEq] at h4
  exact ⟨sym', v', h1, h3, h5, h4.2.1, h4.1, h4.2.2.2.1, h4.2.2.2.2.2.2.2.1, h4.2.2.2.2.2.2.2.2.1, h4.2.2.2.2.2.2.2.2.2⟩

theorem Ext.func {a b : List Symbol} (h : Ext a b) {id : Nat} {sym : Symbol} {f} (hs : a[id]? = some sym) (hk : sym.kind = .func f) :
    ∃ (sym' : Symbol) (f' : Func), b[id]? = some sym' ∧ sym'.kind = .func f' ∧ sym'.name = sym.name ∧ f'.numParams = f.numParams ∧
      f'.paramTypes = f.paramTypes ∧ f'.returnType = f.returnType ∧ f'.isExternal = f.isExternal ∧ f'.isExport = f.isExport := by
  obtain ⟨sym', h1, h2⟩ := h.lasting _ _ hs
  obtain ⟨f', h3, h4, h5⟩ := lasting_func h2 hk
  simp only [Func.mk.injEq] at h4
  exact ⟨sym', f', h1, h3, h5, h4.1, h4.2.1, h4.2.2.1, h4.2.2.2.2.1, h4.2.2.2.2.2⟩

mutual
theorem Spec.WtE.keep {a b : List Symbol} (h : Ext a b) : ∀ {e : AExpr}, WtE a e → WtE b e
  | .ident .., hw => by
    cases hw with
    | ident h1 h2 h3 h4 =>
      obtain ⟨sym', v', k1, k2, k3, k4, k5, _, _, k8, k9⟩ := h.var h1 h2
      rw [← k5, ← k9]
      exact .ident k1 k2 (by rw [k4, k3, h3]) (by rw [k8]; exact h4)
  | .const .., hw => by cases hw with | const h1 => exact .const h1
  | .call _ args _ _, hw => by
    cases hw with
    | call h1 h2 h3 h4 =>
      obtain ⟨sym', f', k1, k2, _, k4, k5, k6, _⟩ := h.func h1 h2
      rw [← k6]
      exact .call k1 k2 (by rw [k4, k5, h3]) (by rw [k5]; exact WtA.keep h h4)
  | .un _ r _ _, hw => by
    cases hw with
    | un h1 h2 => exact .un h1 (WtE.keep h h2)
    | ref h1 => exact .ref (WtE.keep h h1)
    | deref h1 => exact .deref (WtE.keep h h1)
  | .bin _ l r _ _, hw => by
    cases hw with
    | bin h1 h2 h3 h4 h5 => exact .bin (WtE.keep h h1) (WtE.keep h h2) h3 h4 h5
theorem Spec.WtA.keep {a b : List Symbol} (h : Ext a b) : ∀ {tys : List Ty} {as : AArgs}, WtA a tys as → WtA b tys as
  | _, .nil, hw => by cases hw; exact .nil
  | _, .unchecked _, hw => by cases hw; exact .more
  | _, .cons _ e next, hw => by
    cases hw with
    | cons h1 h2 h3 => exact .cons (WtE.keep h h1) h2 (WtA.keep h h3)
end

theorem Spec.IsParam.keep {a b : List Symbol} (h : Ext a b) {id ty} (hp : IsParam a id ty) : IsParam b id ty := by
  obtain ⟨sym, v, h1, h2, h3, h4, h5, h6, h7⟩ := hp
  obtain ⟨sym', v', k1, k2, k3, k4, k5, k6, _, k8, k9⟩ := h.var h1 h2
  exact ⟨sym', v', k1, k2, by rw [k4, k3, h3], by rw [k6, h4], by rw [k8, h5], by rw [k5, h6], by rw [k9, h7]⟩

theorem Spec.WtNode.keep {a b : List Symbol} (h : Ext a b) {loop before ann stmt child next} (hw : WtNode a loop before ann stmt child next) :
    WtNode b loop before ann stmt child next := by
  cases hw with
  | alias => exact .alias
  | varDef h1 h2 h3 h4 h5 h6 h7 h8 h9 h10 =>
    obtain ⟨sym', v', k1, k2, k3, k4, k5, k6, k7, k8, k9⟩ := h.var h1 h2
    exact .varDef k1 k2 (by rw [k4, k3, h3]) (by rw [k6, h4]) (by rw [k7, h5]) (by rw [k8, h6]) (by rw [k5, h7]) (by rw [k9, h8])
      (h9.keep h) h10
  | assign h1 h2 h3 h4 h6 h7 h9 =>
    obtain ⟨sym', v', k1, k2, k3, k4, k5, k6, k7, k8, k9⟩ := h.var h1 h2
    exact .assign k1 k2 (by rw [k4, k3, h3]) (by rw [k6, h4]) (by rw [k8, h6]) (by rw [k5, h7]) (h9.keep h)
  | ret h1 => exact .ret h1
  | retValue h1 h2 h3 => exact .retValue h1 (h2.keep h) h3
  | call h1 h2 => exact .call (h1.keep h) h2
  | ifs h1 h2 h3 => exact .ifs (h1.keep h) h2 h3
  | elifs h1 h2 h3 h4 => exact .elifs (h1.keep h) h2 h3 h4
  | elses h1 h2 => exact .elses h1 h2
  | whiles h1 h2 h3 => exact .whiles (h1.keep h) h2 h3
  | breaks h1 h2 => exact .breaks h1 h2
  | continues h1 h2 => exact .continues h1 h2
  | func h1 h2 h3 h4 h5 h6 h7 h8 h9 =>
    obtain ⟨sym', f', k1, k2, k3, k4, k5, k6, k7, k8⟩ := h.func h1 h2
    exact .func k1 k2 (by rw [k7, h3]) (by rw [k8, h4]) (by rw [k4, h5]) (by rw [k4, k5, h6]) (by rw [k4, h7])
      (fun i id ty g1 g2 => IsParam.keep h (h8 i id ty g1 (by rw [← k5]; exact g2))) h9
  | ns h1 =>
    obtain ⟨sym', h2, _⟩ := h.lasting _ _ h1
    exact .ns h2
  | unreachable h1 => exact .unreachable h1
  | other h1 => exact .other h1

theorem Spec.WtTree.keep {a b : List Symbol} (h : Ext a b) {loop before t} (hw : WtTree a loop before t) : WtTree b loop before t := by
  induction hw with
  | nil => exact .nil
  | unchecked => exact .unchecked
  | node h1 _ _ h2 h3 => exact .node (h1.keep h) h2 h3

/- ### Expressions -/

/-- What holds of the symbols whenever an expression is checked: variables are called like their symbols, and functions have their
parameters. -/
def SymsOk (syms : List Symbol) : Prop :=
  ∀ (id : Nat) (sym : Symbol), syms[id]? = some sym →
    match sym.kind with
    | .var v => v.name = sym.name
    | .func f => f.numParams = f.paramTypes.length
    | _ => True

theorem SymsOk.set {a : List Symbol} (h : SymsOk a) {id : Nat} {sym sym' : Symbol} (hs : a[id]? = some sym) (hc : sym'.lasting = sym.lasting) :
    SymsOk (a.set id sym') := by
  intro j s hj
  by_cases e : id = j
  · subst e
    rw [List.getElem?_set_self (List.getElem?_eq_some_iff.1 hs).1] at hj
    cases hj
    have := h _ _ hs
    cases hk : sym.kind with
    | var v =>
      obtain ⟨v', h1, h2, h3⟩ := lasting_var hc hk
      simp only [Variable.mk.injEq] at h2
      rw [hk] at this
      rw [h1]
      simp only at this ⊢
      rw [h2.2.1, h3, this]
    | func f =>
      obtain ⟨f', h1, h2, h3⟩ := lasting_func hc hk
      simp only [Func.mk.injEq] at h2
      rw [hk] at this
      rw [h1]
      simp only at this ⊢
      rw [h2.1, h2.2.1, this]
    | alias =>
      unfold Symbol.lasting at hc
      rw [hk] at hc
      cases hk' : sym'.kind <;> simp [hk'] at hc
      trivial
    | ns o =>
      unfold Symbol.lasting at hc
      rw [hk] at hc
      cases hk' : sym'.kind <;> simp [hk'] at hc
      trivial
  · rw [List.getElem?_set_ne e] at hj
    exact h _ _ hj

theorem SymsOk.push {a : List Symbol} (h : SymsOk a) {sym : Symbol}
    (hs : match sym.kind with | .var v => v.name = sym.name | .func f => f.numParams = f.paramTypes.length | _ => True) :
    SymsOk (a ++ [sym]) := by
  intro j s hj
  rw [List.getElem?_append] at hj
  split at hj
  · exact h _ _ hj
  · rw [List.getElem?_singleton] at hj
    split at hj
    · cases hj; exact hs
    · cases hj

theorem strtoll_range (s : List Char) (base : Nat) : llongMin ≤ (strtoll s base).1 ∧ (strtoll s base).1 ≤ llongMax := by
  have key : ∀ v : Int, llongMin ≤ (if v > llongMax then (llongMax, true) else if v < llongMin then (llongMin, true) else (v, false)).1 ∧
      (if v > llongMax then (llongMax, true) else if v < llongMin then (llongMin, true) else (v, false)).1 ≤ llongMax := by
    intro v
    split
    · simp [llongMin, llongMax]
    · split
      · simp [llongMin, llongMax]
      · dsimp only; omega
  exact key _

theorem evalInteger_range {t : Token} {i : Int} (h : evalInteger t = .ok i) : - 2 ^ 63 ≤ i ∧ i < 2 ^ 63 := by
  unfold evalInteger at h
  split at h
  · cases h
  · rename_i begin _
    dsimp only at h
    split at h
    · cases h
    · rename_i num _
      have := strtoll_range num (integerStart begin).2
      simp only [llongMin, llongMax] at this
      split at h
      · cases h
      · cases h
        refine ⟨?_, ?_⟩ <;> omega

theorem evalRune_scalar {t : Token} {r : Nat} (h : evalRune t = .ok r) : isScalar r = true := by
  unfold evalRune at h
  split at h
  · cases h
  · cases h
  · rename_i start _
    have key : ∀ c : Nat, (if c > 255 then Ev.ub else if cIsCntrl c then .controlChar else match c32sunescape start with
        | none => .badEscape
        | some (ret, start') =>
          match start' with
          | [] => .ub
          | _ :: rest => if rest.head? ≠ some '\'' then .runeTooLong else if !isScalar ret then .illegalSeq else .ok ret) = Ev.ok r →
        isScalar r = true := by
      intro c h
      split at h
      · cases h
      · split at h
        · cases h
        · split at h
          · cases h
          · split at h
            · cases h
            · split at h
              · cases h
              · split at h
                · cases h
                · cases h
                  rename_i h1
                  simpa using h1
    exact key _ h

theorem mem_takeWhile {p : α → Bool} {x : α} : ∀ {l : List α}, x ∈ l.takeWhile p → p x = true
  | [], h => by cases h
  | a :: l, h => by
    unfold List.takeWhile at h
    split at h
    · rename_i ha
      cases h with
      | head => exact ha
      | tail _ h => exact mem_takeWhile h
    · cases h

theorem const_ok {cfg : Cfg} {t : Token} {s v s'} (h : validateConst cfg t s = .ok v s') : ConstOk t v := by
  unfold validateConst at h
  cases ht : t.ty <;> simp only [ht] at h <;> try (cases h; done)
  · replace h := bind_ok.1 h
    obtain ⟨i, s₁, h1, h⟩ := h
    cases h
    have := (evalLit_ok.1 h1).1
    exact ⟨ht, this, evalInteger_range this⟩
  · replace h := bind_ok.1 h
    obtain ⟨i, s₁, h1, h⟩ := h
    cases h
    trivial
  · cases h; trivial
  · replace h := bind_ok.1 h
    obtain ⟨i, s₁, h1, h⟩ := h
    cases h
    exact evalRune_scalar (evalLit_ok.1 h1).1
  · replace h := bind_ok.1 h
    obtain ⟨i, s₁, h1, h⟩ := h
    unfold toBytes at h
    split at h
    · rename_i h2
      cases h
      intro c hc
      refine ⟨List.all_eq_true.1 h2 c hc, ?_⟩
      simpa using mem_takeWhile hc
    · cases h

theorem scopeFindVar_def {t id v s s'} (h : scopeFindVar t s = .ok (id, v) s') : v.isDefined = true := by
  unfold scopeFindVar at h
  replace h := bind_ok.1 h
  obtain ⟨n, s₁, h1, h⟩ := h
  replace h := bind_ok.1 h
  obtain ⟨o, s₂, h2, h⟩ := h
  split at h
  · cases h
  · replace h := bind_ok.1 h
    obtain ⟨sym, s₃, h3, h⟩ := h
    cases hk : sym.kind with
    | var v' =>
      simp only [hk] at h
      split at h
      · cases h; assumption
      · cases h
    | ns o => simp only [hk] at h; cases o <;> cases h
    | _ => simp only [hk] at h; cases h

theorem notDiv_ok {r : AExpr} {s s'} (h : notDivByZero r s = .ok () s') (syms : List Symbol) (hw : WtE syms r) :
    ∀ t, r ≠ .const t (.int 0) := by
  rintro t rfl
  cases hw with
  | const h1 =>
    obtain ⟨h1, h2, _⟩ := h1
    simp [notDivByZero, h1, h2, Chk.error] at h

/-- The rules of an operator between operands. -/
theorem bin_rules {syms r} (o : Oper) (ho : isInfixOper o = true) (hw : WtE syms r) {t : Token} {s s₁ s' : SS} {ty : Ty}
    (h1 : validateRestrictions o r t s = .ok () s₁) (h2 : exprType o r.type s₁ = .ok ty s') :
    binType o r.type = some ty ∧ (o = .div ∨ o = .mod → ∀ t, r ≠ .const t (.int 0)) := by
  refine ⟨?_, ?_⟩
  · cases o <;> simp only [isInfixOper, isPrefixOper] at ho <;> first | (exfalso; revert ho; decide) | skip
    all_goals
      simp only [validateRestrictions, bind_ok_unit, validatePow, chkIf_ok, isNumeric_ok] at h1
      simp only [exprType, pure_ok] at h2
    all_goals
      generalize r.type = τ at *
      rcases τ with p | τ
      · cases p <;> simp [binType, tInt, tFloat, tBool, Int', Float', Bool'] at * <;> grind
      · simp [binType, tInt, tFloat, tBool, Int', Float', Bool'] at * <;> grind
  · rintro (rfl | rfl)
    · simp only [validateRestrictions, bind_ok_unit] at h1
      obtain ⟨_, h1, _⟩ := h1
      exact notDiv_ok h1 syms hw
    · simp only [validateRestrictions, bind_ok_unit] at h1
      obtain ⟨_, h1, _⟩ := h1
      exact notDiv_ok h1 syms hw

/-- The rules of an operator before an operand. -/
theorem un_rules {syms r} (o : Oper) (ho : isPrefixOper o = true) (hw : WtE syms r) {t : Token} {s s₁ s' : SS} {ty : Ty}
    (h1 : validateRestrictions o r t s = .ok () s₁) (h2 : exprType o r.type s₁ = .ok ty s') : WtE syms (.un o r ty r.isConstExpr) := by
  cases o <;> simp only [isPrefixOper] at ho <;> first | (exfalso; revert ho; decide) | skip
  · refine .un ?_ hw
    simp only [validateRestrictions, isNumeric_ok] at h1
    simp only [exprType, pure_ok] at h2
    generalize r.type = τ at *
    rcases τ with p | τ
    · cases p <;> simp [unType, tInt, tFloat, tBool, Int', Float', Bool'] at * <;> grind
    · simp [tInt, tFloat] at h1
  · refine .un ?_ hw
    simp only [validateRestrictions, chkIf_ok] at h1
    simp only [exprType, pure_ok] at h2
    generalize r.type = τ at *
    rcases τ with p | τ
    · cases p <;> simp [unType, tInt, tFloat, tBool, Int', Float', Bool'] at * <;> grind
    · simp [tBool] at h1
  · simp only [validateRestrictions, chkIf_ok, Classical.not_not] at h1
    simp only [exprType, pure_ok] at h2
    obtain ⟨rfl, _⟩ := h2
    cases hw with
    | un h _ =>
      rename_i o _ _
      simp only [AExpr.oper] at h1
      rw [h1.1] at h
      revert h
      cases (AExpr.type _) <;> simp [unType]
    | bin _ _ _ h _ =>
      rename_i o _ _ _
      simp only [AExpr.oper] at h1
      rw [h1.1] at h
      revert h
      cases (AExpr.type _) <;> simp [binType]
    | ident g1 g2 g3 g4 => exact .ref (.ident g1 g2 g3 g4)
    | _ => simp [AExpr.oper] at h1
  · unfold validateRestrictions at h1
    simp only at h1
    cases r with
    | ident t id ty' c =>
      cases ty' with
      | ref τ =>
        simp only [AExpr.type, exprType, pure_ok] at h2
        obtain ⟨rfl, _⟩ := h2
        exact .deref hw
      | prim p => simp [AExpr.type, Chk.error] at h1
    | _ => simp [Chk.error] at h1

mutual

theorem expr_wt {cfg : Cfg} : ∀ (e : Expr) (s : SS) (a : AExpr) (s' : SS), SymsOk s.syms → validateExpr cfg e s = .ok a s' →
    Ext s.syms s'.syms ∧ SymsOk s'.syms ∧ WtE s'.syms a
  | .missing, s, a, s', hi, h => by simp [validateExpr, Chk.ub] at h
  | .ident t, s, a, s', hi, h => by
    simp only [validateExpr] at h
    replace h := bind_ok.1 h
    obtain ⟨⟨id, v⟩, s₁, h1, h⟩ := h
    obtain ⟨sym, h2, h3⟩ := scopeFindVar_at h1
    have hdef : v.isDefined = true := scopeFindVar_def h1
    have k := scopeFindVar_keeps t _ _ _ h1
    replace h := bind_ok_unit.1 h
    obtain ⟨s₂, h4, h⟩ := h
    cases h
    unfold updVar at h4
    rw [updSym_eq _ h2] at h4
    cases h4
    simp only [h3]
    rw [← k.1] at hi ⊢
    have hc : ({ sym with kind := .var { v with wasRead := true } } : Symbol).lasting = sym.lasting := by simp [Symbol.lasting, h3]
    refine ⟨.set h2 hc, hi.set h2 hc, ?_⟩
    have hn := hi _ _ h2
    rw [h3] at hn
    exact .ident (v := { v with wasRead := true }) (List.getElem?_set_self (List.getElem?_eq_some_iff.1 h2).1) rfl hn hdef
  | .const t, s, a, s', hi, h => by
    simp only [validateExpr] at h
    replace h := bind_ok.1 h
    obtain ⟨v, s₁, h1, h⟩ := h
    cases h
    have k := validateConst_keeps cfg t _ _ _ h1
    rw [k.1]
    exact ⟨.refl _, hi, .const (const_ok h1)⟩
  | .call n params num, s, a, s', hi, h => by
    simp only [validateExpr] at h
    replace h := bind_ok.1 h
    obtain ⟨id, s₁, h1, h⟩ := h
    replace h := bind_ok.1 h
    obtain ⟨f, s₂, h2, h⟩ := h
    replace h := bind_ok_unit.1 h
    obtain ⟨s₃, h3, h⟩ := h
    replace h := bind_ok_unit.1 h
    obtain ⟨s₄, h4, h⟩ := h
    replace h := bind_ok.1 h
    obtain ⟨as, s₅, h5, h⟩ := h
    cases h
    have k1 := findFuncByToken_keeps n _ _ _ h1
    obtain ⟨rfl, sym, hs, hk⟩ := funcAt_ok h2
    have k4 := checkCount_keeps _ _ _ _ _ _ _ h4
    unfold updFunc at h3
    rw [updSym_eq _ hs] at h3
    cases h3
    simp only [hk] at k4
    have hc : ({ sym with kind := .func { f with wasCalled := true } } : Symbol).lasting = sym.lasting := by simp [Symbol.lasting, hk]
    rw [← k1.1] at hi ⊢
    have e1 := Ext.set hs hc
    have i1 := hi.set hs hc
    rw [← k4.1] at e1 i1
    obtain ⟨e2, i2, w⟩ := args_wt params _ _ _ _ i1 h5
    have e := e1.trans e2
    obtain ⟨sym', f', g1, g2, _, g4, g5, g6, _⟩ := e.func hs hk
    refine ⟨e, i2, ?_⟩
    rw [← g6]
    rw [← g5] at w
    have := i2 _ _ g1
    rw [g2] at this
    exact .call g1 g2 this w
  | .un o e, s, a, s', hi, h => by
    simp only [validateExpr] at h
    replace h := bind_ok_unit.1 h
    obtain ⟨s₀, h0, h⟩ := h
    rw [operFits_ok] at h0
    obtain ⟨h0, rfl⟩ := h0
    replace h := bind_ok.1 h
    obtain ⟨r, s₁, h1, h⟩ := h
    replace h := bind_ok_unit.1 h
    obtain ⟨s₂, h2, h⟩ := h
    replace h := bind_ok.1 h
    obtain ⟨ty, s₃, h3, h⟩ := h
    cases h
    obtain ⟨e1, i1, w⟩ := expr_wt e _ _ _ hi h1
    have k2 := validateRestrictions_keeps _ _ _ _ _ _ h2
    have k3 := exprType_keeps _ _ _ _ _ h3
    rw [← k2.1, ← k3.1] at e1 i1 w
    exact ⟨e1, i1, un_rules o h0 w h2 h3⟩
  | .bin o l r, s, a, s', hi, h => by
    simp only [validateExpr] at h
    replace h := bind_ok_unit.1 h
    obtain ⟨s₀, h0, h⟩ := h
    rw [operFits_ok] at h0
    obtain ⟨h0, rfl⟩ := h0
    replace h := bind_ok.1 h
    obtain ⟨ra, s₁, h1, h⟩ := h
    replace h := bind_ok.1 h
    obtain ⟨la, s₂, h2, h⟩ := h
    replace h := bind_ok_unit.1 h
    obtain ⟨s₃, h3, h⟩ := h
    rw [sameTypes_ok] at h3
    obtain ⟨h3, rfl⟩ := h3
    replace h := bind_ok_unit.1 h
    obtain ⟨s₄, h4, h⟩ := h
    replace h := bind_ok.1 h
    obtain ⟨ty, s₅, h5, h⟩ := h
    cases h
    obtain ⟨e1, i1, w1⟩ := expr_wt r _ _ _ hi h1
    obtain ⟨e2, i2, w2⟩ := expr_wt l _ _ _ i1 h2
    have k2 := validateRestrictions_keeps _ _ _ _ _ _ h4
    have k3 := exprType_keeps _ _ _ _ _ h5
    rw [← k2.1, ← k3.1] at e2 i2 w2
    have w1' := w1.keep e2
    obtain ⟨b1, b2⟩ := bin_rules o h0 w1' h4 h5
    exact ⟨e1.trans e2, i2, .bin w2 w1' h3 b1 b2⟩

theorem args_wt {cfg : Cfg} : ∀ (args : Args) (ps : List Ty) (s : SS) (as : AArgs) (s' : SS), SymsOk s.syms →
    validateArgs cfg ps args s = .ok as s' → Ext s.syms s'.syms ∧ SymsOk s'.syms ∧ WtA s'.syms ps as
  | .nil, [], s, as, s', hi, h => by
    simp only [validateArgs] at h
    cases h
    exact ⟨.refl _, hi, .nil⟩
  | .nil, p :: ps, s, as, s', hi, h => by simp [validateArgs, Chk.ub] at h
  | .cons first e next, [], s, as, s', hi, h => by
    simp only [validateArgs] at h
    cases h
    exact ⟨.refl _, hi, .more⟩
  | .cons first e next, ty :: tys, s, as, s', hi, h => by
    simp only [validateArgs] at h
    replace h := bind_ok.1 h
    obtain ⟨a, s₁, h1, h⟩ := h
    split at h
    · cases h
    · rename_i ht
      replace h := bind_ok.1 h
      obtain ⟨rest, s₂, h2, h⟩ := h
      cases h
      obtain ⟨e1, i1, w1⟩ := expr_wt e _ _ _ hi h1
      obtain ⟨e2, i2, w2⟩ := args_wt next tys _ _ _ i1 h2
      exact ⟨e1.trans e2, i2, .cons (w1.keep e2) (by simpa using ht) w2⟩

end

end Skull
