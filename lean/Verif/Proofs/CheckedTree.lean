import Verif.Proofs.Checked
import Verif.Proofs.Steady
import Verif.Spec.Accepted
/-
The semantic check of statements gives a tree in which every node has what its statement needs.
-/
namespace Skull
open Spec

/-- From one state of the check to a later one. -/
structure Grow (s s' : SS) : Prop where
  ext : Ext s.syms s'.syms
  ok : SymsOk s.syms → SymsOk s'.syms

theorem Grow.refl (s : SS) : Grow s s := ⟨.refl _, id⟩
theorem Grow.trans {a b c : SS} (h : Grow a b) (h' : Grow b c) : Grow a c := ⟨h.ext.trans h'.ext, fun x => h'.ok (h.ok x)⟩
theorem Grow.of_eq {s s' : SS} (h : s'.syms = s.syms) : Grow s s' := ⟨.of_eq h, fun x => by rw [h]; exact x⟩
theorem Grow.keeps {m : Chk α} (hm : Keeps m) {s a s'} (h : m s = .ok a s') : Grow s s' := .of_eq (hm _ _ _ h).1

theorem Grow.push {s : SS} {sym : Symbol}
    (hs : match sym.kind with | .var v => v.name = sym.name | .func f => f.numParams = f.paramTypes.length | _ => True) :
    Grow s (s.push sym) := ⟨.push _ _, fun h => h.push hs⟩

theorem mustAdd_grow {id s s'} (h : mustAdd id s = .ok () s') : s'.syms = s.syms := (scopeAddSymbol_keeps (mustAdd_ok.1 h)).1

theorem warn_syms {cfg : Cfg} {code t s s'} (h : warn cfg code t s = .ok () s') : s'.syms = s.syms := by
  unfold warn at h
  replace h := bind_ok_unit.1 h
  obtain ⟨s₁, h1, h⟩ := h
  cases h1
  split at h <;> cases h
  rfl

theorem expr_grow {cfg : Cfg} {e s a s'} (hs : SymsOk s.syms) (h : validateExpr cfg e s = .ok a s') : Grow s s' ∧ WtE s'.syms a := by
  obtain ⟨h1, h2, h3⟩ := expr_wt e s a s' hs h
  exact ⟨⟨h1, fun _ => h2⟩, h3⟩

theorem condition_wt {cfg : Cfg} {c s a s'} (hs : SymsOk s.syms) (h : condition cfg c s = .ok a s') :
    Grow s s' ∧ WtE s'.syms a ∧ a.type = .prim .bool := by
  unfold condition at h
  replace h := bind_ok.1 h
  obtain ⟨e, s₁, h1, h⟩ := h
  replace h := bind_ok_unit.1 h
  obtain ⟨s₂, h2, h⟩ := h
  cases h
  obtain ⟨g, w⟩ := expr_grow hs h1
  unfold validateCond at h2
  split at h2
  · cases h2
  · rename_i ht
    have hty : a.type = .prim .bool := by simpa [tBool] using ht
    split at h2
    · have e := warn_syms h2
      refine ⟨g.trans (.of_eq e), ?_, hty⟩
      rw [e]; exact w
    · cases h2; exact ⟨g, w, hty⟩

theorem typeAlias_wt {isConst expr tok s s'} (h : validateTypeAlias isConst expr tok s = .ok () s') : Grow s s' := by
  unfold validateTypeAlias at h
  split at h
  · exact .keeps (.bind (headTok_keeps _) fun _ => .error _ _) h
  · split at h
    · exact .keeps (.bind (headTok_keeps _) fun _ => .error _ _) h
    · replace h := bind_ok.1 h
      obtain ⟨ty, s₁, h1, h⟩ := h
      replace h := bind_ok.1 h
      obtain ⟨t, s₂, h2, h⟩ := h
      replace h := bind_ok.1 h
      obtain ⟨n, s₃, h3, h⟩ := h
      replace h := bind_ok.1 h
      obtain ⟨id, s₄, h4, h⟩ := h
      cases h4
      exact ((((Grow.keeps (tokenToType_keeps _) h1).trans (.keeps (headTok_keeps _) h2)).trans (.keeps (tokName_keeps _) h3)).trans
        (.push trivial)).trans (.of_eq (mustAdd_grow h))

theorem nodeToVar_wt {cfg name isConst isImplicit isExported e s id s'}
    (h : nodeToVar cfg name isConst isImplicit isExported e s = .ok id s') :
    ∃ n rest sym v, name = n :: rest ∧ s'.syms = s.syms ++ [sym] ∧ id = s.syms.length ∧ sym.kind = .var v ∧ v.name = sym.name ∧
      v.isConst = isConst ∧ v.isExported = isExported ∧ ∀ t args f, e ≠ .call t args f (.prim .void) := by
  unfold nodeToVar at h
  replace h := bind_ok_unit.1 h
  obtain ⟨s₁, h1, h⟩ := h
  replace h := bind_ok.1 h
  obtain ⟨ty, s₂, h2, h⟩ := h
  replace h := bind_ok.1 h
  obtain ⟨t, s₃, h3, h⟩ := h
  replace h := bind_ok.1 h
  obtain ⟨str, s₄, h4, h⟩ := h
  replace h := bind_ok.1 h
  obtain ⟨var, s₅, h5, h⟩ := h
  replace h := bind_ok.1 h
  obtain ⟨link, s₆, h6, h⟩ := h
  replace h := bind_ok.1 h
  obtain ⟨i, s₇, h7, h⟩ := h
  rw [newSym_eq] at h7
  cases h7
  replace h := bind_ok_unit.1 h
  obtain ⟨s₈, h8, h⟩ := h
  cases h
  have hv : ∀ t args f, e ≠ .call t args f (.prim .void) := by
    rintro t args f rfl
    simp [notVoidFuncAssign, tVoid, Chk.error] at h1
  have k1 : s₁.syms = s.syms := by
    unfold notVoidFuncAssign at h1
    split at h1
    · split at h1
      · cases h1
      · cases h1; rfl
    · cases h1; rfl
  have k2 : s₂.syms = s₁.syms := by
    refine (Keeps.ite (.pure _) (.bind (tokenToType_keeps _) fun o => ?_) _ _ _ h2).1
    split
    · exact .pure _
    · exact .error _ _
  have k3 := (headTok_keeps _ _ _ _ h3).1
  have k4 := (tokName_keeps _ _ _ _ h4).1
  have k5 := (makeVariable_keeps _ _ _ _ _ _ h5).1
  have k6 := (linkageName_keeps _ _ _ _ _ _ h6).1
  have k8 := mustAdd_grow h8
  have k : s₆.syms = s.syms := by rw [k6, k5, k4, k3, k2, k1]
  rw [headTok_ok] at h3
  obtain ⟨⟨rest, h3⟩, _⟩ := h3
  rw [makeVariable_ok] at h5
  obtain ⟨_, hv', _⟩ := h5
  subst hv'
  exact ⟨t, rest, _, _, h3, by rw [k8, ← k]; rfl, by rw [k], rfl, rfl, rfl, rfl, hv⟩

theorem varDef_wt {cfg name isConst isImplicit isExported e tok tokEnd s a s'} (hs : SymsOk s.syms)
    (h : validateVarDef cfg name isConst isImplicit isExported e tok tokEnd s = .ok a s') (loop before next) :
    Grow s s' ∧ WtNode s'.syms loop before a (.varDef name isConst isImplicit isExported e) .nil next := by
  unfold validateVarDef at h
  replace h := bind_ok.1 h
  obtain ⟨o, s₁, h1, h⟩ := h
  have k1 : Grow s s₁ := .keeps (tokenToType_keeps _) h1
  cases o with
  | some ty =>
    replace h := bind_ok_unit.1 h
    obtain ⟨s₂, h2, h⟩ := h
    cases h
    exact ⟨k1.trans (typeAlias_wt h2), .alias⟩
  | none =>
    simp only at h
    unfold validateVar at h
    replace h := bind_ok.1 h
    obtain ⟨x, s₂, h2, h⟩ := h
    replace h := bind_ok.1 h
    obtain ⟨id, s₃, h3, h⟩ := h
    replace h := bind_ok_unit.1 h
    obtain ⟨s₄, h4, h⟩ := h
    replace h := bind_ok.1 h
    obtain ⟨v, s₅, h5, h⟩ := h
    replace h := bind_ok_unit.1 h
    obtain ⟨s₆, h6, h⟩ := h
    rw [compatible_ok] at h6
    obtain ⟨hty, rfl⟩ := h6
    replace h := bind_ok_unit.1 h
    obtain ⟨s₇, h7, h⟩ := h
    cases h
    have k7 : s'.syms = s₆.syms := by
      unfold warnTrivial at h7
      split at h7
      · split at h7
        · cases h7; rfl
        · exact warn_syms h7
      · cases h7; rfl
    obtain ⟨k2, w⟩ := expr_grow (k1.ok hs) h2
    obtain ⟨n, rest, sym, u, rfl, e3, rfl, f1, f2, f3, f4, f5⟩ := nodeToVar_wt h3
    have g3 : s₃.syms[s₂.syms.length]? = some sym := by rw [e3]; exact getElem?_append_new _ _
    unfold updVar at h4
    rw [updSym_eq _ g3] at h4
    cases h4
    unfold varAt at h5
    replace h5 := bind_ok.1 h5
    obtain ⟨sym', s₈, h8, h5⟩ := h5
    have g4 : (s₃.syms.set s₂.syms.length { sym with kind := .var { u with isDefined := true, constExpr := some x.isConstExpr } }) =
        s₂.syms ++ [{ sym with kind := .var { u with isDefined := true, constExpr := some x.isConstExpr } }] := by
      rw [e3, List.set_append_right _ _ (Nat.le_refl _)]; simp
    simp only [f1] at h8
    rw [g4] at h8
    unfold symAt at h8
    simp only [getElem?_append_new] at h8
    cases h8
    simp only at h5
    cases h5
    rw [k7]
    have gr : Grow s₂ s' :=
      ⟨by rw [k7]; exact .push _ _, fun hx => by rw [k7]; exact hx.push (by simpa using f2)⟩
    refine ⟨(k1.trans k2).trans gr, .varDef (getElem?_append_new _ _) rfl f2 f3 f4 rfl hty.symm rfl (w.keep (.push _ _)) f5⟩

theorem varAssign_wt {cfg e tok s a s'} (hs : SymsOk s.syms) (h : validateVarAssign cfg e tok s = .ok a s') (loop before next) :
    Grow s s' ∧ WtNode s'.syms loop before a (.varAssign e) .nil next := by
  unfold validateVarAssign at h
  replace h := bind_ok.1 h
  obtain ⟨t, s₁, h1, h⟩ := h
  replace h := bind_ok.1 h
  obtain ⟨⟨id, v⟩, s₂, h2, h⟩ := h
  simp only at h
  split at h
  · cases h
  · rename_i hc
    replace h := bind_ok_unit.1 h
    obtain ⟨s₃, h3, h⟩ := h
    replace h := bind_ok.1 h
    obtain ⟨x, s₄, h4, h⟩ := h
    replace h := bind_ok_unit.1 h
    obtain ⟨s₅, h5, h⟩ := h
    rw [compatible_ok] at h5
    obtain ⟨hty, rfl⟩ := h5
    replace h := bind_ok_unit.1 h
    obtain ⟨s₆, h6, h⟩ := h
    cases h
    have k1 : Grow s s₁ := .keeps (headTok_keeps _) h1
    have k2 : Grow s₁ s₂ := .keeps (scopeFindVar_keeps _) h2
    obtain ⟨sym, hsym, hk⟩ := scopeFindVar_at h2
    have hd := scopeFindVar_def h2
    unfold updVar at h3
    rw [updSym_eq _ hsym] at h3
    cases h3
    simp only [hk] at h4
    have hl : ({ sym with kind := .var { v with wasReassigned := true } } : Symbol).lasting = sym.lasting := by simp [Symbol.lasting, hk]
    have i2 := k2.ok (k1.ok hs)
    have k3 : Grow s₂ { s₂ with syms := s₂.syms.set id { sym with kind := .var { v with wasReassigned := true } } } :=
      ⟨.set hsym hl, fun hx => hx.set hsym hl⟩
    obtain ⟨k4, w⟩ := expr_grow (k3.ok i2) h4
    have k6 : s' = s₅ := by
      unfold notRedundant at h6
      split at h6
      · split at h6
        · cases h6
        · cases h6; rfl
      · cases h6; rfl
    subst k6
    obtain ⟨sym', v', g1, g2, g3, g4, g5, g6, _, g8, _⟩ := (k3.trans k4).ext.var hsym hk
    have := i2 _ _ hsym
    rw [hk] at this
    refine ⟨((k1.trans k2).trans k3).trans k4, .assign g1 g2 (by rw [g4, g3]; exact this) (by rw [g6]; simpa using hc) (by rw [g8]; exact hd)
      (by rw [g5]; exact hty.symm) w⟩

theorem return_wt {cfg e tok next s a s'} (hs : SymsOk s.syms) (h : validateReturn cfg e tok next s = .ok a s') (loop before) :
    Grow s s' ∧ NoCode next ∧ ∀ anext, Spec.Quiet anext → WtNode s'.syms loop before a (.ret e) .nil anext := by
  unfold validateReturn at h
  replace h := bind_ok_unit.1 h
  obtain ⟨s₁, h1, h⟩ := h
  obtain rfl := sane_state h1
  replace h := bind_ok.1 h
  obtain ⟨o, s₂, h2, h⟩ := h
  replace h := bind_ok.1 h
  obtain ⟨s₃, s₄, h3, h⟩ := h
  cases h3
  replace h := bind_ok.1 h
  obtain ⟨f, s₅, h4, h⟩ := h
  replace h4 := funcAt_ok h4
  obtain ⟨rfl, _⟩ := h4
  replace h := bind_ok_unit.1 h
  obtain ⟨s₆, h5, h⟩ := h
  rw [checkReturn_ok] at h5
  obtain ⟨_, rfl⟩ := h5
  replace h := bind_ok_unit.1 h
  obtain ⟨s₇, h6, h⟩ := h
  rw [noDead_ok] at h6
  obtain ⟨hn, rfl⟩ := h6
  cases h
  cases e with
  | missing =>
    simp only [validateOptExpr] at h2
    cases h2
    exact ⟨.refl _, hn, fun anext hq => .ret hq⟩
  | _ =>
    simp only [validateOptExpr] at h2
    replace h2 := bind_ok.1 h2
    obtain ⟨x, s₈, h7, h2⟩ := h2
    cases h2
    obtain ⟨k, w⟩ := expr_grow hs h7
    exact ⟨k, hn, fun anext hq => .retValue (by simp) w hq⟩

/- ### Functions -/

/-- A parameter as it is declared. -/
def ParamSym (ty : Ty) (sym : Symbol) : Prop :=
  ∃ v, sym.kind = .var v ∧ v.name = sym.name ∧ v.isConst = true ∧ v.isDefined = true ∧ v.type = ty ∧ v.constExpr = none

theorem params_wt {ext} : ∀ (ps : List Param) (s : SS) (r : List (Ty × Nat)) (s' : SS), validateParams ext ps s = .ok r s' →
    ∃ news : List Symbol, s'.syms = s.syms ++ news ∧ news.length = r.length ∧ r.length = ps.length ∧
      (r.map Prod.snd) = List.range' s.syms.length r.length ∧
      ∀ (i : Nat) (ty : Ty) (id : Nat), r[i]? = some (ty, id) → ∃ sym, news[i]? = some sym ∧ ParamSym ty sym
  | [], s, r, s', h => by
    unfold validateParams at h
    cases h
    exact ⟨[], by simp, rfl, rfl, rfl, fun i ty id h => by simp at h⟩
  | p :: ps, s, r, s', h => by
    unfold validateParams at h
    replace h := bind_ok.1 h
    obtain ⟨o, s₁, h1, h⟩ := h
    cases o with
    | none => cases h
    | some ty =>
      simp only at h
      replace h := bind_ok.1 h
      obtain ⟨str, s₂, h2, h⟩ := h
      replace h := bind_ok.1 h
      obtain ⟨var, s₃, h3, h⟩ := h
      replace h := bind_ok.1 h
      obtain ⟨i, s₄, h4, h⟩ := h
      rw [newSym_eq] at h4
      cases h4
      replace h := bind_ok.1 h
      obtain ⟨b, s₅, h5, h⟩ := h
      cases b with
      | false => cases h
      | true =>
        simp only [if_true] at h
        replace h := bind_ok.1 h
        obtain ⟨rest, s₆, h6, h⟩ := h
        cases h
        have k1 := (tokenToType_keeps _ _ _ _ h1).1
        have k2 := (tokName_keeps _ _ _ _ h2).1
        have k3 := (makeVariable_keeps _ _ _ _ _ _ h3).1
        have k5 := (scopeAddVar_keeps h5).1
        rw [makeVariable_ok] at h3
        obtain ⟨_, hv, _⟩ := h3
        subst hv
        obtain ⟨news, a1, a2, a3, a4, a5⟩ := params_wt ps _ _ _ h6
        have k : s₃.syms = s.syms := by rw [k3, k2, k1]
        unfold SS.push at k5
        simp only [k] at k5
        generalize hS : ({ name := str, exprType := some ty, loc := some p.name, kind := .var { type := ty, name := str, linkageName := str, isConst := true, isDefined := true, wasReassigned := ext, wasRead := ext } } : Symbol) = S at k5
        have e5 : s₅.syms = s.syms ++ [S] := k5
        refine ⟨S :: news, by rw [a1, e5, List.append_assoc]; rfl, by simp [a2], by simp [a3], ?_, ?_⟩
        · rw [List.map_cons, a4, e5, k, List.length_append, List.length_cons, List.length_nil, List.length_cons, List.range'_succ]
        · intro i ty id h
          cases i with
          | zero =>
            simp only [List.getElem?_cons_zero, Option.some.injEq, Prod.mk.injEq] at h
            obtain ⟨rfl, rfl⟩ := h
            exact ⟨S, rfl, _, by rw [← hS], by rw [← hS], rfl, rfl, rfl, rfl⟩
          | succ i =>
            simp only [List.getElem?_cons_succ] at h ⊢
            exact a5 i ty id h

/-- What the declaration of a function does to the symbols. -/
theorem funcDecl_wt {cfg : Cfg} {p : FuncProto} {s r s'} (hp : p.numParams = p.params.length) (h : validateFuncDecl cfg p s = .ok r s') :
    Grow s s' ∧ ∃ sym f, s'.syms[r.1]? = some sym ∧ sym.kind = .func f ∧ f.isExternal = p.isExternal ∧ f.isExport = p.isExport ∧
      f.numParams = p.numParams ∧ f.numParams = f.paramTypes.length ∧ r.2.length = f.numParams ∧ r.2.Nodup ∧
      ∀ (i id : Nat) (ty : Ty), r.2[i]? = some id → f.paramTypes[i]? = some ty → IsParam s'.syms id ty := by
  unfold validateFuncDecl at h
  replace h := bind_ok_unit.1 h
  obtain ⟨t₁, g1, h⟩ := h
  replace h := bind_ok.1 h
  obtain ⟨ret, t₂, g2, h⟩ := h
  replace h := bind_ok.1 h
  obtain ⟨str, t₃, g3, h⟩ := h
  replace h := bind_ok.1 h
  obtain ⟨link, t₄, g4, h⟩ := h
  replace h := bind_ok.1 h
  obtain ⟨id, t₅, g5, h⟩ := h
  rw [newSym_eq] at g5
  cases g5
  replace h := bind_ok_unit.1 h
  obtain ⟨t₆, g6, h⟩ := h
  replace h := bind_ok_unit.1 h
  obtain ⟨t₇, g7, h⟩ := h
  replace h := bind_ok.1 h
  obtain ⟨ids, t₈, g8, h⟩ := h
  cases h
  have j1 := (Keeps.bind isTopLvlScope_keeps (fun _ => .ite (.error _ _) (.pure _)) _ _ _ g1).1
  have j2 : t₂.syms = t₁.syms := by
    have : Keeps (validateReturnType p.returnType) := by
      unfold validateReturnType
      split
      · exact .pure _
      · refine .bind (tokenToType_keeps _) fun o => ?_
        split
        · exact .pure _
        · exact .error _ _
    exact (this _ _ _ g2).1
  have j3 := (tokName_keeps _ _ _ _ g3).1
  have j4 := (linkageName_keeps _ _ _ _ _ _ g4).1
  have j : t₄.syms = s.syms := by rw [j4, j3, j2, j1]
  have j6 := (enterFunc_keeps _ _ _ _ g6).1
  have j7 := mustAdd_grow g7
  unfold SS.push at j6
  simp only [j] at j6
  have e7 := j7.trans j6
  unfold validateFuncParams at g8
  rw [j]
  split at g8
  · rename_i hz
    cases g8
    refine ⟨⟨by rw [e7]; exact .push _ _, fun hx => by rw [e7]; exact hx.push (by simpa using hz)⟩, ?_⟩
    rw [e7]
    exact ⟨_, _, getElem?_append_new _ _, rfl, rfl, rfl, rfl, by simpa using hz, by simp [hz], .nil, fun i id ty h => by simp at h⟩
  · replace g8 := bind_ok_unit.1 g8
    obtain ⟨s₁, h1, h⟩ := g8
    replace h := bind_ok.1 h
    obtain ⟨ps, s₂, h2, h⟩ := h
    replace h := bind_ok_unit.1 h
    obtain ⟨s₃, h3, h⟩ := h
    replace h := bind_ok_unit.1 h
    obtain ⟨s₄, h4, h⟩ := h
    cases h
    have k1 := (makeChildScope_keeps _ _ _ h1).1
    have k4 := (restoreParentScope_keeps _ _ _ h4).1
    obtain ⟨news, a1, a2, a3, a4, a5⟩ := params_wt _ _ _ _ h2
    rw [k1, e7] at a1 a4
    have len : ps.length = p.numParams := by rw [a3, List.length_take]; omega
    generalize hF : ({ name := str, linkageName := link, exprType := some ret, loc := some p.name, kind := .func { numParams := p.numParams, paramTypes := [], returnType := ret, isExternal := p.isExternal, isExport := p.isExport } } : Symbol) = F at *
    have gF : s₂.syms[s.syms.length]? = some F := by
      rw [a1, List.append_assoc, List.getElem?_append_right (Nat.le_refl _)]
      simp
    unfold updFunc at h3
    rw [j, updSym_eq _ gF] at h3
    cases h3
    subst hF
    simp only at k4
    rw [a1] at k4
    generalize hF' : ({ name := str, linkageName := link, exprType := some ret, loc := some p.name, kind := .func { numParams := p.numParams, paramTypes := ps.map Prod.fst, returnType := ret, isExternal := p.isExternal, isExport := p.isExport } } : Symbol) = F' at *
    have e4 : s'.syms = s.syms ++ (F' :: news) := by
      rw [k4, List.append_assoc, List.set_append_right _ _ (Nat.le_refl _)]
      simp
    have hpar : ∀ (i id : Nat) (ty : Ty), (ps.map Prod.snd)[i]? = some id → (ps.map Prod.fst)[i]? = some ty → IsParam s'.syms id ty := by
      intro i id ty hi ht
      have hid : id = s.syms.length + 1 + i := by
        rw [a4, List.getElem?_range'] at hi
        · simp at hi; omega
        · have := (List.getElem?_eq_some_iff.1 ht).1
          simpa using this
      have hps : ps[i]? = some (ty, id) := by
        simp only [List.getElem?_map, Option.map_eq_some_iff] at hi ht
        obtain ⟨x, b1, b2⟩ := hi
        obtain ⟨y, b3, b4⟩ := ht
        rw [b1] at b3
        cases b3
        rw [b1, ← b2, ← b4]
      obtain ⟨sym, c1, v, c2, c3, c4, c5, c6, c7⟩ := a5 i ty id hps
      refine ⟨sym, v, ?_, c2, c3, c4, c5, c6, c7⟩
      rw [e4, List.getElem?_append_right (by omega), hid, show s.syms.length + 1 + i - s.syms.length = i + 1 by omega]
      exact c1
    have hok : ∀ sym ∈ news, ∃ v, sym.kind = .var v ∧ v.name = sym.name := by
      intro sym hm
      obtain ⟨i, hi⟩ := List.getElem?_of_mem hm
      have hlt : i < ps.length := by rw [← a2]; exact (List.getElem?_eq_some_iff.1 hi).1
      obtain ⟨sym', c1, v, c2, c3, _⟩ := a5 i (ps[i].1) (ps[i].2) (by rw [List.getElem?_eq_getElem hlt])
      rw [hi] at c1
      cases c1
      exact ⟨v, c2, c3⟩
    refine ⟨⟨?_, ?_⟩, F', { numParams := p.numParams, paramTypes := ps.map Prod.fst, returnType := ret, isExternal := p.isExternal, isExport := p.isExport }, ?_, by rw [← hF'], rfl, rfl, rfl, by simp [len], by simp [len], ?_, hpar⟩
    · rw [e4]
      refine ⟨by simp, fun id sym h => ⟨sym, ?_, rfl⟩⟩
      rw [List.getElem?_append_left (List.getElem?_eq_some_iff.1 h).1]
      exact h
    · intro hx
      rw [e4]
      intro id sym h
      rw [List.getElem?_append] at h
      split at h
      · exact hx _ _ h
      · have := List.mem_of_getElem? h
        rcases List.mem_cons.1 this with rfl | hm
        · rw [← hF']
          simp [len]
        · obtain ⟨v, c1, c2⟩ := hok _ hm
          rw [c1]
          exact c2
    · rw [e4, List.getElem?_append_right (Nat.le_refl _)]
      simp
    · rw [a4]
      exact List.nodup_range'

/- ### Blocks -/

/-- Every function of the tree has the number of parameters that it says. -/
abbrev Sized (t : Tree) : Prop := AllStmts (fun st => ∀ p, st = .funcProto p → p.numParams = p.params.length) t

/-- What the check of blocks gives. -/
def NodesWt (cfg : Cfg) (t : Tree) : Prop :=
  ∀ before s a s' loop, Sized t → SymsOk s.syms → s.whileDepth < 2 ^ 32 → (0 < s.whileDepth → loop = true) →
    validateNodes cfg before t s = .ok a s' →
    Grow s s' ∧ s'.whileDepth = s.whileDepth ∧ WtTree s'.syms loop before a ∧ (NoCode t → Spec.Quiet a) ∧ (t ≠ .nil → a ≠ .nil)

theorem block_keeps (r : ATree) : Keeps (do resetScopeHead; restoreParentScope; makeAdjacentScope; pure r : Chk ATree) :=
  .bind resetScopeHead_keeps fun _ => .bind restoreParentScope_keeps fun _ => .bind makeAdjacentScope_keeps fun _ => .pure r

theorem block_steady (r : ATree) : Steady (do resetScopeHead; restoreParentScope; makeAdjacentScope; pure r : Chk ATree) :=
  .bind resetScopeHead_steady fun _ => .bind restoreParentScope_steady fun _ => .bind makeAdjacentScope_steady fun _ => .pure r

/-- The check of a block. -/
theorem block_wt {cfg child s a s' loop} (hn : NodesWt cfg child) (hz : Sized child) (hs : SymsOk s.syms) (hd : s.whileDepth < 2 ^ 32)
    (hl : 0 < s.whileDepth → loop = true) (h : Skull.block (validateNodes cfg [] child) s = .ok a s') :
    Grow s s' ∧ s'.whileDepth = s.whileDepth ∧ WtTree s'.syms loop [] a ∧ (child ≠ .nil → a ≠ .nil) := by
  unfold Skull.block at h
  replace h := bind_ok_unit.1 h
  obtain ⟨s₁, h1, h⟩ := h
  replace h := bind_ok.1 h
  obtain ⟨r, s₂, h2, h⟩ := h
  have e : r = a := by
    replace h := bind_ok_unit.1 h
    obtain ⟨s₃, _, h⟩ := h
    replace h := bind_ok_unit.1 h
    obtain ⟨s₄, _, h⟩ := h
    replace h := bind_ok_unit.1 h
    obtain ⟨s₅, _, h⟩ := h
    cases h
    rfl
  subst e
  have k1 : Grow s s₁ := .keeps makeChildScope_keeps h1
  have d1 := makeChildScope_steady _ _ _ h1
  have k3 := (block_keeps r _ _ _ h).1
  have d3 := block_steady r _ _ _ h
  obtain ⟨k2, d2, w, _, hne⟩ := hn _ _ _ _ loop hz (k1.ok hs) (by rw [d1]; exact hd) (by rw [d1]; exact hl) h2
  refine ⟨(k1.trans k2).trans (.of_eq k3), by rw [d3, d2, d1], ?_, hne⟩
  rw [k3]
  exact w

/-- The check of a statement. -/
theorem stmt_wt {cfg before stmt tok tokEnd child next s r s' loop} (hn : NodesWt cfg child)
    (hp : ∀ p, stmt = .funcProto p → p.numParams = p.params.length) (hz : Sized child) (hs : SymsOk s.syms)
    (hd : s.whileDepth < 2 ^ 32) (hl : 0 < s.whileDepth → loop = true)
    (h : validateStmt cfg before stmt tok tokEnd child next (validateNodes cfg [] child) s = .ok r s') :
    Grow s s' ∧ s'.whileDepth = s.whileDepth ∧ WtTree s'.syms (inLoop loop stmt) [] r.2 ∧
      ∀ anext, (NoCode next → Spec.Quiet anext) → WtNode s'.syms loop before r.1 stmt r.2 anext := by
  unfold validateStmt at h
  split at h
  · replace h := bind_ok.1 h
    obtain ⟨a, s₁, h1, h⟩ := h
    cases h
    obtain ⟨k, hq, w⟩ := return_wt hs h1 loop before
    exact ⟨k, return_steady _ _ _ _ _ _ _ h1, .nil, fun an ha => w an (ha hq)⟩
  · replace h := bind_ok_unit.1 h
    obtain ⟨s₁, h1, h⟩ := h
    cases h
    rw [noDead_ok] at h1
    obtain ⟨hq, rfl⟩ := h1
    exact ⟨.refl _, rfl, .nil, fun an ha => .unreachable (ha hq)⟩
  · rename_i p
    replace h := bind_ok.1 h
    obtain ⟨s₀, s₁, h0, h⟩ := h
    cases h0
    replace h := bind_ok_unit.1 h
    obtain ⟨s₂, h1, h⟩ := h
    replace h := bind_ok.1 h
    obtain ⟨d, s₃, h2, h⟩ := h
    replace h := bind_ok.1 h
    obtain ⟨body, s₄, h3, h⟩ := h
    replace h := bind_ok_unit.1 h
    obtain ⟨s₅, h4, h⟩ := h
    replace h := bind_ok_unit.1 h
    obtain ⟨s₆, h5, h⟩ := h
    cases h
    have k1 : Grow s s₂ := .keeps (setDepth_keeps _) h1
    have d1 : s₂.whileDepth = 0 := by cases h1; rfl
    obtain ⟨k2, sym, f, f1, f2, f3, f4, f5, f6, f7, f8, f9⟩ := funcDecl_wt (hp _ rfl) h2
    have d2 := funcDecl_steady _ _ _ _ _ h2
    rw [d1] at d2
    obtain ⟨k3, d3, w, _⟩ := block_wt (loop := false) hn hz (k2.ok (k1.ok hs)) (by rw [d2]; decide) (fun hx => by omega) h3
    have k4 : Grow s₄ s₅ := by
      refine .keeps (.bind .get fun _ => .bind (funcAt_keeps _) fun f => .ite (.pure _) (.bind ?_ fun _ => leaveFunc_keeps)) h4
      exact .ite (.error _ _) (.ite (.error _ _) (.pure _))
    have k5 : Grow s₅ s' := .keeps (setDepth_keeps _) h5
    have d5 : s'.whileDepth = s.whileDepth := by cases h5; exact Nat.mod_eq_of_lt hd
    have e45 := k4.trans k5
    have e345 := k3.trans e45
    refine ⟨((k1.trans k2).trans e345), d5, w.keep e45.ext, fun an _ => ?_⟩
    exact (WtNode.func f1 f2 f3 f4 f5 f6 f7 f9 f8).keep e345.ext
  · replace h := bind_ok.1 h
    obtain ⟨a, s₁, h1, h⟩ := h
    cases h
    exact ⟨(varDef_wt hs h1 loop before .nil).1, varDef_steady _ _ _ _ _ _ _ _ _ _ _ h1, .nil, fun an _ => (varDef_wt hs h1 loop before an).2⟩
  · replace h := bind_ok.1 h
    obtain ⟨a, s₁, h1, h⟩ := h
    cases h
    exact ⟨(varAssign_wt hs h1 loop before .nil).1, varAssign_steady _ _ _ _ _ _ h1, .nil, fun an _ => (varAssign_wt hs h1 loop before an).2⟩
  · cases h
  · replace h := bind_ok.1 h
    obtain ⟨a, s₁, h1, h⟩ := h
    cases h
    obtain ⟨k, w⟩ := expr_grow hs h1
    have hc : ∃ t args f ty, a = .call t args f ty := by
      simp only [validateExpr] at h1
      replace h1 := bind_ok.1 h1
      obtain ⟨_, _, _, h1⟩ := h1
      replace h1 := bind_ok.1 h1
      obtain ⟨_, _, _, h1⟩ := h1
      replace h1 := bind_ok_unit.1 h1
      obtain ⟨_, _, h1⟩ := h1
      replace h1 := bind_ok_unit.1 h1
      obtain ⟨_, _, h1⟩ := h1
      replace h1 := bind_ok.1 h1
      obtain ⟨_, _, _, h1⟩ := h1
      cases h1
      exact ⟨_, _, _, _, rfl⟩
    obtain ⟨t, args, f, ty, rfl⟩ := hc
    refine ⟨k, validateExpr_steady _ _ _ _ _ h1, ?_, fun an _ => .call w ?_⟩
    · cases child
      · exact .nil
      · exact .unchecked
    · cases child
      · exact .inl rfl
      · exact .inr ⟨_, rfl⟩
  · replace h := bind_ok.1 h
    obtain ⟨a, s₁, h1, h⟩ := h
    cases h
  · replace h := bind_ok_unit.1 h
    obtain ⟨s₁, h1, h⟩ := h
    rw [needBlock_ok] at h1
    obtain ⟨hb, rfl⟩ := h1
    replace h := bind_ok.1 h
    obtain ⟨e, s₂, h2, h⟩ := h
    replace h := bind_ok.1 h
    obtain ⟨body, s₃, h3, h⟩ := h
    cases h
    obtain ⟨k1, w1, ht⟩ := condition_wt hs h2
    have d1 := condition_steady _ _ _ _ _ h2
    obtain ⟨k2, d2, w2, hne⟩ := block_wt (loop := loop) hn hz (k1.ok hs) (by rw [d1]; exact hd) (by rw [d1]; exact hl) h3
    exact ⟨k1.trans k2, by rw [d2, d1], w2, fun an _ => .ifs (w1.keep k2.ext) ht (hne hb)⟩
  · replace h := bind_ok_unit.1 h
    obtain ⟨s₁, h1, h⟩ := h
    rw [needIf_ok] at h1
    obtain ⟨hi, rfl⟩ := h1
    replace h := bind_ok_unit.1 h
    obtain ⟨s₁, h1, h⟩ := h
    rw [needBlock_ok] at h1
    obtain ⟨hb, rfl⟩ := h1
    replace h := bind_ok.1 h
    obtain ⟨body, s₃, h3, h⟩ := h
    cases h
    obtain ⟨k2, d2, w2, hne⟩ := block_wt (loop := loop) hn hz hs hd hl h3
    exact ⟨k2, d2, w2, fun an _ => .elses hi (hne hb)⟩
  · replace h := bind_ok_unit.1 h
    obtain ⟨s₁, h1, h⟩ := h
    rw [needBlock_ok] at h1
    obtain ⟨hb, rfl⟩ := h1
    replace h := bind_ok_unit.1 h
    obtain ⟨s₁, h1, h⟩ := h
    rw [needIf_ok] at h1
    obtain ⟨hi, rfl⟩ := h1
    replace h := bind_ok.1 h
    obtain ⟨e, s₂, h2, h⟩ := h
    replace h := bind_ok.1 h
    obtain ⟨body, s₃, h3, h⟩ := h
    cases h
    obtain ⟨k1, w1, ht⟩ := condition_wt hs h2
    have d1 := condition_steady _ _ _ _ _ h2
    obtain ⟨k2, d2, w2, hne⟩ := block_wt (loop := loop) hn hz (k1.ok hs) (by rw [d1]; exact hd) (by rw [d1]; exact hl) h3
    exact ⟨k1.trans k2, by rw [d2, d1], w2, fun an _ => .elifs (w1.keep k2.ext) ht (hne hb) hi⟩
  · replace h := bind_ok.1 h
    obtain ⟨s₀, s₁, h0, h⟩ := h
    cases h0
    replace h := bind_ok_unit.1 h
    obtain ⟨s₂, h1, h⟩ := h
    have k0 : Grow s s₂ := .keeps (setDepth_keeps _) h1
    have d0 : s₂.whileDepth = (s.whileDepth + 1) % 2 ^ 32 := by cases h1; rfl
    replace h := bind_ok_unit.1 h
    obtain ⟨s₃, h2, h⟩ := h
    rw [needBlock_ok] at h2
    obtain ⟨hb, rfl⟩ := h2
    replace h := bind_ok.1 h
    obtain ⟨e, s₄, h3, h⟩ := h
    replace h := bind_ok.1 h
    obtain ⟨body, s₅, h4, h⟩ := h
    replace h := bind_ok.1 h
    obtain ⟨s₆, s₇, h5, h⟩ := h
    cases h5
    replace h := bind_ok_unit.1 h
    obtain ⟨s₈, h6, h⟩ := h
    cases h
    obtain ⟨k1, w1, ht⟩ := condition_wt (k0.ok hs) h3
    have d1 := condition_steady _ _ _ _ _ h3
    obtain ⟨k2, d2, w2, hne⟩ := block_wt (loop := true) hn hz (k1.ok (k0.ok hs)) (by rw [d1, d0]; exact Nat.mod_lt _ (by decide)) (fun _ => rfl) h4
    have k3 : Grow s₅ s' := .keeps (setDepth_keeps _) h6
    have d3 : s'.whileDepth = (s₅.whileDepth + (2 ^ 32 - 1)) % 2 ^ 32 := by cases h6; rfl
    refine ⟨((k0.trans k1).trans k2).trans k3, ?_, w2.keep k3.ext, fun an _ => .whiles (w1.keep (k2.trans k3).ext) ht (hne hb)⟩
    rw [d3, d2, d1, d0]
    omega
  · replace h := bind_ok_unit.1 h
    obtain ⟨s₁, h1, h⟩ := h
    cases h
    rw [jump_ok] at h1
    obtain ⟨⟨hx, hq⟩, rfl⟩ := h1
    exact ⟨.refl _, rfl, .nil, fun an ha => .breaks (hl hx) (ha hq)⟩
  · replace h := bind_ok_unit.1 h
    obtain ⟨s₁, h1, h⟩ := h
    cases h
    rw [jump_ok] at h1
    obtain ⟨⟨hx, hq⟩, rfl⟩ := h1
    exact ⟨.refl _, rfl, .nil, fun an ha => .continues (hl hx) (ha hq)⟩
  · replace h := bind_ok.1 h
    obtain ⟨id, s₁, h1, h⟩ := h
    replace h := bind_ok.1 h
    obtain ⟨body, s₂, h2, h⟩ := h
    replace h := bind_ok_unit.1 h
    obtain ⟨s₃, h3, h⟩ := h
    cases h
    unfold declareNamespace at h1
    replace h1 := bind_ok.1 h1
    obtain ⟨t, t₁, g1, h1⟩ := h1
    replace h1 := bind_ok.1 h1
    obtain ⟨n, t₂, g2, h1⟩ := h1
    replace h1 := bind_ok.1 h1
    obtain ⟨i, t₃, g3, h1⟩ := h1
    rw [newSym_eq] at g3
    cases g3
    replace h1 := bind_ok_unit.1 h1
    obtain ⟨t₄, g4, h1⟩ := h1
    cases h1
    have j1 : Grow s t₁ := .keeps (headTok_keeps _) g1
    have j2 : Grow t₁ t₂ := .keeps (tokName_keeps _) g2
    have j3 : Grow t₂ (t₂.push { name := n, loc := some t, kind := .ns Option.none }) := .push trivial
    have j4 : Grow _ s₁ := .of_eq (mustAdd_grow g4)
    have i1 := headTok_steady _ _ _ _ g1
    have i2 := tokName_steady _ _ _ _ g2
    have i4 := mustAdd_steady _ _ _ _ g4
    have ii : s₁.whileDepth = s.whileDepth := by rw [i4, ← i1, ← i2]; rfl
    have jj := ((j1.trans j2).trans j3).trans j4
    obtain ⟨k2, d2, w2, _⟩ := block_wt (loop := loop) hn hz (jj.ok hs) (by rw [ii]; exact hd) (by rw [ii]; exact hl) h2
    obtain ⟨sym, f1, f2⟩ := (j4.trans k2).ext.lasting _ _ (push_get t₂ _)
    have f3 : ∃ o, sym.kind = .ns o := by
      cases hk' : sym.kind <;> simp [Symbol.lasting, hk'] at f2
      exact ⟨_, rfl⟩
    obtain ⟨o, f3⟩ := f3
    unfold closeNamespace at h3
    split at h3
    · cases h3
    · rename_i sc _
      rw [updSym_eq _ f1] at h3
      cases h3
      have hl' : ({ sym with kind := .ns sc } : Symbol).lasting = sym.lasting := by simp [Symbol.lasting, f3]
      have k3 : Grow s₂ { s₂ with syms := s₂.syms.set t₂.syms.length { sym with kind := .ns sc } } := ⟨.set f1 hl', fun hx => hx.set f1 hl'⟩
      refine ⟨(jj.trans k2).trans k3, by rw [← ii, ← d2], w2.keep k3.ext, fun an _ => ?_⟩
      exact (WtNode.ns f1).keep k3.ext
  · replace h := bind_ok_unit.1 h
    obtain ⟨s₁, h1, h⟩ := h
    cases h
    have k : Grow s s' := by
      refine .keeps ?_ h1
      exact .bind (headTok_keeps _) fun _ => .bind (tokName_keeps _) fun _ => .ite (.error _ _) (.ite (.error _ _) (.pure _))
    have d : s'.whileDepth = s.whileDepth := by
      refine (?_ : Steady (validateImport cfg tok)) _ _ _ h1
      exact .bind (headTok_steady _) fun _ => .bind (tokName_steady _) fun _ => .ite (.error _ _) (.ite (.error _ _) (.pure _))
    exact ⟨k, d, .nil, fun an _ => .other (by simp)⟩
  all_goals
    cases h
    exact ⟨.refl _, rfl, .nil, fun an _ => .other (by simp)⟩

theorem nodes_wt {cfg : Cfg} : ∀ t, NodesWt cfg t
  | .nil => by
    intro before s a s' loop _ hs hd hl h
    unfold validateNodes at h
    cases h
    exact ⟨.refl _, rfl, .nil, fun _ => trivial, fun h => absurd rfl h⟩
  | .node stmt tok tokEnd child next => by
    intro before s a s' loop hz hs hd hl h
    unfold validateNodes at h
    replace h := bind_ok_unit.1 h
    obtain ⟨s₁, h1, h⟩ := h
    obtain rfl := sane_state h1
    replace h := bind_ok.1 h
    obtain ⟨r, s₂, h2, h⟩ := h
    replace h := bind_ok.1 h
    obtain ⟨rest, s₃, h3, h⟩ := h
    cases h
    obtain ⟨k1, d1, w1, f1⟩ := stmt_wt (loop := loop) (nodes_wt child) hz.1 hz.2.1 hs hd hl h2
    obtain ⟨k2, d2, w2, q2, _⟩ := nodes_wt next _ _ _ _ loop hz.2.2 (k1.ok hs) (by rw [d1]; exact hd) (by rw [d1]; exact hl) h3
    refine ⟨k1.trans k2, by rw [d2, d1], .node ((f1 rest q2).keep k2.ext) (w1.keep k2.ext) w2, ?_, fun _ => by simp⟩
    intro hq
    cases stmt <;> simp only [NoCode, false_and] at hq
    all_goals exact ⟨by simp, q2 hq⟩

theorem parsed_sized {t : Tree} (h : Parsed t) : Sized t := by
  obtain ⟨toks, s, h⟩ := h
  refine (parsed_written h).mono ?_
  rintro st (rfl | ⟨pre, pos, ts, h1, h2⟩) p hp
  · cases hp
  · subst hp
    cases h2 with
    | @func _ _ _ _ _ _ _ _ _ params =>
      simp only [List.length_take]
      have := Nat.mod_le params.length 65536
      omega

theorem report_syms {c t s s'} (h : report c t s = .ok () s') : s'.syms = s.syms := by cases h; rfl

theorem warnIf_syms {cfg b e c t s r s'} (h : warnIf cfg b e c t s = .ok r s') : s'.syms = s.syms := by
  unfold warnIf at h
  split at h
  · replace h := bind_ok_unit.1 h
    obtain ⟨s₁, h1, h⟩ := h
    cases h
    exact report_syms h1
  · cases h; rfl

theorem unusedSym_syms {cfg b sym s r s'} (h : unusedSym cfg b sym s = .ok r s') : s'.syms = s.syms := by
  unfold unusedSym at h
  cases hk : sym.kind <;> simp only [hk] at h
  · replace h := bind_ok.1 h
    obtain ⟨b, s₁, h1, h⟩ := h
    exact (warnIf_syms h).trans (warnIf_syms h1)
  · exact warnIf_syms h
  · cases h
  · cases h

theorem checkUnused_syms {cfg} : ∀ (t : ATree) (b : Bool) (s : SS) (r : Bool) (s' : SS), checkUnused cfg b t s = .ok r s' → s'.syms = s.syms
  | .nil, b, s, r, s', h => by unfold checkUnused at h; cases h; rfl
  | .unchecked t, b, s, r, s', h => by
    unfold checkUnused at h
    split at h <;> cases h
    rfl
  | .node ann stmt tok child next, b, s, r, s', h => by
    have sub : ∀ id, (do let sym ← symAt id; let err ← unusedSym cfg b sym; checkUnused cfg err next : Chk Bool) s = .ok r s' →
        s'.syms = s.syms := by
      intro id h
      replace h := bind_ok.1 h
      obtain ⟨sym, s₁, h1, h⟩ := h
      replace h := bind_ok.1 h
      obtain ⟨e, s₂, h2, h⟩ := h
      rw [checkUnused_syms next _ _ _ _ h, unusedSym_syms h2, (symAt_keeps _ _ _ _ h1).1]
    have inner : child ≠ .nil → (do let inner ← checkUnused cfg false child; checkUnused cfg (b && !inner) next : Chk Bool) s = .ok r s' →
        s'.syms = s.syms := by
      intro _ h
      replace h := bind_ok.1 h
      obtain ⟨e, s₁, h1, h⟩ := h
      rw [checkUnused_syms next _ _ _ _ h, checkUnused_syms child _ _ _ _ h1]
    cases ann with
    | varDef id e => unfold checkUnused at h; exact sub id h
    | func id ps => unfold checkUnused at h; exact sub id h
    | _ =>
      cases child with
      | nil => unfold checkUnused at h; exact checkUnused_syms next _ _ _ _ h
      | _ => rw [checkUnused] at h <;> first | exact inner (by simp) h | simp

/-- The tree that the check of a file gives. -/
theorem semantic_wt {cfg : Cfg} {t : Tree} {a : ATree} {s : SS} (hp : Parsed t) (h : semantic cfg t = .ok a s) :
    SymsOk s.syms ∧ WtTree s.syms false [] a := by
  unfold semantic at h
  cases hs : setupState cfg with
  | none => rw [hs] at h; cases h
  | some s₀ =>
    rw [hs] at h
    simp only at h
    unfold validateAstTree at h
    replace h := bind_ok.1 h
    obtain ⟨a', s₁, h1, h⟩ := h
    replace h := bind_ok_unit.1 h
    obtain ⟨s₂, h2, h⟩ := h
    replace h := bind_ok_unit.1 h
    obtain ⟨s₃, h3, h⟩ := h
    have h0 : SymsOk s₀.syms ∧ s₀.whileDepth = 0 := by
      unfold setupState at hs
      cases hn : createMainFuncName cfg.filename with
      | none => rw [hn] at hs; cases hs
      | some name =>
        rw [hn] at hs
        cases hs
        refine ⟨?_, rfl⟩
        intro id sym hid
        cases id with
        | zero => cases hid; rfl
        | succ n => cases hid
    obtain ⟨k, _, w, _⟩ := nodes_wt t [] s₀ a' s₁ false (parsed_sized hp) h0.1 (by rw [h0.2]; decide) (by rw [h0.2]; decide) h1
    have e : s.syms = s₁.syms ∧ a' = a := by
      have e3 := (resetScopeHead_keeps _ _ _ h3).1.trans (resetScopeHead_keeps _ _ _ h2).1
      split at h
      · cases h; exact ⟨e3, rfl⟩
      · replace h := bind_ok.1 h
        obtain ⟨err, s₄, h4, h⟩ := h
        split at h
        · cases h
        · cases h
          exact ⟨(checkUnused_syms _ _ _ _ _ h4).trans e3, rfl⟩
    rw [e.1, ← e.2]
    exact ⟨k.ok h0.1, w⟩

end Skull
