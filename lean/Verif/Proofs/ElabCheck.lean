import Verif.Proofs.ElabExpr
/-
What the check makes of a program belongs to it.
-/
namespace Skull.Elab
open Skull.Spec
open Skull.SemDef (Kinds still_nodes still_block still_resetScopeHead still_restoreParentScope still_makeAdjacentScope
  still_validateFuncParams still_mustAdd still_postValidateFunc still_setDepth SymStays)

/-- What the check makes of statements belongs to them. -/
def NodesEl (cfg : Cfg) (W : World) (sF : SS) (t : Tree) : Prop :=
  ∀ before s a s' inF B E c E', validateNodes cfg before t s = .ok a s' → Counted t → CallsBare t → AllNodes AsWritten t →
    SemPre W false inF s B E c → E.WF → Kinds s' sF → Stmts W c E before t E' → ElT W sF.syms E t a E'

theorem block_parts {s r s' B E pend} {nodes : Chk ATree} (h : block nodes s = .ok r s') (hi : SInv s B E pend) :
    ∃ i sc s₂, s.withScope.scope = some i ∧ s.withScope.scopes[i]? = some sc ∧ nodes (opened s.withScope i sc) = .ok r s₂ ∧
      Kinds s₂ s' := by
  obtain ⟨_, _, _, _, i, sc, hs, hsc⟩ := withScope_inv hi
  unfold block at h
  rw [bind_of _ (makeChild_eq hi hs hsc)] at h
  replace h := bind_ok.1 h
  obtain ⟨r', s₂, h1, h⟩ := h
  replace h := bind_ok_unit.1 h
  obtain ⟨s₃, h2, h⟩ := h
  replace h := bind_ok_unit.1 h
  obtain ⟨s₄, h3, h⟩ := h
  replace h := bind_ok_unit.1 h
  obtain ⟨s₅, h4, h⟩ := h
  cases h
  exact ⟨i, sc, s₂, hs, hsc, h1, ((still_resetScopeHead.ok h2).kinds.trans (still_restoreParentScope.ok h3).kinds).trans
    (still_makeAdjacentScope.ok h4).kinds⟩

theorem block_el {cfg W sF child s r s' inF B E E₁ c} (hn : NodesEl cfg W sF child)
    (h : block (validateNodes cfg [] child) s = .ok r s') (hcnt : Counted child) (hb : CallsBare child) (hw : AllNodes AsWritten child)
    (hp : SemPre W false inF s B E c) (hwf : E.WF) (hk : Kinds s' sF) (hs : Stmts W c.inner E [] child E₁) :
    ElT W sF.syms E child r E₁ := by
  obtain ⟨i, sc, s₂, h1, h2, h3, h4⟩ := block_parts h hp.inv
  exact hn _ _ _ _ _ _ _ _ _ h3 hcnt hb hw (hp.withScope.pre.opened h1 h2) hwf (h4.trans hk) hs

/-- The symbols of parameters come one after the other. -/
theorem params_ids {isExt B pend} : ∀ (ps : List Param) (s : SS) (r : List (Ty × Nat)) (s' : SS) (E : Env),
    validateParams isExt ps s = .ok r s' → SInv s B E pend → r.map Prod.snd = List.range' s.syms.length r.length
  | [], s, r, s', E, h, hi => by
    unfold validateParams at h
    cases h
    rfl
  | p :: ps, s, r, s', E, h, hi => by
    unfold validateParams at h
    replace h := bind_ok.1 h
    obtain ⟨o, s₁, h1, h⟩ := h
    replace h1 := tokenToType_sound hi _ h1
    obtain ⟨rfl, h1⟩ := h1
    cases o with
    | none => cases h
    | some ty =>
      simp only at h
      replace h := bind_ok.1 h
      obtain ⟨x, s₂, h2, h⟩ := h
      replace h2 := tokName_ok.1 h2
      obtain ⟨h2, rfl⟩ := h2
      replace h := bind_ok.1 h
      obtain ⟨v, s₃, h3, h⟩ := h
      rw [makeVariable_ok] at h3
      obtain ⟨h3, rfl, rfl⟩ := h3
      rw [bind_of _ (newSym_eq _ _)] at h
      replace h := bind_ok.1 h
      obtain ⟨b, s₄, h4, h⟩ := h
      cases b with
      | false => cases h
      | true =>
        simp only [if_true] at h
        replace h := bind_ok.1 h
        obtain ⟨rest, s₅, h5, h⟩ := h
        cases h
        unfold scopeAddVar at h4
        rw [bind_of _ (symAt_eq (push_get _ _))] at h4
        have hk : SymIs s₃.scopes s₃.scope pend (E.decls.length + 1) E.decls.length (some ty)
            (.var { type := ty, name := x, linkageName := x, isConst := true, isDefined := true, wasReassigned := isExt,
                    wasRead := isExt }) (.var ty false) := .var fun _ => rfl
        have hpush := push_inv (sym := { name := x, exprType := some ty, loc := some p.name, kind := _ }) hi hk (.inl rfl)
        rw [bind_of _ (lookup_eq hpush x), resolve_append hi] at h4
        cases hr : E.resolve x with
        | some id => rw [hr] at h4; cases h4
        | none =>
          rw [hr] at h4
          simp only at h4
          obtain ⟨h6, h7, h8, h9, h10, h11⟩ := declare_sound hi hk (.inl rfl) h4
          have ih := params_ids ps _ _ _ _ h5 h7
          rw [h10, List.length_append] at ih
          simp only [List.map_cons, List.length_cons, List.range'_succ, ih, List.length_nil]

theorem func_sim (E : Env) (f : List Char) (τs τs' : List Ty) (τ : Ty) : Env.Sim (E.add f (.func τs τ)) (E.add f (.func τs' τ)) := by
  refine ⟨rfl, by simp [Env.add], fun i => ?_⟩
  simp only [Env.add]
  rcases Nat.lt_trichotomy i E.decls.length with hi | hi | hi
  · rw [List.getElem?_append_left hi, List.getElem?_append_left hi]; exact .inl rfl
  · subst hi
    exact .inr ⟨τs, τs', τ, by simp, by simp⟩
  · exact .inl (by rw [List.getElem?_eq_none (by simp; omega), List.getElem?_eq_none (by simp; omega)])

/-- A function with its parameters and its body. -/
theorem body_el {cfg W sF child s s₁ s₂ s₃ B E p ids r sym f τs E₁ E₂} (hW : Models cfg W) (hr : ¬ W.returns)
    (hn : NodesEl cfg W sF child) (hi : SInv s B E none) (hpos : 0 < s.syms.length) (hd : s.whileDepth = 0)
    (hk : sym.kind = .func f) (hf1 : f.numParams = p.numParams) (hf2 : f.paramTypes = [])
    (hnum : p.numParams = p.params.length)
    (h1 : mustAdd s.syms.length (s.push sym) = .ok () s₁) (h2 : validateFuncParams p s.syms.length s₁ = .ok ids s₂)
    (h3 : block (validateNodes cfg [] child) s₂ = .ok r s₃) (hcnt : Counted child) (hb : CallsBare child)
    (hw : AllNodes AsWritten child) (hwf : E.WF) (hkinds : Kinds s₃ sF)
    (hps : ParamsOk W (E.add sym.name (.func τs f.returnType)) p.params τs E₁)
    (hst : Stmts W ⟨some f.returnType, 0, false⟩ E₁ [] child E₂) :
    s₁.syms = s.syms ++ [sym] ∧ ids = List.range' (s.syms.length + 1) τs.length ∧ ElT W sF.syms E₁ child r E₂ := by
  rw [mustAdd_ok] at h1
  have hwf₁ : E₁.WF := (hps.grows (hwf.add _ (fun _ h => by cases h))).2.1
  unfold validateFuncParams at h2
  split at h2
  · rename_i hz
    cases h2
    have hp0 : p.params = [] := List.eq_nil_of_length_eq_zero (by omega)
    rw [hp0] at hps
    cases hps
    obtain ⟨g1, g2, g3, g4, g5, g6⟩ := declare_sound hi (d := .func [] f.returnType) (pend' := none)
      (by rw [hk]; exact .func fun _ => ⟨hf2, by simp; omega⟩) (.inl rfl) h1
    have hpre : SemPre W false true s₁ B (E.add sym.name (.func [] f.returnType)) ⟨some f.returnType, 0, B.isNone⟩ :=
      ⟨g2, rfl, g4.2.2.trans hd, Nat.lt_of_lt_of_le hpos g3.symsLen, fun h => absurd h hr⟩
    exact ⟨g5, rfl, block_el hn h3 hcnt hb hw hpre hwf₁ hkinds hst⟩
  · rename_i hz
    replace h2 := bind_ok_unit.1 h2
    obtain ⟨t₁, k1, h2⟩ := h2
    replace h2 := bind_ok.1 h2
    obtain ⟨ps, t₂, k2, h2⟩ := h2
    replace h2 := bind_ok_unit.1 h2
    obtain ⟨t, k3, h2⟩ := h2
    replace h2 := bind_ok_unit.1 h2
    obtain ⟨t₄, k4, h2⟩ := h2
    cases h2
    rw [hnum, List.take_length] at k2
    obtain ⟨g1, g2, g3, g4, g5, g6⟩ := declare_sound hi (d := .func (ps.map Prod.fst) f.returnType) (pend' := some s.syms.length)
      (by rw [hk]; exact .func fun hne => absurd (by rw [hi.len]) hne) (.inr rfl) h1
    obtain ⟨w1, w2, w3, w4, i, sc, hs, hsc⟩ := withScope_inv g2
    rw [makeChild_eq g2 hs hsc] at k1
    cases k1
    have o1 := opened_inv w1 hs hsc
    have hids := params_ids _ _ _ _ _ k2 o1
    obtain ⟨F₁, q1, q2, q3, q4, q5, q6, q7⟩ := paramDecls_sound hW.loose _ _ _ _ _ k2 o1
    have hdet := (params_det hps q1 (func_sim E sym.name τs (ps.map Prod.fst) f.returnType)).1
    subst hdet
    have hdet := (params_det hps q1 (func_sim E sym.name _ _ f.returnType)).2 rfl
    subst hdet
    have hgs : s₁.syms[s.syms.length]? = some sym := by rw [g5]; exact getElem?_append_new _ _
    have hgo : (opened s₁.withScope i sc).syms[s.syms.length]? = some sym := by
      show s₁.withScope.syms[s.syms.length]? = some sym
      rw [w4]; exact hgs
    have hgt : t₂.syms[s.syms.length]? = some sym := by rw [q6 _ (get_lt hgo), hgo]
    have hgd : F₁.decls[s.syms.length]? = some (.func (ps.map Prod.fst) f.returnType) := by
      rw [q7 _ (by simp [Env.add, hi.len]), hi.len]
      exact getElem?_append_new _ _
    obtain ⟨t₃, hup, r1, r2, r3, r4⟩ := finish_func q2 hgt hk hgd (by rw [paramsOk_length q1]; omega)
    rw [hup] at k3
    cases k3
    have hfr : Frame (opened s₁.withScope i sc) t := q3.trans r2
    have hu := under_of_frame hs hsc hfr
    have hblk : BlkAt t s₁.withScope.scopes.length (some i) := r1.blk.1
    have hsc' : t.scope = some s₁.withScope.scopes.length := by rw [r4]; exact q5 _ rfl
    rw [restoreParent_eq hblk] at k4
    cases k4
    have hre := reenter hsc' hblk hu.cur rfl
    obtain ⟨t', m1, m2⟩ : ∃ t', validateNodes cfg [] child t = .ok r t' ∧ Kinds t' s₃ := by
      have h3' := h3
      unfold block at h3'
      rw [bind_of _ hre] at h3'
      replace h3' := bind_ok.1 h3'
      obtain ⟨r', t', m1, h3'⟩ := h3'
      replace h3' := bind_ok_unit.1 h3'
      obtain ⟨_, m2, h3'⟩ := h3'
      replace h3' := bind_ok_unit.1 h3'
      obtain ⟨_, m3, h3'⟩ := h3'
      replace h3' := bind_ok_unit.1 h3'
      obtain ⟨_, m4, h3'⟩ := h3'
      cases h3'
      exact ⟨t', m1, ((still_resetScopeHead.ok m2).kinds.trans (still_restoreParentScope.ok m3).kinds).trans
        (still_makeAdjacentScope.ok m4).kinds⟩
    have hsame : Same s t :=
      (((g4.trans w3).trans (show Same s₁.withScope (opened s₁.withScope i sc) from ⟨rfl, rfl, rfl⟩)).trans q4).trans r3
    have hpre : SemPre W false true t (some (s₁.withScope.scopes.length, i)) F₁ ⟨some f.returnType, 0, false⟩ := by
      refine ⟨r1, rfl, hsame.2.2.trans hd, ?_, fun h => absurd h hr⟩
      have := get_lt (hfr.syms _ _ hgo).choose_spec.1
      omega
    refine ⟨g5, ?_, hn _ _ _ _ _ _ _ _ _ m1 hcnt hb hw hpre hwf₁ (m2.trans hkinds) hst⟩
    rw [hids]
    show List.range' s₁.withScope.syms.length _ = _
    rw [w4, g5, List.length_append, List.length_map]
    rfl

theorem link_el {cfg : Cfg} {b : Bool} {n link : List Char} {s s' : SS} (h : linkageName cfg b n s = .ok link s') (hb : b = false) :
    link = n := by
  subst hb
  cases h
  rfl

theorem external_plain {p tok te} (h : AsWritten (.funcProto p) tok te) (he : p.isExternal = true) : p.isExport = false := by
  rcases h with h | ⟨⟨ts, h⟩, _⟩
  · cases h
  · cases h with
    | func hm _ _ _ _ _ _ =>
      cases hm with
      | none => rfl
      | external => rfl
      | «export» => cases he

theorem func_el {cfg W sF inF s s' B E E' c before p tok te child next r}
    (hW : Models cfg W) (hr : ¬ W.returns) (hn : NodesEl cfg W sF child) (hp : SemPre W false inF s B E c)
    (hnum : p.numParams = p.params.length) (hcnt : Counted child) (hb : CallsBare child)
    (ha : AsWritten (.funcProto p) tok te) (hw : AllNodes AsWritten child) (hwf : E.WF) (hkinds : Kinds s' sF)
    (h : validateStmt cfg before (.funcProto p) tok te child next (validateNodes cfg [] child) s = .ok r s')
    (hok : StmtOk W c E before (.funcProto p) tok te child next E') :
    ElS W sF.syms E (.funcProto p) tok te child r.1 r.2 E' := by
  unfold validateStmt at h
  simp only at h
  rw [bind_of _ (show Chk.get s = .ok s s from rfl),
    bind_of _ (show setDepth 0 s = .ok () { s with whileDepth := 0 } from rfl)] at h
  replace h := bind_ok.1 h
  obtain ⟨⟨id, ids⟩, s₁, h1, h⟩ := h
  unfold validateFuncDecl at h1
  have hi₀ : SInv { s with whileDepth := 0 } B E none := hp.inv.of_eq rfl rfl rfl
  replace h1 := bind_ok_unit.1 h1
  obtain ⟨s₂, h2, h1⟩ := h1
  rw [notNested_ok hi₀.blk] at h2
  obtain ⟨h2, rfl⟩ := h2
  replace h1 := bind_ok.1 h1
  obtain ⟨ret, s₃, h3, h1⟩ := h1
  replace h3 := retType_sound hi₀ h3
  obtain ⟨rfl, h3⟩ := h3
  replace h1 := bind_ok.1 h1
  obtain ⟨x, s₄, h4, h1⟩ := h1
  replace h4 := tokName_ok.1 h4
  obtain ⟨h4, rfl⟩ := h4
  replace h1 := bind_ok.1 h1
  obtain ⟨link, s₅, h5, h1⟩ := h1
  have hlink := link_el h5
  have := linkageName_ok h5
  subst this
  rw [bind_of _ (newSym_eq _ _)] at h1
  replace h1 := bind_ok_unit.1 h1
  obtain ⟨s₆, h6, h1⟩ := h1
  cases h6
  replace h1 := bind_ok_unit.1 h1
  obtain ⟨s₇, h7, h1⟩ := h1
  replace h1 := bind_ok.1 h1
  obtain ⟨ids', s₈, h8, h1⟩ := h1
  cases h1
  replace h := bind_ok.1 h
  obtain ⟨body, s₉, h9, h⟩ := h
  replace h := bind_ok_unit.1 h
  obtain ⟨s₁₀, h10, h⟩ := h
  replace h := bind_ok_unit.1 h
  obtain ⟨s₁₁, h11, h⟩ := h
  cases h
  have hi₁ : SInv { s with whileDepth := 0, lastFunc := some s.currentFunc, currentFunc := s.syms.length } B E none :=
    hp.inv.of_eq rfl rfl rfl
  have hk9 : Kinds s₉ sF := (((still_postValidateFunc _).ok h10).kinds.trans ((still_setDepth _).ok h11).kinds).trans hkinds
  cases hok with
  | @func _ _ E₁ E₂ _ _ f τ τs _ _ _ _ g1 g2 g3 g4 g5 g6 g7 =>
    cases retType_det h3 g2
    cases text_det h4 g3
    obtain ⟨k1, k2, k3⟩ := body_el hW hr hn hi₁ hp.pos rfl rfl rfl rfl hnum h7 h8 h9 hcnt hb hw hwf hk9 g5 g6
    have hlen := hp.inv.len
    have hk7 : Kinds s₇ sF := (((still_validateFuncParams _ _).ok h8).kinds.trans ((still_block (still_nodes cfg child [])).ok h9).kinds).trans hk9
    have hget := congrArg (fun l : List Symbol => l[s.syms.length]?) k1
    simp only at hget
    rw [getElem?_append_new] at hget
    obtain ⟨sym', m1, m2⟩ := hk7 _ _ hget
    obtain ⟨f', m3, m4, m5⟩ := m2.func _ rfl
    have hfact : FuncFact sF.syms E.decls.length p ret := by
      refine ⟨sym', f', by rw [← hlen]; exact m1, m3, m4, m5, fun he => ?_⟩
      rw [m2.link]
      show Text p.name link
      rw [hlink (external_plain ha he)]
      exact h4
    have := ElS.func (tok := tok) (te := te) g2 g3 g5 k3 hfact
    rw [k2]
    show ElS W sF.syms E (.funcProto p) tok te child (.func s.syms.length (List.range' (s.syms.length + 1) τs.length)) body _
    rw [hlen]
    exact this

theorem optExpr_el {cfg : Cfg} {W : World} (hW : W.strtod = cfg.strtod) {B E e s o s'} (h : validateOptExpr cfg e s = .ok o s')
    (hi : SInv s B E none) (hc : Expr.Counted e) :
    (e = .missing ∧ o = none) ∨ (e ≠ .missing ∧ ∃ a, o = some a ∧ ElE W E e a) := by
  by_cases he : e = .missing
  · subst he
    cases h
    exact .inl ⟨rfl, rfl⟩
  · have h' : (do pure (some (← validateExpr cfg e)) : Chk (Option AExpr)) s = .ok o s' := by
      cases e <;> first | exact absurd rfl he | exact h
    replace h' := bind_ok.1 h'
    obtain ⟨a, s₁, h1, h'⟩ := h'
    cases h'
    exact .inr ⟨he, a, rfl, expr_el hW e _ _ _ h1 hi hc⟩

theorem ret_el {cfg W sF inF s s' B E c e tok te child next a}
    (hW : Models cfg W) (hp : SemPre W false inF s B E c) (hcnt : Expr.Counted e)
    (h : validateReturn cfg e tok next s = .ok a s') : ElS W sF E (.ret e) tok te child a .nil E := by
  unfold validateReturn at h
  replace h := bind_ok_unit.1 h
  obtain ⟨s₁, h1, h⟩ := h
  have := sane_state h1
  subst this
  replace h := bind_ok.1 h
  obtain ⟨o, s₂, h2, h⟩ := h
  replace h2 := optExpr_el hW.strtod h2 hp.inv hcnt
  rw [bind_of _ (show Chk.get s₂ = .ok s₂ s₂ from rfl)] at h
  replace h := bind_ok.1 h
  obtain ⟨f, s₃, h3, h⟩ := h
  replace h := bind_ok_unit.1 h
  obtain ⟨s₄, h5, h⟩ := h
  replace h := bind_ok_unit.1 h
  obtain ⟨s₅, h6, h⟩ := h
  cases h
  rcases h2 with ⟨rfl, rfl⟩ | ⟨he, ae, rfl, ht⟩
  · exact .retNone
  · exact .ret he ht

theorem varDef_el {cfg W sF inF s s' B E E' c before name cst imp exp e tok te child next a}
    (hW : Models cfg W) (hp : SemPre W false inF s B E c) (hcnt : Expr.Counted e)
    (ha : AsWritten (.varDef name cst imp exp e) tok te)
    (h : validateVarDef cfg name cst imp exp e tok te s = .ok a s')
    (hok : StmtOk W c E before (.varDef name cst imp exp e) tok te child next E') :
    ElS W sF E (.varDef name cst imp exp e) tok te child a .nil E' := by
  unfold validateVarDef at h
  replace h := bind_ok.1 h
  obtain ⟨o, s₁, h1, h⟩ := h
  replace h1 := tokenToType_sound hp.inv _ h1
  obtain ⟨rfl, h1⟩ := h1
  cases o with
  | some σ =>
    replace h := bind_ok_unit.1 h
    obtain ⟨s₂, h2, h⟩ := h
    cases h
    cases hok with
    | alias g1 g2 g3 g4 g5 => exact .alias g1 g3 g4
    | varDef g1 => cases h1.det g1
  | none =>
    cases hok with
    | alias g1 => cases h1.det g1
    | varDef g1 g2 g3 g4 g5 g6 =>
      unfold validateVar at h
      replace h := bind_ok.1 h
      obtain ⟨ae, s₂, h2, h⟩ := h
      obtain ⟨k1, k2, k3⟩ := expr_sound hW.strtod e _ _ _ h2 hp.inv hcnt
      have k4 := expr_el hW.strtod e _ _ _ h2 hp.inv hcnt
      cases HasType.det e g2 k1
      have hi₁ := hp.inv.quiet k3
      replace h := bind_ok.1 h
      obtain ⟨id, s₃, h3, h⟩ := h
      have hid : id = E.decls.length := by
        unfold nodeToVar at h3
        replace h3 := bind_ok_unit.1 h3
        obtain ⟨s₄, h4, h3⟩ := h3
        rw [notVoid_ok k2] at h4
        obtain ⟨_, rfl⟩ := h4
        replace h3 := bind_ok.1 h3
        obtain ⟨ty, s₅, h5, h3⟩ := h3
        obtain ⟨rfl, _, _⟩ := declaredType_sound hi₁ h5
        replace h3 := bind_ok.1 h3
        obtain ⟨n, s₆, h6, h3⟩ := h3
        obtain ⟨_, rfl⟩ := headTok_ok.1 h6
        replace h3 := bind_ok.1 h3
        obtain ⟨x, s₇, h7, h3⟩ := h3
        obtain ⟨_, rfl⟩ := tokName_ok.1 h7
        replace h3 := bind_ok.1 h3
        obtain ⟨v, s₈, h8, h3⟩ := h3
        rw [makeVariable_ok] at h8
        obtain ⟨_, rfl, rfl⟩ := h8
        replace h3 := bind_ok.1 h3
        obtain ⟨link, s₉, h9, h3⟩ := h3
        cases linkageName_ok h9
        rw [bind_of _ (newSym_eq _ _)] at h3
        replace h3 := bind_ok_unit.1 h3
        obtain ⟨_, _, h3⟩ := h3
        cases h3
        exact hi₁.len
      replace h := bind_ok_unit.1 h
      obtain ⟨_, _, h⟩ := h
      replace h := bind_ok.1 h
      obtain ⟨_, _, _, h⟩ := h
      replace h := bind_ok_unit.1 h
      obtain ⟨_, _, h⟩ := h
      replace h := bind_ok_unit.1 h
      obtain ⟨_, _, h⟩ := h
      cases h
      subst hid
      exact .var (written_noType ha k1 g1) k4 g5

theorem varAssign_el {cfg W sF inF s s' B E c e tok te child a}
    (hW : Models cfg W) (hp : SemPre W false inF s B E c) (hcnt : Expr.Counted e)
    (h : validateVarAssign cfg e tok s = .ok a s') : ElS W sF E (.varAssign e) tok te child a .nil E := by
  unfold validateVarAssign at h
  replace h := bind_ok.1 h
  obtain ⟨t, s₁, h1, h⟩ := h
  replace h1 := headTok_ok.1 h1
  obtain ⟨⟨ts, rfl⟩, rfl⟩ := h1
  replace h := bind_ok.1 h
  obtain ⟨⟨id, v⟩, s₂, h2, h⟩ := h
  obtain ⟨rfl, x, sym, h3, h4, h5, h6, h7⟩ := scopeFindVar_sound hp.inv h2
  simp only at h
  split at h
  · cases h
  · obtain ⟨s₃, h8, h9⟩ := updVar_flag (f := fun v => { v with wasReassigned := true }) h6 (fun v => rfl)
    rw [bind_of _ h8] at h
    replace h := bind_ok.1 h
    obtain ⟨ae, s₄, h10, h⟩ := h
    replace h10 := expr_el hW.strtod e _ _ _ h10 (hp.inv.quiet h9) hcnt
    replace h := bind_ok_unit.1 h
    obtain ⟨s₅, h11, h⟩ := h
    rw [compatible_ok] at h11
    obtain ⟨h11, rfl⟩ := h11
    replace h := bind_ok_unit.1 h
    obtain ⟨s₆, h12, h⟩ := h
    cases h
    refine .assign (m := !v.isConst) h3 h4 ?_ h10
    rw [h11]
    exact decl_at h5 h4

theorem condition_el {cfg : Cfg} {W : World} (hW : W.strtod = cfg.strtod) {B E e s a s'} (h : condition cfg e s = .ok a s')
    (hi : SInv s B E none) (hc : Expr.Counted e) : ElE W E e a := by
  unfold condition at h
  replace h := bind_ok.1 h
  obtain ⟨a', s₁, h1, h⟩ := h
  replace h := bind_ok_unit.1 h
  obtain ⟨s₂, h2, h⟩ := h
  cases h
  exact expr_el hW _ _ _ _ h1 hi hc

theorem closeNs_kinds {s s' : SS} {id sym} (hs : s.syms[id]? = some sym) (hk : sym.kind.symType = .ns)
    (h : closeNamespace id s = .ok () s') : Kinds s s' := by
  unfold closeNamespace at h
  cases hb : blockScope s with
  | none => rw [hb] at h; cases h
  | some sc =>
    rw [hb] at h
    simp only [updSym_eq _ hs] at h
    cases h
    intro j sym₁ hj
    show ∃ sym'', (s.syms.set id _)[j]? = some sym'' ∧ _
    by_cases hij : id = j
    · subst hij
      rw [hs] at hj
      cases hj
      refine ⟨_, getElem?_set_self' hs, by rw [hk]; rfl, rfl, fun f hf => ?_⟩
      rw [hf] at hk
      cases hk
    · rw [List.getElem?_set_ne hij]
      exact ⟨sym₁, hj, .refl _⟩

theorem ns_el {cfg W sF inF s s' B E E' c before tok te child next r}
    (hn : NodesEl cfg W sF child) (hp : SemPre W false inF s B E c)
    (hcnt : Counted child) (hb : CallsBare child) (hw : AllNodes AsWritten child) (hwf : E.WF)
    (hkinds : Kinds s' sF)
    (h : validateStmt cfg before .namespaces tok te child next (validateNodes cfg [] child) s = .ok r s')
    (hok : StmtOk W c E before .namespaces tok te child next E') :
    ElS W sF.syms E .namespaces tok te child r.1 r.2 E' := by
  unfold validateStmt at h
  simp only at h
  replace h := bind_ok.1 h
  obtain ⟨id, s₁, h1, h⟩ := h
  obtain ⟨_, nsym, hn1, hn2⟩ := SemDef.declareNs_ok h1
  unfold declareNamespace at h1
  replace h1 := bind_ok.1 h1
  obtain ⟨t, s₂, h2, h1⟩ := h1
  replace h2 := headTok_ok.1 h2
  obtain ⟨⟨ts, htok⟩, rfl⟩ := h2
  replace h1 := bind_ok.1 h1
  obtain ⟨x, s₃, h3, h1⟩ := h1
  replace h3 := tokName_ok.1 h3
  obtain ⟨h3, rfl⟩ := h3
  rw [bind_of _ (newSym_eq _ _)] at h1
  replace h1 := bind_ok_unit.1 h1
  obtain ⟨s₄, h4, h1⟩ := h1
  cases h1
  rw [mustAdd_ok] at h4
  obtain ⟨g1, g2, g3, g4, g5, g6⟩ := declare_sound hp.inv (d := .ns []) (pend' := none) .nsNone (.inl rfl) h4
  replace h := bind_ok.1 h
  obtain ⟨body, s₅, h5, h⟩ := h
  have hpre := (hp.post g2 g3 g4).pre
  replace h := bind_ok_unit.1 h
  obtain ⟨s₆, h6, h⟩ := h
  cases h
  obtain ⟨nsym', hn3, hn4⟩ := ((still_block (still_nodes cfg child [])).ok h5).kinds _ _ hn1
  have hk5 := (closeNs_kinds hn3 (hn4.kind.trans hn2) h6).trans hkinds
  cases hok with
  | namespaces m1 m2 m3 =>
    cases htok
    cases text_det h3 m1
    exact .ns m1 (block_el hn h5 hcnt hb hw hpre (hwf.add _ (fun _ h => by cases h; rfl)) hk5 m3)

theorem stmt_el {cfg W sF inF s s' B E E' c before stmt tok te child next r}
    (hW : Models cfg W) (hr : ¬ W.returns) (hn : NodesEl cfg W sF child) (hp : SemPre W false inF s B E c)
    (hcs : StmtCounted stmt) (hcnt : Counted child) (hb : CallsBare (.node stmt tok te child next)) (ha : AsWritten stmt tok te)
    (hw : AllNodes AsWritten child) (hwf : E.WF) (hkinds : Kinds s' sF)
    (h : validateStmt cfg before stmt tok te child next (validateNodes cfg [] child) s = .ok r s')
    (hok : StmtOk W c E before stmt tok te child next E') : ElS W sF.syms E stmt tok te child r.1 r.2 E' := by
  cases stmt with
  | funcProto p => exact func_el hW hr hn hp hcs hcnt hb.2.1 ha hw hwf hkinds h hok
  | namespaces => exact ns_el hn hp hcnt hb.2.1 hw hwf hkinds h hok
  | ret e =>
    unfold validateStmt at h
    simp only at h
    replace h := bind_ok.1 h
    obtain ⟨a, s₁, h1, h⟩ := h
    cases h
    cases hok <;> exact ret_el hW hp hcs h1
  | unreachable =>
    unfold validateStmt at h
    simp only at h
    replace h := bind_ok_unit.1 h
    obtain ⟨s₁, h1, h⟩ := h
    cases h
    cases hok
    exact .unreachable
  | varDef name isConst isImplicit isExported e =>
    unfold validateStmt at h
    simp only at h
    replace h := bind_ok.1 h
    obtain ⟨a, s₁, h1, h⟩ := h
    cases h
    exact varDef_el hW hp hcs ha h1 hok
  | varAssign e =>
    unfold validateStmt at h
    simp only at h
    replace h := bind_ok.1 h
    obtain ⟨a, s₁, h1, h⟩ := h
    cases h
    cases hok
    exact varAssign_el hW hp hcs h1
  | expr e =>
    cases e with
    | call n args num =>
      unfold validateStmt at h
      simp only at h
      replace h := bind_ok.1 h
      obtain ⟨a, s₁, h1, h⟩ := h
      cases h
      have h2 := expr_el hW.strtod _ _ _ _ h1 hp.inv hcs
      cases hb.1 n args num rfl
      cases hok
      exact .call h2
    | missing => unfold validateStmt at h; cases h
    | ident | const | un | bin => unfold validateStmt at h; exact absurd h failTok_ok
  | ifs e =>
    unfold validateStmt at h
    simp only at h
    replace h := bind_ok_unit.1 h
    obtain ⟨s₁, h1, h⟩ := h
    rw [needBlock_ok] at h1
    obtain ⟨h1, rfl⟩ := h1
    replace h := bind_ok.1 h
    obtain ⟨a, s₂, h2, h⟩ := h
    have hq := hp.quiet (condition_sound hW.strtod h2 hp.inv hcs).2
    have h2 := condition_el hW.strtod h2 hp.inv hcs
    replace h := bind_ok.1 h
    obtain ⟨body, s₃, h3, h⟩ := h
    cases h
    cases hok with
    | ifs _ _ g3 => exact .ifs h2 (block_el hn h3 hcnt hb.2.1 hw hq.pre hwf hkinds g3)
  | elifs e =>
    unfold validateStmt at h
    simp only at h
    replace h := bind_ok_unit.1 h
    obtain ⟨s₁, h1, h⟩ := h
    rw [needBlock_ok] at h1
    obtain ⟨h1, rfl⟩ := h1
    replace h := bind_ok_unit.1 h
    obtain ⟨s₁, h0, h⟩ := h
    rw [needIf_ok] at h0
    obtain ⟨h0, rfl⟩ := h0
    replace h := bind_ok.1 h
    obtain ⟨a, s₂, h2, h⟩ := h
    have hq := hp.quiet (condition_sound hW.strtod h2 hp.inv hcs).2
    have h2 := condition_el hW.strtod h2 hp.inv hcs
    replace h := bind_ok.1 h
    obtain ⟨body, s₃, h3, h⟩ := h
    cases h
    cases hok with
    | elifs _ _ _ g3 => exact .elifs h2 (block_el hn h3 hcnt hb.2.1 hw hq.pre hwf hkinds g3)
  | elses =>
    unfold validateStmt at h
    simp only at h
    replace h := bind_ok_unit.1 h
    obtain ⟨s₁, h0, h⟩ := h
    rw [needIf_ok] at h0
    obtain ⟨h0, rfl⟩ := h0
    replace h := bind_ok_unit.1 h
    obtain ⟨s₁, h1, h⟩ := h
    rw [needBlock_ok] at h1
    obtain ⟨h1, rfl⟩ := h1
    replace h := bind_ok.1 h
    obtain ⟨body, s₃, h3, h⟩ := h
    cases h
    cases hok with
    | elses _ _ g3 => exact .elses (block_el hn h3 hcnt hb.2.1 hw hp hwf hkinds g3)
  | whiles e =>
    unfold validateStmt at h
    simp only at h
    rw [bind_of _ (show Chk.get s = .ok s s from rfl),
      bind_of _ (show setDepth (s.whileDepth + 1) s = .ok () { s with whileDepth := (s.whileDepth + 1) % 2 ^ 32 } from rfl)] at h
    have hp' : SemPre W false inF { s with whileDepth := (s.whileDepth + 1) % 2 ^ 32 } B E { c with loops := c.loops + 1 } := by
      refine ⟨hp.inv.of_eq rfl rfl rfl, hp.top, ?_, hp.pos, fun hw => absurd hw hr⟩
      show (s.whileDepth + 1) % 2 ^ 32 = (c.loops + 1) % 2 ^ 32
      rw [hp.loops]
      omega
    replace h := bind_ok_unit.1 h
    obtain ⟨s₁, h1, h⟩ := h
    rw [needBlock_ok] at h1
    obtain ⟨h1, rfl⟩ := h1
    replace h := bind_ok.1 h
    obtain ⟨a, s₂, h2, h⟩ := h
    have hq := hp'.quiet (condition_sound hW.strtod h2 hp'.inv hcs).2
    have h2 := condition_el hW.strtod h2 hp'.inv hcs
    replace h := bind_ok.1 h
    obtain ⟨body, s₃, h3, h⟩ := h
    rw [bind_of _ (show Chk.get s₃ = .ok s₃ s₃ from rfl)] at h
    replace h := bind_ok_unit.1 h
    obtain ⟨s₄, h4, h⟩ := h
    have hk := ((still_setDepth _).ok h4).kinds
    cases h
    cases hok with
    | whiles _ _ g3 => exact .whiles h2 (block_el hn h3 hcnt hb.2.1 hw hq.pre hwf (hk.trans hkinds) g3)
  | breaks =>
    unfold validateStmt at h
    simp only at h
    replace h := bind_ok_unit.1 h
    obtain ⟨s₁, h1, h⟩ := h
    cases h
    cases hok
    exact .breaks
  | continues =>
    unfold validateStmt at h
    simp only at h
    replace h := bind_ok_unit.1 h
    obtain ⟨s₁, h1, h⟩ := h
    cases h
    cases hok
    exact .continues
  | imports =>
    unfold validateStmt at h
    simp only at h
    replace h := bind_ok_unit.1 h
    obtain ⟨s₁, h1, h⟩ := h
    cases h
    cases hok
    exact .imports
  | unknown => unfold validateStmt at h; cases h; cases hok; exact .unknown
  | comment => unfold validateStmt at h; cases h; cases hok; exact .comment
  | noop => unfold validateStmt at h; cases h; cases hok; exact .noop

theorem nodes_el {cfg W sF} (hW : Models cfg W) (hr : ¬ W.returns) : ∀ t, NodesEl cfg W sF t
  | .nil => by
    intro before s a s' inF B E c E' h _ _ _ hp _ _ hs
    unfold validateNodes at h
    cases h
    cases hs
    exact .nil
  | .node stmt tok te child next => by
    intro before s a s' inF B E c E' h hcnt hb ha hp hwf hk hs
    unfold validateNodes at h
    replace h := bind_ok_unit.1 h
    obtain ⟨s₁, h1, h⟩ := h
    replace h1 := saneChild_ok h1
    obtain ⟨h1, rfl⟩ := h1
    replace h := bind_ok.1 h
    obtain ⟨r, s₂, h2, h⟩ := h
    obtain ⟨F₁, g1, g2, _, _⟩ := stmt_sound (bare := True) hW (nodes_sound hW child) hp hcnt.1 hcnt.2.1 (fun h => absurd h hr)
      (fun _ => hb) h2
    replace h := bind_ok.1 h
    obtain ⟨rest, s₃, h3, h⟩ := h
    cases h
    have hk₂ : Kinds s₂ sF := ((still_nodes cfg next _).ok h3).kinds.trans hk
    cases hs with
    | node k1 k2 k3 =>
      cases stmt_det rfl (stmts_det rfl child) g1 k2
      have hg := g1.grows hwf
      exact .node (stmt_el hW hr (nodes_el hW hr child) hp hcnt.1 hcnt.2.1 hb ha.1 ha.2.1 hwf hk₂ h2 g1) hg
        (nodes_el hW hr next _ _ _ _ _ _ _ _ _ h3 hcnt.2.2 hb.2.2 ha.2.2 g2.pre hg.wf hk k3)

section
open SemDef

theorem still_warnIf (cfg : Cfg) (c e : Bool) (code : Code) (t : Option Token) : Still (warnIf cfg c e code t) := by unfold warnIf; still
theorem still_unusedSym (cfg : Cfg) (e : Bool) (sym : Symbol) : Still (unusedSym cfg e sym) := by
  unfold unusedSym
  repeat' (first | (with_reducible refine still_bind ?_ (fun _ => ?_)) | exact still_warnIf _ _ _ _ _ | still_step | split)

theorem still_unused (cfg : Cfg) : ∀ (e : Bool) (a : ATree), Still (checkUnused cfg e a)
  | e, .nil => by unfold checkUnused; still
  | e, .unchecked t => by unfold checkUnused; still
  | e, .node ann stmt tok child next => by
    have ih := fun e => still_unused cfg e next
    have ih' := still_unused cfg false child
    cases ann <;> cases child <;> simp only [checkUnused]
    all_goals repeat' (first | (with_reducible refine still_bind ?_ (fun _ => ?_)) | exact ih _ | exact ih' | exact still_unusedSym _ _ _ | still_step | split)

end

/-- The state at the end of the check has the symbols of the end of the statements. -/
theorem semantic_parts {cfg : Cfg} {t : Tree} {a : ATree} {s' : SS} (h : semantic cfg t = .ok a s') :
    ∃ s s₁, setupState cfg = some s ∧ validateNodes cfg [] t s = .ok a s₁ ∧ Kinds s₁ s' := by
  unfold semantic at h
  cases hs : setupState cfg with
  | none => rw [hs] at h; cases h
  | some s =>
    rw [hs] at h
    simp only at h
    unfold validateAstTree at h
    replace h := bind_ok.1 h
    obtain ⟨a', s₁, h1, h⟩ := h
    replace h := bind_ok_unit.1 h
    obtain ⟨s₂, h2, h⟩ := h
    replace h := bind_ok_unit.1 h
    obtain ⟨s₃, h3, h⟩ := h
    have hk := (still_resetScopeHead.ok h2).kinds.trans (still_resetScopeHead.ok h3).kinds
    refine ⟨s, s₁, rfl, ?_⟩
    split at h
    · cases h; exact ⟨h1, hk⟩
    · replace h := bind_ok.1 h
      obtain ⟨err, s₄, h4, h⟩ := h
      have hk4 : Kinds s₃ s₄ := ((still_unused cfg _ _).ok h4).kinds
      split at h
      · cases h
      · cases h; exact ⟨h1, hk.trans hk4⟩

/-- What the check gives back for a program belongs to the program. -/
theorem accepted_el {cfg : Cfg} {t : Tree} {a : ATree} {s : SS} (h : semantic cfg t = .ok a s) (hc : Counted t) (hb : CallsBare t)
    (ha : AllNodes AsWritten t) : ∃ W E, W.strtod = cfg.strtod ∧ ElT W s.syms .start t a E := by
  let W : World := ⟨cfg.strtod, fun m => cfg.openDir (currentFileDir cfg.filename) = true ∧
    cfg.openFile (currentFileDir cfg.filename) (m ++ ".sk".toList) = true, False, False⟩
  have hW : Models cfg W := ⟨rfl, fun _ => Iff.rfl, fun h => h⟩
  obtain ⟨s₀, s₁, h1, h2, h3⟩ := semantic_parts h
  have hp := setup_inv h1 W false
  obtain ⟨E, g1, _⟩ := nodes_sound (bare := False) hW t _ _ _ _ _ _ _ _ h2 hc (fun h => h.elim) (fun h => h.elim) hp
  exact ⟨W, E, rfl, nodes_el hW (fun h => h) t _ _ _ _ _ _ _ _ _ h2 hc hb ha hp .start h3 g1⟩

end Skull.Elab
