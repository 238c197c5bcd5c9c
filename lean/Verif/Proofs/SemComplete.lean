import Verif.Proofs.SemSound
import Verif.Proofs.SemDet
import Verif.Spec.Accepted
/-
What is well formed is accepted by the check.
-/
namespace Skull
open Spec

theorem linkageName_eq {cfg isExport name} (s : SS) (h : isExport = true → (mangleName cfg.filename name).isSome = true) :
    ∃ link, linkageName cfg isExport name s = .ok link s := by
  unfold linkageName
  cases isExport with
  | false => exact ⟨_, rfl⟩
  | true =>
    have h := h rfl
    cases hm : mangleName cfg.filename name with
    | none => rw [hm] at h; cases h
    | some l => exact ⟨l, rfl⟩

/-- The same world, with the looser rule for names. -/
def loosen (W : World) : World := { W with strict := False }

/-- What a well formed statement needs to be accepted. -/
structure Accepts (cfg : Cfg) (W : World) : Prop where
  models : Models cfg (loosen W)
  strict : W.strict
  returns : W.returns
  werror : cfg.werror = false

theorem mustAdd_complete {s B E pend pend' sym d} (hi : SInv s B E pend)
    (hk : SymIs s.scopes s.scope pend' (E.decls.length + 1) E.decls.length sym.exprType sym.kind d)
    (hp : pend = pend' ∨ pend = none) {W} (hs : W.strict) (hf : E.Fresh W sym.name) :
    ∃ s', mustAdd s.syms.length (s.push sym) = .ok () s' := by
  obtain ⟨s', h⟩ := declare_complete hi hk hp hf.1 (hf.2 hs)
  exact ⟨s', mustAdd_ok.2 h⟩

theorem alias_complete {cfg W s B E isConst e t ts τ x} (ha : Accepts cfg W) (hi : SInv s B E none) (hc : isConst = true)
    (he : IsTypeExpr e) (ht : TypeAt E ts.tail τ) (hx : Text t x) (hf : E.Fresh W x) :
    ∃ s', validateTypeAlias isConst e (t :: ts) s = .ok () s' := by
  subst hc
  have he := (isTypeExpr_iff e).2 he
  have h3 := tokenToType_complete hi ht
  unfold validateTypeAlias
  simp only [Bool.not_true, Bool.false_eq_true, if_false, he, List.tail_cons]
  rw [bind_of _ h3, bind_of _ (show headTok (t :: ts) s = .ok t s from rfl),
    bind_of _ (tokName_eq s hx), bind_of _ (newSym_eq _ _)]
  exact mustAdd_complete hi (d := .alias τ) .alias (.inl rfl) ha.strict hf

theorem declaredType_complete {s B E pend isImplicit e n ns} {τ : Ty} (hi : SInv s B E pend)
    (h1 : isImplicit = true → τ = e.type) (h2 : isImplicit = false → TypeAt E ns (some τ)) :
    declaredType isImplicit e (n :: ns) s = .ok τ s := by
  unfold declaredType
  cases isImplicit with
  | true => rw [h1 rfl]; rfl
  | false =>
    simp only [Bool.false_eq_true, if_false, List.tail_cons]
    rw [bind_of _ (tokenToType_complete hi (h2 rfl))]
    rfl

theorem warnTrivial_eq {cfg : Cfg} (hw : cfg.werror = false) (e : AExpr) (i : Bool) (s : SS) :
    ∃ s', warnTrivial cfg e i s = .ok () s' := by
  unfold warnTrivial
  split
  · cases i with
    | true => exact ⟨_, rfl⟩
    | false => exact ⟨_, warn_eq hw _ _ _⟩
  · exact ⟨_, rfl⟩

theorem strtod_loosen {cfg W} (ha : Accepts cfg W) : W.strtod = cfg.strtod := ha.models.strtod

theorem var_complete {cfg W s B E isConst isImplicit isExported e n ns x τ} (ha : Accepts cfg W) (hi : SInv s B E none)
    (hcnt : Expr.Counted e) (hlink : isExported = true → ∀ x, Text n x → (mangleName cfg.filename x).isSome = true)
    (ht : HasType W E e τ) (hv : ∀ f args num, e = .call f args num → τ ≠ Void')
    (hd : isImplicit = false → TypeAt E ns (some τ)) (hx : Text n x) (hn : VarName x) (hf : E.Fresh W x) :
    ∃ a s', validateVar cfg (n :: ns) isConst isImplicit isExported e s = .ok a s' := by
  obtain ⟨ae, s₁, h1, rfl⟩ := expr_complete (strtod_loosen ha) e s _ ht hi hcnt
  obtain ⟨_, hanno, hq⟩ := expr_sound (strtod_loosen ha) e _ _ _ h1 hi hcnt
  have hi₁ := hi.quiet hq
  unfold validateVar
  rw [bind_of _ h1]
  obtain ⟨link, h2⟩ := linkageName_eq (cfg := cfg) (isExport := isExported) (name := x) s₁ (fun h => hlink h x hx)
  obtain ⟨s₂, h3⟩ := mustAdd_complete (sym := { name := x, exprType := some ae.type, loc := some n, kind := .var { type := ae.type, name := x, linkageName := link, isConst := isConst, implicitlyTyped := isImplicit, isExported := isExported } })
    hi₁ (d := .var ae.type (!isConst)) (pend' := some s₁.syms.length)
    (.var fun hne => absurd (by rw [hi₁.len]) hne) (.inr rfl) ha.strict hf
  have h4 : nodeToVar cfg (n :: ns) isConst isImplicit isExported ae s₁ = .ok s₁.syms.length s₂ := by
    unfold nodeToVar
    rw [bind_of _ ((notVoid_ok hanno).2 ⟨hv, rfl⟩), bind_of _ (declaredType_complete hi₁ (fun _ => rfl) hd),
      bind_of _ (show headTok (n :: ns) s₁ = .ok n s₁ from rfl), bind_of _ (tokName_eq s₁ hx),
      bind_of _ (makeVariable_ok.2 ⟨hn, rfl, rfl⟩), bind_of _ h2, bind_of _ (newSym_eq _ _), bind_of _ h3]
    rfl
  rw [bind_of _ h4]
  rw [mustAdd_ok] at h3
  obtain ⟨_, hi₂, hf₂, hsame₂, hsyms₂, _⟩ := declare_sound hi₁ (d := .var ae.type (!isConst)) (pend' := some s₁.syms.length)
    (.var fun hne => absurd (by rw [hi₁.len]) hne) (.inr rfl) h3
  have hget : s₂.syms[s₁.syms.length]? = some { name := x, exprType := some ae.type, loc := some n, kind := .var { type := ae.type, name := x, linkageName := link, isConst := isConst, implicitlyTyped := isImplicit, isExported := isExported } } := by
    rw [hsyms₂]; exact getElem?_append_new _ _
  have hdget : (E.add x (.var ae.type (!isConst))).decls[s₁.syms.length]? = some (.var ae.type (!isConst)) := by
    rw [hi₁.len]; exact getElem?_append_new _ _
  obtain ⟨s₃, h5, _, _, _, h6⟩ := define_var
    (f := fun v => { v with isDefined := true, constExpr := some ae.isConstExpr }) hi₂ hget rfl hdget rfl rfl rfl
  obtain ⟨s₄, h7⟩ := warnTrivial_eq ha.werror ae isImplicit s₃
  rw [bind_of _ h5, bind_of _ (varAt_eq h6 rfl), bind_of _ (compatible_ok.2 ⟨rfl, rfl⟩), bind_of _ h7]
  exact ⟨_, _, rfl⟩

theorem varAssign_complete {cfg W s B E e t ts x τ} (ha : Accepts cfg W) (hi : SInv s B E none) (hcnt : Expr.Counted e)
    (hx : Text t x) (hd : E.decl x = some (.var τ true)) (ht : HasType W E e τ)
    (hne : ∀ u y, e = .ident u → Text u y → E.resolve y ≠ E.resolve x) :
    ∃ a s', validateVarAssign cfg e (t :: ts) s = .ok a s' := by
  unfold validateVarAssign
  rw [bind_of _ (show headTok (t :: ts) s = .ok t s from rfl)]
  obtain ⟨id, v, h1, rfl, h2, h3⟩ := scopeFindVar_complete hi hx hd
  obtain ⟨_, y, sym, _, _, _, h4, _⟩ := scopeFindVar_sound hi h1
  rw [bind_of _ h1]
  simp only [h2, Bool.not_true, Bool.false_eq_true, if_false]
  obtain ⟨s₃, h8, h9⟩ := updVar_flag (f := fun v => { v with wasReassigned := true }) h4 (fun v => rfl)
  rw [bind_of _ h8]
  obtain ⟨ae, s₁, h10, h11⟩ := expr_complete (strtod_loosen ha) e s₃ _ ht (hi.quiet h9) hcnt
  obtain ⟨_, hanno, hq⟩ := expr_sound (strtod_loosen ha) e _ _ _ h10 (hi.quiet h9) hcnt
  rw [bind_of _ h10, bind_of _ (compatible_ok.2 ⟨h11, rfl⟩), bind_of _ ((notRedundant_ok hanno h3).2 ⟨hne, rfl⟩)]
  exact ⟨_, _, rfl⟩

theorem retType_complete {s B E pend o τ} (hi : SInv s B E pend) (h : RetType E o τ) : validateReturnType o s = .ok τ s := by
  cases o with
  | none => rw [show τ = Void' from h]; rfl
  | some toks =>
    unfold validateReturnType
    simp only
    rw [bind_of _ (tokenToType_complete hi h)]
    rfl

theorem paramDecls_complete {W : World} (hs : W.strict) {isExt B pend} : ∀ (ps : List Param) (s : SS) (τs : List Ty) (E E' : Env),
    ParamsOk W E ps τs E' → SInv s B E pend → ∃ r s', validateParams isExt ps s = .ok r s' ∧ r.map Prod.fst = τs
  | [], s, τs, E, E', h, hi => by
    cases h
    exact ⟨_, _, rfl, rfl⟩
  | p :: ps, s, τs, E, E', h, hi => by
    cases h with
    | @cons _ _ _ _ ty τs x h1 h2 h3 h4 h5 h6 =>
      unfold validateParams
      rw [bind_of _ (tokenToType_complete hi h1)]
      simp only
      have hk : SymIs s.scopes s.scope pend (E.decls.length + 1) E.decls.length (some ty)
          (.var { type := ty, name := x, linkageName := x, isConst := true, isDefined := true, wasReassigned := isExt,
                  wasRead := isExt }) (.var ty false) := .var fun _ => rfl
      have hpush := push_inv (sym := { name := x, exprType := some ty, loc := some p.name, kind := _ }) hi hk (.inl rfl)
      obtain ⟨s', h7⟩ := declare_complete (sym := { name := x, exprType := some ty, loc := some p.name, kind := _ }) hi hk (.inl rfl) h4.1
        (h4.2 hs)
      obtain ⟨_, h8, _⟩ := declare_sound (sym := { name := x, exprType := some ty, loc := some p.name, kind := _ }) hi hk (.inl rfl) h7
      rw [bind_of _ (tokName_eq s h2), bind_of _ (makeVariable_ok.2 ⟨h3, rfl, rfl⟩), bind_of _ (newSym_eq _ _)]
      have h9 : scopeAddVar s.syms.length (s.push { name := x, exprType := some ty, loc := some p.name, kind := .var { type := ty, name := x, linkageName := x, isConst := true, isDefined := true, wasReassigned := isExt, wasRead := isExt } }) = .ok true s' := by
        unfold scopeAddVar
        rw [bind_of _ (symAt_eq (push_get _ _)), bind_of _ (lookup_eq hpush x), resolve_append hi, h5]
        exact h7
      rw [bind_of _ h9]
      obtain ⟨r, s₁, h10, h11⟩ := paramDecls_complete hs ps s' τs _ _ h6 h8
      simp only [if_true]
      rw [bind_of _ h10]
      exact ⟨_, _, rfl, by simp [h11]⟩

/-- A function with its parameters and its body. -/
theorem body_complete {cfg W ext child s B E E₁ p sym f τs} (ha : Accepts cfg W)
    (hi : SInv s B E none) (hpos : 0 < s.syms.length) (hd : s.whileDepth = 0)
    (hcur : s.currentFunc = s.syms.length) (hk : sym.kind = .func f) (hf1 : f.numParams = p.numParams) (hf2 : f.paramTypes = [])
    (hnum : p.numParams = p.params.length) (hcnt : Counted child) (hpl : Plain ext true child)
    (hfr : E.Fresh W sym.name) (hps : ParamsOk W (E.add sym.name (.func τs f.returnType)) p.params τs E₁)
    (h : ∀ s₁ B₁, SemPre (loosen W) ext true s₁ B₁ E₁ ⟨some f.returnType, 0, false⟩ → ∃ r s₂, validateNodes cfg [] child s₁ = .ok r s₂) :
    ∃ s₁ ids s₂ r s₃, mustAdd s.syms.length (s.push sym) = .ok () s₁ ∧ validateFuncParams p s.syms.length s₁ = .ok ids s₂ ∧
      block (validateNodes cfg [] child) s₂ = .ok r s₃ := by
  have hret : ∀ s', (∃ sym', s'.syms[s.syms.length]? = some sym' ∧ sym'.core = sym.core) → s'.currentFunc = s.currentFunc →
      RetRel ext s' true (some f.returnType) := by
    rintro s' ⟨sym', g1, g2⟩ hcf
    refine ⟨by rw [hcf, hcur]; omega, sym', f.returnType, f.isExternal, by rw [hcf, hcur]; exact g1, ?_, rfl⟩
    rw [g2]
    simp only [Symbol.core, hk, SymKind.core]
  have hn := nodes_sound (ext := ext) (bare := False) ha.models child
  unfold validateFuncParams
  by_cases hz : p.numParams = 0
  · have hp0 : p.params = [] := List.eq_nil_of_length_eq_zero (by omega)
    rw [hp0] at hps
    cases hps
    have hsym : SymIs s.scopes s.scope none (E.decls.length + 1) E.decls.length sym.exprType sym.kind (.func [] f.returnType) := by
      rw [hk]; exact .func fun _ => ⟨hf2, by simp; omega⟩
    obtain ⟨s₁, h1⟩ := mustAdd_complete hi hsym (.inl rfl) ha.strict hfr
    obtain ⟨g1, g2, g3, g4, g5, g6⟩ := declare_sound hi hsym (.inl rfl) (mustAdd_ok.1 h1)
    have hgs : s₁.syms[s.syms.length]? = some sym := by rw [g5]; exact getElem?_append_new _ _
    have hpre : SemPre (loosen W) ext true s₁ B (E.add sym.name (.func [] f.returnType)) ⟨some f.returnType, 0, B.isNone⟩ :=
      ⟨g2, rfl, g4.2.2.trans hd, Nat.lt_of_lt_of_le hpos g3.symsLen, fun _ => hret _ ⟨_, hgs, rfl⟩ g4.1⟩
    obtain ⟨r, s₃, h2⟩ := block_complete hn hcnt (fun _ => hpl) (fun h => h.elim) hpre (fun s₁ B₁ hp => h s₁ B₁ hp)
    refine ⟨s₁, [], s₁, r, s₃, h1, ?_, h2⟩
    rw [if_pos hz]
    rfl
  · have hsym : SymIs s.scopes s.scope (some s.syms.length) (E.decls.length + 1) E.decls.length sym.exprType sym.kind (.func τs f.returnType) := by
      rw [hk]; exact .func fun hne => absurd (by rw [hi.len]) hne
    obtain ⟨s₁, h1⟩ := mustAdd_complete hi hsym (.inr rfl) ha.strict hfr
    obtain ⟨g1, g2, g3, g4, g5, g6⟩ := declare_sound hi hsym (.inr rfl) (mustAdd_ok.1 h1)
    obtain ⟨w1, w2, w3, w4, i, sc, hs, hsc⟩ := withScope_inv g2
    have k1 := makeChild_eq g2 hs hsc
    have o1 := opened_inv w1 hs hsc
    obtain ⟨ps, t₂, k2, hpst⟩ := paramDecls_complete ha.strict (isExt := p.isExternal) _ _ _ _ _ hps o1
    obtain ⟨E₁', q1, q2, q3, q4, q5, q6, q7⟩ := paramDecls_sound ha.models.loose _ _ _ _ _ k2 o1
    have hE : E₁' = E₁ := by
      refine (params_det hps q1 ⟨rfl, rfl, fun _ => .inl rfl⟩).2 rfl
    subst hE
    have hgs : s₁.syms[s.syms.length]? = some sym := by rw [g5]; exact getElem?_append_new _ _
    have hgo : (opened s₁.withScope i sc).syms[s.syms.length]? = some sym := by
      show s₁.withScope.syms[s.syms.length]? = some sym
      rw [w4]; exact hgs
    have hgt : t₂.syms[s.syms.length]? = some sym := by rw [q6 _ (get_lt hgo), hgo]
    have hgd : E₁'.decls[s.syms.length]? = some (.func (ps.map Prod.fst) f.returnType) := by
      rw [q7 _ (by simp [Env.add, hi.len]), hi.len, hpst]
      exact getElem?_append_new _ _
    obtain ⟨t₃, hup, r1, r2, r3, r4⟩ := finish_func q2 hgt hk hgd (by rw [paramsOk_length q1]; omega)
    have hfr₃ : Frame (opened s₁.withScope i sc) t₃ := q3.trans r2
    have hu := under_of_frame hs hsc hfr₃
    have hblk : BlkAt t₃ s₁.withScope.scopes.length (some i) := r1.blk.1
    have hsc' : t₃.scope = some s₁.withScope.scopes.length := by rw [r4]; exact q5 _ rfl
    have k4 := restoreParent_eq hblk
    have hre := reenter hsc' hblk hu.cur rfl
    have hsame : Same s t₃ :=
      (((g4.trans w3).trans (show Same s₁.withScope (opened s₁.withScope i sc) from ⟨rfl, rfl, rfl⟩)).trans q4).trans r3
    have hpre : SemPre (loosen W) ext true t₃ (some (s₁.withScope.scopes.length, i)) E₁' ⟨some f.returnType, 0, false⟩ := by
      refine ⟨r1, rfl, hsame.2.2.trans hd, ?_, fun _ => hret t₃ (hfr₃.syms _ _ hgo) hsame.1⟩
      have := get_lt (hfr₃.syms _ _ hgo).choose_spec.1
      omega
    obtain ⟨r, t', m1⟩ := h _ _ hpre
    obtain ⟨E₂, n1, n2, n3⟩ := hn _ _ _ _ _ _ _ _ m1 hcnt (fun _ => hpl) (fun h => h.elim) hpre
    have hfr' := hfr₃.trans n2.frame
    have hu' := under_of_frame hs hsc hfr'
    have heq := block_eq hre m1 n2.pre.inv.blk.1 hu'.cur
    refine ⟨s₁, ps.map Prod.snd, { t₃ with scope := some i }, r, _, h1, ?_, heq⟩
    rw [if_neg hz, bind_of _ k1, hnum, List.take_length, bind_of _ k2, bind_of _ hup, bind_of _ k4]
    rfl

theorem post_complete {child : Tree} {s : SS} {sym f l} (hs : s.syms[s.currentFunc]? = some sym) (hk : sym.kind = .func f)
    (hr : f.isExternal = false → (ReturnsValue child ↔ f.returnType ≠ Void')) (hl : s.lastFunc = some l) :
    ∃ s', postValidateFunc child s = .ok () s' := by
  unfold postValidateFunc
  rw [bind_of _ (show Chk.get s = .ok s s from rfl), bind_of _ (funcAt_eq hs hk)]
  cases he : f.isExternal with
  | true => exact ⟨_, rfl⟩
  | false =>
    simp only [Bool.false_eq_true, if_false]
    have h1 : checkReturns f child s = .ok () s := by
      unfold checkReturns
      have hr := hr he
      rw [← returnsValue_iff] at hr
      cases h : returnsValue child with
      | true =>
        have := hr.1 h
        simp [show f.returnType ≠ tVoid from this]
        rfl
      | false =>
        have : f.returnType = tVoid := Decidable.byContradiction fun hne => by rw [hr.2 hne] at h; cases h
        simp [this]
        rfl
    rw [bind_of _ h1]
    unfold leaveFunc
    rw [hl]
    exact ⟨_, rfl⟩

theorem func_complete {cfg W ext inF s B E c p before tok tokEnd child next E₁ f τ τs} (ha : Accepts cfg W)
    (hp : SemPre (loosen W) ext inF s B E c) (hnum : p.numParams = p.params.length) (hcnt : Counted child) (hpl : Plain ext true child)
    (hlink : p.isExport = true → ∀ x, Text p.name x → (mangleName cfg.filename x).isSome = true)
    (h1 : (p.isExport || p.isExternal) = true → c.top = true) (h2 : RetType E p.returnType τ) (h3 : Text p.name f)
    (h4 : E.Fresh W f) (h5 : ParamsOk W (E.add f (.func τs τ)) p.params τs E₁)
    (h7 : p.isExternal = false → (ReturnsValue child ↔ τ ≠ Void'))
    (h : ∀ s₁ B₁, SemPre (loosen W) ext true s₁ B₁ E₁ ⟨some τ, 0, false⟩ → ∃ r s₂, validateNodes cfg [] child s₁ = .ok r s₂) :
    ∃ r s', validateStmt cfg before (.funcProto p) tok tokEnd child next (validateNodes cfg [] child) s = .ok r s' := by
  unfold validateStmt
  simp only
  rw [bind_of _ (show Chk.get s = .ok s s from rfl),
    bind_of _ (show setDepth 0 s = .ok () { s with whileDepth := 0 } from rfl)]
  have hi₀ : SInv { s with whileDepth := 0 } B E none := hp.inv.of_eq rfl rfl rfl
  have hi₁ : SInv { s with whileDepth := 0, lastFunc := some s.currentFunc, currentFunc := s.syms.length } B E none :=
    hp.inv.of_eq rfl rfl rfl
  obtain ⟨link, hl⟩ := linkageName_eq (cfg := cfg) (isExport := p.isExport) (name := f) { s with whileDepth := 0 } (fun h => hlink h f h3)
  obtain ⟨s₁, ids, s₂, r, s₃, g1, g2, g3⟩ := body_complete (p := p) (sym := { name := f, linkageName := link, exprType := some τ, loc := some p.name, kind := .func { numParams := p.numParams, paramTypes := [], returnType := τ, isExternal := p.isExternal, isExport := p.isExport } })
    ha hi₁ hp.pos rfl rfl rfl rfl rfl hnum hcnt hpl h4 h5 h
  obtain ⟨_, _, _, _, _, _, _, _, _, ⟨sym', k1, k2⟩, k3⟩ := body_sound ha.models (nodes_sound (ext := ext) (bare := False) ha.models child)
    hi₁ hp.pos rfl rfl rfl rfl rfl hnum g1 g2 g3 hcnt (fun _ => hpl) (fun h => h.elim)
  have k3 := k3 ha.returns
  have hdecl : validateFuncDecl cfg p { s with whileDepth := 0 } = .ok (s.syms.length, ids) s₂ := by
    unfold validateFuncDecl
    rw [bind_of _ ((notNested_ok hi₀.blk).2 ⟨fun he => by rw [← hp.top]; exact h1 he, rfl⟩), bind_of _ (retType_complete hi₀ h2),
      bind_of _ (tokName_eq _ h3), bind_of _ hl, bind_of _ (newSym_eq _ _)]
    show (enterFunc s.syms.length >>= fun _ => _) _ = _
    refine (bind_of _ rfl).trans ?_
    refine (bind_of _ g1).trans ?_
    refine (bind_of _ g2).trans ?_
    rfl
  rw [bind_of _ hdecl, bind_of _ g3]
  simp only at k1 k3
  obtain ⟨f', hk', hkr, hke⟩ : ∃ f', sym'.kind = .func f' ∧ f'.returnType = τ ∧ f'.isExternal = p.isExternal := by
    cases hk : sym'.kind with
    | func f' =>
      obtain ⟨k5, k6⟩ := core_func hk k2
      exact ⟨f', rfl, k5, k6⟩
    | _ => rw [Symbol.core, hk] at k2; simp [SymKind.core, Symbol.core] at k2
  obtain ⟨s₄, g4⟩ := post_complete (child := child) (by rw [k3.1]; exact k1) hk' (by rw [hkr, hke]; exact h7) k3.2
  rw [bind_of _ g4]
  exact ⟨_, _, rfl⟩

/-- The first statement has a block only if it may. -/
def Sane : Tree → Prop
  | .nil => True
  | .node stmt _ _ child _ => child ≠ .nil → MayHaveBlock stmt

theorem sane_of_stmts {W c E b t E'} (h : Stmts W c E b t E') : Sane t := by
  cases h with
  | nil => trivial
  | node h => exact h

theorem sane_eq {t : Tree} (h : Sane t) (s : SS) : assertSaneChild t s = .ok () s := by
  cases t with
  | nil => rfl
  | node => exact saneChild_eq h

theorem optExpr_complete {cfg : Cfg} {W : World} (hW : W.strtod = cfg.strtod) {B E e s τ} (hi : SInv s B E none) (hc : Expr.Counted e)
    (h : HasType W E e τ) : ∃ a s', validateOptExpr cfg e s = .ok (some a) s' ∧ a.type = τ := by
  obtain ⟨a, s', h1, h2⟩ := expr_complete hW e s τ h hi hc
  refine ⟨a, s', ?_, h2⟩
  have : validateOptExpr cfg e s = (do pure (some (← validateExpr cfg e)) : Chk (Option AExpr)) s := by
    cases e with
    | missing => cases h
    | _ => rfl
  rw [this, bind_of _ h1]
  rfl

theorem ret_complete {cfg W ext inF s B E c e tok next} (ha : Accepts cfg W) (hp : SemPre (loosen W) ext inF s B E c)
    (hcnt : Expr.Counted e) (hpl : inF = true ∨ ext = false) (hsane : Sane next) (hno : NoCode next)
    (h : (e = .missing ∧ ReturnFits c none) ∨ ∃ τ, HasType W E e τ ∧ ReturnFits c (some τ)) :
    ∃ a s', validateReturn cfg e tok next s = .ok a s' := by
  have key : ∃ o s₁, validateOptExpr cfg e s = .ok o s₁ ∧ ReturnFits c (o.map AExpr.type) := by
    rcases h with ⟨rfl, h⟩ | ⟨τ, h1, h2⟩
    · exact ⟨none, s, rfl, h⟩
    · obtain ⟨a, s', h3, rfl⟩ := optExpr_complete (strtod_loosen ha) hp.inv hcnt h1
      exact ⟨some a, s', h3, h2⟩
  obtain ⟨o, s₁, h1, h2⟩ := key
  have hq := (optExpr_sound (strtod_loosen ha) h1 hp.inv hcnt).1
  have hp₁ := (hp.quiet hq).pre
  have hr := hp₁.ret ha.returns
  have hfun : ∃ sym f, s₁.syms[s₁.currentFunc]? = some sym ∧ sym.kind = .func f := by
    have hc : ∃ sym r x, s₁.syms[s₁.currentFunc]? = some sym ∧ sym.core = (.func, some (r, x)) := by
      cases inF with
      | true => obtain ⟨_, sym, r, x, h4, h5, _⟩ := hr; exact ⟨sym, r, x, h4, h5⟩
      | false =>
        obtain ⟨_, h4⟩ := hr
        obtain ⟨h5, sym, h6, h7⟩ := h4 (by rcases hpl with h | h; cases h; exact h)
        exact ⟨sym, _, _, by rw [h5]; exact h6, h7⟩
    obtain ⟨sym, r, x, h4, h5⟩ := hc
    cases hk : sym.kind with
    | func f => exact ⟨sym, f, h4, hk⟩
    | _ => rw [Symbol.core, hk] at h5; simp [SymKind.core] at h5
  obtain ⟨sym, f, h4, h5⟩ := hfun
  have h6 := (returnFits hp₁ ha.returns hpl h4 h5 (o.map AExpr.type)).1 h2
  unfold validateReturn
  have h7 : checkReturn (s₁.currentFunc == 0) f o tok s₁ = .ok () s₁ := by
    rw [checkReturn_ok]
    refine ⟨?_, rfl⟩
    cases o with
    | none => exact h6
    | some a => exact h6
  rw [bind_of _ (sane_eq hsane s), bind_of _ h1, bind_of _ (show Chk.get s₁ = .ok s₁ s₁ from rfl), bind_of _ (funcAt_eq h4 h5),
    bind_of _ h7, bind_of _ (noDead_ok.2 ⟨hno, rfl⟩)]
  exact ⟨_, _, rfl⟩

/-- Well formed statements of a tree are accepted. -/
def NodesComplete (cfg : Cfg) (W : World) (ext : Bool) (t : Tree) : Prop :=
  ∀ before s inF B E c E', Stmts W c E before t E' → Counted t → Plain ext inF t → Linked cfg t → c.loops + loopDepth t < 2 ^ 32 →
    SemPre (loosen W) ext inF s B E c → ∃ a s', validateNodes cfg before t s = .ok a s'

theorem ns_complete {cfg W ext inF s B E c k t ts before tokEnd child next n} (ha : Accepts cfg W)
    (hp : SemPre (loosen W) ext inF s B E c) (hcnt : Counted child) (hpl : Plain ext inF child)
    (h1 : Text t n) (h2 : E.Fresh W n)
    (h : ∀ s₁ B₁, SemPre (loosen W) ext inF s₁ B₁ (E.add n (.ns [])) c.inner → ∃ r s₂, validateNodes cfg [] child s₁ = .ok r s₂) :
    ∃ r s', validateStmt cfg before .namespaces (k :: t :: ts) tokEnd child next (validateNodes cfg [] child) s = .ok r s' := by
  unfold validateStmt
  simp only
  obtain ⟨s₁, g1⟩ := mustAdd_complete (sym := { name := n, loc := some t, kind := .ns none }) hp.inv (d := .ns []) (pend' := none) .nsNone
    (.inl rfl) ha.strict h2
  have g2 : declareNamespace (k :: t :: ts) s = .ok s.syms.length s₁ := by
    unfold declareNamespace
    rw [bind_of _ (show headTok (k :: t :: ts).tail s = .ok t s from rfl), bind_of _ (tokName_eq s h1), bind_of _ (newSym_eq _ _),
      bind_of _ g1]
    rfl
  obtain ⟨k1, k2, k3, k4, k5, k6⟩ := declare_sound hp.inv (d := .ns []) (pend' := none) .nsNone (.inl rfl) (mustAdd_ok.1 g1)
  have hpre := (hp.post k2 k3 k4).pre
  have hn := nodes_sound (ext := ext) (bare := False) ha.models child
  obtain ⟨r, s₂, g3⟩ := block_complete hn hcnt (fun _ => hpl) (fun h => h.elim) hpre h
  obtain ⟨E₁', _, m1, _, cur, chain, m2, _⟩ := block_sound hn g3 hcnt (fun _ => hpl) (fun h => h.elim) hpre
  rw [bind_of _ g2, bind_of _ g3]
  have hg : s₁.syms[s.syms.length]? = some { name := n, loc := some t, kind := .ns none } := by
    rw [k5]; exact getElem?_append_new _ _
  obtain ⟨sym, m3, _⟩ := m1.frame.syms _ _ hg
  have g4 : ∃ s₃, closeNamespace s.syms.length s₂ = .ok () s₃ := by
    unfold closeNamespace
    rw [m2]
    exact ⟨_, updSym_eq _ m3⟩
  obtain ⟨s₃, g4⟩ := g4
  rw [bind_of _ g4]
  exact ⟨_, _, rfl⟩

theorem stmt_complete {cfg W ext inF s B E c before stmt tok tokEnd child next E'} (ha : Accepts cfg W)
    (hn : NodesComplete cfg W ext child) (hp : SemPre (loosen W) ext inF s B E c) (hcs : StmtCounted stmt) (hcnt : Counted child)
    (hpl : Plain ext inF (.node stmt tok tokEnd child next)) (hls : StmtLinked cfg stmt) (hlk : Linked cfg child)
    (hd : c.loops + loopDepth (.node stmt tok tokEnd child next) < 2 ^ 32) (hsane : Sane next)
    (h : StmtOk W c E before stmt tok tokEnd child next E') :
    ∃ r s', validateStmt cfg before stmt tok tokEnd child next (validateNodes cfg [] child) s = .ok r s' := by
  have hns := nodes_sound (ext := ext) (bare := False) ha.models child
  have hdepth : (∀ e, stmt ≠ .whiles e) → loopDepth child < 2 ^ 32 ∧ c.loops + loopDepth child < 2 ^ 32 := by
    intro hne
    have : loopDepth child ≤ loopDepth (.node stmt tok tokEnd child next) := by
      cases stmt <;> first | exact absurd rfl (hne _) | (rw [loopDepth]; exact Nat.le_max_left _ _; done) | (rw [loopDepth.eq_3]; exact Nat.le_max_left _ _; intro _ h; cases h)
    omega
  have blk : ∀ {E₁ s₁}, (∀ e, stmt ≠ .whiles e) → Plain ext inF child → SemPre (loosen W) ext inF s₁ B E c →
      Stmts W c.inner E [] child E₁ → ∃ r s', block (validateNodes cfg [] child) s₁ = .ok r s' := by
    intro E₁ s₁ hne hpc hp₁ hst
    exact block_complete hns hcnt (fun _ => hpc) (fun h => h.elim) hp₁ fun s₂ B₂ hp₂ =>
      hn [] s₂ inF B₂ E c.inner E₁ hst hcnt hpc hlk (hdepth hne).2 hp₂
  cases h with
  | retNone h1 h2 =>
    obtain ⟨a, s', h3⟩ := ret_complete (tok := tok) ha hp hcs hpl.1.1 hsane h2 (.inl ⟨rfl, h1 ha.returns⟩)
    unfold validateStmt
    simp only
    rw [bind_of _ h3]
    exact ⟨_, _, rfl⟩
  | ret h0 h1 h2 h3 =>
    obtain ⟨a, s', h4⟩ := ret_complete (tok := tok) ha hp hcs hpl.1.1 hsane h3 (.inr ⟨_, h1, h2 ha.returns⟩)
    unfold validateStmt
    simp only
    rw [bind_of _ h4]
    exact ⟨_, _, rfl⟩
  | unreachable h1 =>
    unfold validateStmt
    simp only
    rw [bind_of _ (noDead_ok.2 ⟨h1, rfl⟩)]
    exact ⟨_, _, rfl⟩
  | func h1 h2 h3 h4 h5 h6 h7 =>
    refine func_complete ha hp hcs hcnt hpl.1.2.2 hls h1 h2 h3 h4 h5 (h7 ha.returns) fun s₁ B₁ hp₁ => ?_
    refine hn [] s₁ true B₁ _ _ _ h6 hcnt hpl.1.2.2 hlk ?_ hp₁
    have := (hdepth (fun e h => by cases h)).1
    simpa using this
  | @alias _ _ _ name isImplicit isExported e x σ τ t ts _ _ _ h1 h2 h3 h4 h5 =>
    unfold validateStmt
    simp only
    have : ∃ a s', validateVarDef cfg name true isImplicit isExported e (t :: ts) tokEnd s = .ok a s' := by
      unfold validateVarDef
      rw [bind_of _ (tokenToType_complete hp.inv h1)]
      simp only
      obtain ⟨s', h6⟩ := alias_complete ha hp.inv rfl h2 h3 h4 h5
      rw [bind_of _ h6]
      exact ⟨_, _, rfl⟩
    obtain ⟨a, s', h6⟩ := this
    rw [bind_of _ h6]
    exact ⟨_, _, rfl⟩
  | @varDef _ _ _ n ns isConst isImplicit isExported e x τ _ _ _ _ h1 h2 h3 h4 h5 h6 h7 =>
    unfold validateStmt
    simp only
    obtain ⟨a, s', h8⟩ := var_complete (isConst := isConst) ha hp.inv hcs hls h2 h3 h4 h5 h6 h7
    have : validateVarDef cfg (n :: ns) isConst isImplicit isExported e tok tokEnd s = .ok a s' := by
      unfold validateVarDef
      rw [bind_of _ (tokenToType_complete hp.inv h1)]
      exact h8
    rw [bind_of _ this]
    exact ⟨_, _, rfl⟩
  | varAssign h1 h2 h3 h4 =>
    obtain ⟨a, s', h5⟩ := varAssign_complete ha hp.inv hcs h1 h2 h3 h4
    unfold validateStmt
    simp only
    rw [bind_of _ h5]
    exact ⟨_, _, rfl⟩
  | call h1 =>
    obtain ⟨a, s', h2, _⟩ := expr_complete (strtod_loosen ha) _ s _ h1 hp.inv hcs
    unfold validateStmt
    simp only
    rw [bind_of _ h2]
    exact ⟨_, _, rfl⟩
  | ifs h1 h2 h3 =>
    obtain ⟨a, s₁, h4⟩ := condition_complete (strtod_loosen ha) ha.werror h2 hp.inv hcs
    have hq := (condition_sound (strtod_loosen ha) h4 hp.inv hcs).2
    obtain ⟨r, s', h5⟩ := blk (fun e h => by cases h) hpl.1 (hp.quiet hq).pre h3
    unfold validateStmt
    simp only
    rw [bind_of _ (needBlock_ok.2 ⟨h1, rfl⟩), bind_of _ h4, bind_of _ h5]
    exact ⟨_, _, rfl⟩
  | elifs h0 h1 h2 h3 =>
    obtain ⟨a, s₁, h4⟩ := condition_complete (strtod_loosen ha) ha.werror h2 hp.inv hcs
    have hq := (condition_sound (strtod_loosen ha) h4 hp.inv hcs).2
    obtain ⟨r, s', h5⟩ := blk (fun e h => by cases h) hpl.1 (hp.quiet hq).pre h3
    unfold validateStmt
    simp only
    rw [bind_of _ (needBlock_ok.2 ⟨h1, rfl⟩), bind_of _ (needIf_ok.2 ⟨h0, rfl⟩), bind_of _ h4, bind_of _ h5]
    exact ⟨_, _, rfl⟩
  | elses h0 h1 h3 =>
    obtain ⟨r, s', h5⟩ := blk (fun e h => by cases h) hpl.1 hp h3
    unfold validateStmt
    simp only
    rw [bind_of _ (needIf_ok.2 ⟨h0, rfl⟩), bind_of _ (needBlock_ok.2 ⟨h1, rfl⟩), bind_of _ h5]
    exact ⟨_, _, rfl⟩
  | @whiles _ _ _ _ e _ _ _ _ h1 h2 h3 =>
    unfold validateStmt
    simp only
    rw [bind_of _ (show Chk.get s = .ok s s from rfl),
      bind_of _ (show setDepth (s.whileDepth + 1) s = .ok () { s with whileDepth := (s.whileDepth + 1) % 2 ^ 32 } from rfl)]
    have hp' : SemPre (loosen W) ext inF { s with whileDepth := (s.whileDepth + 1) % 2 ^ 32 } B E { c with loops := c.loops + 1 } := by
      refine ⟨hp.inv.of_eq rfl rfl rfl, hp.top, ?_, hp.pos, fun hw => (hp.ret hw).keep (.of_eq rfl rfl rfl) rfl⟩
      show (s.whileDepth + 1) % 2 ^ 32 = (c.loops + 1) % 2 ^ 32
      rw [hp.loops]
      omega
    obtain ⟨a, s₁, h4⟩ := condition_complete (strtod_loosen ha) ha.werror h2 hp'.inv hcs
    have hq := (condition_sound (strtod_loosen ha) h4 hp'.inv hcs).2
    have h5 : ∃ r s', block (validateNodes cfg [] child) s₁ = .ok r s' := by
      refine block_complete hns hcnt (fun _ => hpl.1) (fun h => h.elim) (hp'.quiet hq).pre fun s₂ B₂ hp₂ => ?_
      refine hn [] s₂ inF B₂ E _ _ h3 hcnt hpl.1 hlk ?_ hp₂
      have : loopDepth child + 1 ≤ loopDepth (.node (.whiles e) tok tokEnd child next) := by
        rw [loopDepth.eq_2]
        exact Nat.le_max_left _ _
      show c.loops + 1 + loopDepth child < 2 ^ 32
      omega
    obtain ⟨r, s', h5⟩ := h5
    rw [bind_of _ (needBlock_ok.2 ⟨h1, rfl⟩), bind_of _ h4, bind_of _ h5, bind_of _ (show Chk.get s' = .ok s' s' from rfl)]
    exact ⟨_, _, rfl⟩
  | breaks h1 h2 =>
    unfold validateStmt
    simp only
    rw [bind_of _ (jump_ok.2 ⟨⟨?_, h2⟩, rfl⟩)]
    · exact ⟨_, _, rfl⟩
    · rw [hp.loops]
      omega
  | continues h1 h2 =>
    unfold validateStmt
    simp only
    rw [bind_of _ (jump_ok.2 ⟨⟨?_, h2⟩, rfl⟩)]
    · exact ⟨_, _, rfl⟩
    · rw [hp.loops]
      omega
  | namespaces h1 h2 h3 =>
    refine ns_complete ha hp hcnt hpl.1 h1 h2 fun s₁ B₁ hp₁ => ?_
    exact hn [] s₁ inF B₁ _ _ _ h3 hcnt hpl.1 hlk (hdepth (fun e h => by cases h)).2 hp₁
  | imports h1 h2 =>
    unfold validateStmt
    simp only
    rw [bind_of _ ((importCheck_ok ha.models).2 ⟨⟨_, _, _, _, rfl, h1, h2⟩, rfl⟩)]
    exact ⟨_, _, rfl⟩
  | unknown => exact ⟨_, _, rfl⟩
  | comment => exact ⟨_, _, rfl⟩
  | noop => exact ⟨_, _, rfl⟩

theorem nodes_complete {cfg W ext} (ha : Accepts cfg W) : ∀ t, NodesComplete cfg W ext t
  | .nil => by
    intro before s inF B E c E' _ _ _ _ _ _
    exact ⟨_, _, rfl⟩
  | .node stmt tok tokEnd child next => by
    intro before s inF B E c E' h hcnt hpl hlk hd hp
    cases h with
    | node h1 h2 h3 =>
      obtain ⟨r, s₁, g1⟩ := stmt_complete ha (nodes_complete ha child) hp hcnt.1 hcnt.2.1 hpl hlk.1 hlk.2.1 hd (sane_of_stmts h3) h2
      obtain ⟨E₁, k1, k2, _, _⟩ := stmt_sound (bare := False) ha.models (nodes_sound ha.models child) hp hcnt.1 hcnt.2.1 (fun _ => hpl)
        (fun h => h.elim) g1
      cases stmt_det (W := W) (W' := loosen W) rfl (stmts_det (W := W) (W' := loosen W) rfl child) h2 k1
      have hd' : c.loops + loopDepth next < 2 ^ 32 := by
        have : loopDepth next ≤ loopDepth (.node stmt tok tokEnd child next) := by
          cases stmt <;> first | (rw [loopDepth.eq_2]; exact Nat.le_max_right _ _; done) | (rw [loopDepth.eq_3]; exact Nat.le_max_right _ _; intro _ h; cases h)
        omega
      obtain ⟨rest, s₂, g2⟩ := nodes_complete ha next _ s₁ inF B _ c _ h3 hcnt.2.2 hpl.2 hlk.2.2 hd' k2.pre
      unfold validateNodes
      rw [bind_of _ (saneChild_eq h1), bind_of _ g1, bind_of _ g2]
      exact ⟨_, _, rfl⟩

/- ### Programs -/

theorem unusedSym_eq {cfg : Cfg} (hw : cfg.werror = false) {sym : Symbol} (h : sym.core.1 = .var ∨ sym.core.1 = .func) (s : SS) :
    ∃ s', unusedSym cfg false sym s = .ok false s' ∧ s'.syms = s.syms := by
  have key : ∀ c code t (s : SS), ∃ s', warnIf cfg c false code t s = .ok false s' ∧ s'.syms = s.syms := by
    intro c code t s
    unfold warnIf
    cases c with
    | false => exact ⟨s, rfl, rfl⟩
    | true =>
      simp only [if_true]
      rw [bind_of _ (show report code t s = .ok () (s.diag code t) from rfl), hw]
      exact ⟨_, rfl, rfl⟩
  unfold unusedSym
  cases hk : sym.kind with
  | var v =>
    simp only
    obtain ⟨s₁, h1, h2⟩ := key (!v.isConst && !v.wasReassigned) .warnVarNotConst sym.loc s
    rw [bind_of _ h1]
    obtain ⟨s₂, h3, h4⟩ := key (!v.wasRead && !v.isExported) .warnVarUnused sym.loc s₁
    exact ⟨s₂, h3, h4.trans h2⟩
  | func f => exact key _ _ _ _
  | _ => rw [Symbol.core, hk] at h; simp [SymKind.core] at h

theorem checkUnused_eq {cfg : Cfg} (hw : cfg.werror = false) : ∀ (t : ATree) (s : SS), AnnOk True s.syms t →
    ∃ s', checkUnused cfg false t s = .ok false s' ∧ s'.syms = s.syms
  | .nil, s, _ => ⟨s, rfl, rfl⟩
  | .unchecked _, s, h => absurd trivial h
  | .node ann stmt tok child next, s, h => by
    have step : ∀ (s₁ : SS), s₁.syms = s.syms → ∃ s', checkUnused cfg false next s₁ = .ok false s' ∧ s'.syms = s.syms := by
      intro s₁ he
      obtain ⟨s', h1, h2⟩ := checkUnused_eq hw next s₁ (by rw [he]; exact h.2.2)
      exact ⟨s', h1, h2.trans he⟩
    have walk : (∀ id e, ann ≠ .varDef id e) → (∀ id e, ann ≠ .func id e) →
        ∃ s', checkUnused cfg false (.node ann stmt tok child next) s = .ok false s' ∧ s'.syms = s.syms := by
      intro hn1 hn2
      have hsub := checkUnused_eq hw child s h.2.1
      cases child with
      | nil =>
        have : checkUnused cfg false (.node ann stmt tok .nil next) s = checkUnused cfg false next s := by
          cases ann <;> first | exact absurd rfl (hn1 _ _) | exact absurd rfl (hn2 _ _) | rfl
        rw [this]
        exact step s rfl
      | unchecked t => exact absurd trivial h.2.1
      | node a b c d e =>
        obtain ⟨s₁, h1, h2⟩ := hsub
        have : checkUnused cfg false (.node ann stmt tok (.node a b c d e) next) s =
            (do let inner ← checkUnused cfg false (.node a b c d e); checkUnused cfg (false && !inner) next) s := by
          cases ann <;> first | exact absurd rfl (hn1 _ _) | exact absurd rfl (hn2 _ _) | rfl
        rw [this, bind_of _ h1]
        exact step s₁ h2
    cases ann with
    | varDef id e =>
      obtain ⟨sym, h1, h2⟩ := h.1
      obtain ⟨s₁, h3, h4⟩ := unusedSym_eq hw (.inl h2) s
      obtain ⟨s', h5, h6⟩ := step s₁ h4
      refine ⟨s', ?_, h6⟩
      unfold checkUnused
      rw [bind_of _ (symAt_eq h1), bind_of _ h3]
      exact h5
    | func id e =>
      obtain ⟨sym, h1, h2⟩ := h.1
      obtain ⟨s₁, h3, h4⟩ := unusedSym_eq hw (.inr h2) s
      obtain ⟨s', h5, h6⟩ := step s₁ h4
      refine ⟨s', ?_, h6⟩
      unfold checkUnused
      rw [bind_of _ (symAt_eq h1), bind_of _ h3]
      exact h5
    | none => exact walk (fun _ _ h => by cases h) (fun _ _ h => by cases h)
    | varAssign => exact walk (fun _ _ h => by cases h) (fun _ _ h => by cases h)
    | expr => exact walk (fun _ _ h => by cases h) (fun _ _ h => by cases h)
    | ns => exact walk (fun _ _ h => by cases h) (fun _ _ h => by cases h)

theorem resetHead_top {s : SS} (h : Blk s none) : ∃ s', resetScopeHead s = .ok () s' ∧ s'.syms = s.syms ∧ Blk s' none := by
  rcases h with h | ⟨hd, hb⟩
  · refine ⟨s, ?_, rfl, .inl h⟩
    unfold resetScopeHead findScopeHead
    rw [h]
  · refine ⟨{ s with scope := some hd }, ?_, rfl, .inr ⟨hd, ?_⟩⟩
    · unfold resetScopeHead
      rw [hb.findHead]
    · obtain ⟨cur, sc, h1, h2, h3, h4, h5⟩ := hb
      exact ⟨hd, sc, rfl, .head, h3, h4, h5⟩

/-- A program that is well formed is accepted. -/
theorem semantic_complete {cfg : Cfg} {W : World} (ha : Accepts cfg W) {t : Tree} (h : Program W t) (hc : Counted t) {ext : Bool}
    (hp : Plain ext false t) (hl : Linked cfg t) (hd : loopDepth t < 2 ^ 32) (hm : (createMainFuncName cfg.filename).isSome = true)
    (hb : cfg.quiet = false → CallsBare t) : ∃ a s, semantic cfg t = .ok a s := by
  obtain ⟨E, h⟩ := h
  obtain ⟨s, hs⟩ : ∃ s, setupState cfg = some s := by
    unfold setupState
    cases hn : createMainFuncName cfg.filename with
    | none => rw [hn] at hm; cases hm
    | some name => exact ⟨_, rfl⟩
  have hpre := setup_inv hs (loosen W) ext
  obtain ⟨a, s₁, h1⟩ := nodes_complete ha t [] s false none .start .main E h hc hp hl (by simpa [Ctx.main] using hd) hpre
  obtain ⟨E', _, h2, h3⟩ := nodes_sound (bare := cfg.quiet = false) ha.models t _ _ _ _ _ _ _ _ h1 hc (fun _ => hp) hb hpre
  obtain ⟨s₂, h4, h5, h6⟩ := resetHead_top h2.pre.inv.blk
  obtain ⟨s₃, h7, h8, _⟩ := resetHead_top h6
  unfold semantic
  rw [hs]
  simp only
  unfold validateAstTree
  rw [bind_of _ h1, bind_of _ h4, bind_of _ h7]
  cases hq : cfg.quiet with
  | true => exact ⟨_, _, rfl⟩
  | false =>
    simp only [Bool.false_eq_true, if_false]
    rw [hq] at h3
    obtain ⟨s₄, h9, _⟩ := checkUnused_eq ha.werror a s₃ (by
      rw [h8, h5]
      have : (false = false) = True := by simp
      rw [this] at h3
      exact h3)
    rw [bind_of _ h9]
    exact ⟨_, _, rfl⟩

end Skull
