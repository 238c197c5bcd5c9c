import Verif.Proofs.SemStmt
/-
What the check accepts is well formed.
-/
namespace Skull
open Spec

/-- The world that the check sees. -/
structure Models (cfg : Cfg) (W : World) : Prop where
  strtod : W.strtod = cfg.strtod
  imports : ∀ m, W.canImport m ↔
    cfg.openDir (currentFileDir cfg.filename) = true ∧ cfg.openFile (currentFileDir cfg.filename) (m ++ ".sk".toList) = true
  loose : ¬ W.strict

/-- The current function is the one that the statements are in. -/
def RetRel (ext : Bool) (s : SS) : Bool → Option Ty → Prop
  | true, ret => s.currentFunc ≠ 0 ∧
      ∃ sym r x, s.syms[s.currentFunc]? = some sym ∧ sym.core = (.func, some (r, x)) ∧ ret = some r
  | false, ret => ret = none ∧
      (ext = false → s.currentFunc = 0 ∧ ∃ sym, s.syms[0]? = some sym ∧ sym.core = (.func, some (tInt, false)))

/-- What holds between statements. -/
structure SemPre (W : World) (ext inF : Bool) (s : SS) (B : Option (Nat × Nat)) (E : Env) (c : Ctx) : Prop where
  inv : SInv s B E none
  top : c.top = B.isNone
  loops : s.whileDepth = c.loops % 2 ^ 32
  pos : 0 < s.syms.length
  ret : W.returns → RetRel ext s inF c.ret

/-- What holds after statements. -/
structure SemPost (W : World) (ext inF : Bool) (s s' : SS) (B : Option (Nat × Nat)) (E : Env) (c : Ctx) : Prop where
  pre : SemPre W ext inF s' B E c
  frame : Frame s s'
  same : W.returns → inF = true → s'.currentFunc = s.currentFunc ∧ s'.lastFunc = s.lastFunc

theorem RetRel.keep {ext s s' inF ret} (h : RetRel ext s inF ret) (hf : Frame s s') (hc : s'.currentFunc = s.currentFunc) :
    RetRel ext s' inF ret := by
  cases inF with
  | true =>
    obtain ⟨h0, sym, r, x, h1, h2, h3⟩ := h
    obtain ⟨sym', h4, h5⟩ := hf.syms _ _ h1
    exact ⟨by rw [hc]; exact h0, sym', r, x, by rw [hc, h4], h5.trans h2, h3⟩
  | false =>
    refine ⟨h.1, fun he => ?_⟩
    obtain ⟨h0, sym, h1, h2⟩ := h.2 he
    obtain ⟨sym', h4, h5⟩ := hf.syms _ _ h1
    exact ⟨hc.trans h0, sym', h4, h5.trans h2⟩

theorem Frame.symsLen {s s' : SS} (hf : Frame s s') : s.syms.length ≤ s'.syms.length := by
  cases hn : s.syms.length with
  | zero => omega
  | succ n =>
    obtain ⟨sym', h, _⟩ := hf.syms n _ (List.getElem?_eq_getElem (by omega))
    have := get_lt h
    omega

theorem SemPre.post {W ext inF s s' B E E' c} (hp : SemPre W ext inF s B E c) (hi : SInv s' B E' none) (hf : Frame s s')
    (hs : Same s s') : SemPost W ext inF s s' B E' c :=
  ⟨⟨hi, hp.top, by rw [hs.2.2]; exact hp.loops, Nat.lt_of_lt_of_le hp.pos hf.symsLen, fun h => (hp.ret h).keep hf hs.1⟩, hf, fun _ _ => ⟨hs.1, hs.2.1⟩⟩

theorem SemPre.quiet {W ext inF s s' B E c} (hp : SemPre W ext inF s B E c) (hq : Quiet s s') : SemPost W ext inF s s' B E c :=
  hp.post (hp.inv.quiet hq) hq.frame hq.same

theorem SemPre.refl {W ext inF s B E c} (hp : SemPre W ext inF s B E c) : SemPost W ext inF s s B E c := hp.quiet (.refl s)

theorem SemPost.trans {W ext inF s s' s'' B E E' c} (h : SemPost W ext inF s s' B E c) (h' : SemPost W ext inF s' s'' B E' c) :
    SemPost W ext inF s s'' B E' c :=
  ⟨h'.pre, h.frame.trans h'.frame, fun hw hi => ⟨(h'.same hw hi).1.trans (h.same hw hi).1, (h'.same hw hi).2.trans (h.same hw hi).2⟩⟩

/- ### What the check wrote into the tree -/

/-- The symbols in a node are of the right kind. -/
def AnnFits (syms : List Symbol) : Ann → Prop
  | .varDef id _ => ∃ sym, syms[id]? = some sym ∧ sym.core.1 = .var
  | .func id _ => ∃ sym, syms[id]? = some sym ∧ sym.core.1 = .func
  | _ => True

/-- The symbols in a tree are of the right kind; with `bare` no block was left unchecked. -/
def AnnOk (bare : Prop) (syms : List Symbol) : ATree → Prop
  | .nil => True
  | .unchecked _ => ¬ bare
  | .node ann _ _ child next => AnnFits syms ann ∧ AnnOk bare syms child ∧ AnnOk bare syms next

theorem AnnFits.keep {s s' : SS} (hf : Frame s s') {a : Ann} (h : AnnFits s.syms a) : AnnFits s'.syms a := by
  cases a with
  | varDef id e =>
    obtain ⟨sym, h1, h2⟩ := h
    obtain ⟨sym', h3, h4⟩ := hf.syms _ _ h1
    exact ⟨sym', h3, by rw [h4]; exact h2⟩
  | func id e =>
    obtain ⟨sym, h1, h2⟩ := h
    obtain ⟨sym', h3, h4⟩ := hf.syms _ _ h1
    exact ⟨sym', h3, by rw [h4]; exact h2⟩
  | _ => trivial

theorem AnnOk.keep {bare} {s s' : SS} (hf : Frame s s') : ∀ {t : ATree}, AnnOk bare s.syms t → AnnOk bare s'.syms t
  | .nil, _ => trivial
  | .unchecked _, h => h
  | .node _ _ _ _ _, h => ⟨h.1.keep hf, h.2.1.keep hf, h.2.2.keep hf⟩

/- ### Blocks -/

/-- The statements of a tree are checked soundly. -/
def NodesSound (cfg : Cfg) (W : World) (ext : Bool) (bare : Prop) (t : Tree) : Prop :=
  ∀ before s a s' inF B E c, validateNodes cfg before t s = .ok a s' → Counted t → (W.returns → Plain ext inF t) →
    (bare → CallsBare t) → SemPre W ext inF s B E c → ∃ E', Stmts W c E before t E' ∧ SemPost W ext inF s s' B E' c ∧ AnnOk bare s'.syms a

theorem SemPre.withScope {W ext inF s B E c} (hp : SemPre W ext inF s B E c) : SemPost W ext inF s s.withScope B E c := by
  obtain ⟨h1, h2, h3, h4, _⟩ := withScope_inv hp.inv
  exact hp.post h1 h2 h3

theorem SemPre.opened {W ext inF s B E c i sc} (hp : SemPre W ext inF s B E c) (hs : s.scope = some i) (hsc : s.scopes[i]? = some sc) :
    SemPre W ext inF (opened s i sc) (some (s.scopes.length, i)) E c.inner :=
  ⟨opened_inv hp.inv hs hsc, rfl, hp.loops, hp.pos, fun h => hp.ret h⟩

/-- What the state is after a block whose statements were checked. -/
theorem block_close {W ext inF s s₂ B E E₁ c c' i sc} (hp : SemPre W ext inF s B E c) (hs : s.scope = some i)
    (hsc : s.scopes[i]? = some sc) (hc : c'.ret = c.ret) (hl : c'.loops = c.loops)
    (hq : SemPost W ext inF (opened s i sc) s₂ (some (s.scopes.length, i)) E₁ c') :
    SemPost W ext inF s (closed s₂ i { sc with child := some s.scopes.length }) B ⟨E.vis, E₁.decls⟩ c := by
  have hu := under_of_frame hs hsc hq.frame
  obtain ⟨h1, h2⟩ := closed_inv hp.inv hu hq.pre.inv
  refine ⟨⟨h1, hp.top, ?_, ?_, ?_⟩, h2, ?_⟩
  · exact hq.pre.loops.trans (by rw [hl])
  · exact hq.pre.pos
  · intro hw
    have := hq.pre.ret hw
    rw [hc] at this
    exact this
  · exact hq.same

theorem block_inv {s r s' B E pend} {nodes : Chk ATree} (h : block nodes s = .ok r s') (hi : SInv s B E pend) :
    ∃ i sc s₂, s.withScope.scope = some i ∧ s.withScope.scopes[i]? = some sc ∧ nodes (opened s.withScope i sc) = .ok r s₂ := by
  obtain ⟨_, _, _, _, i, sc, hs, hsc⟩ := withScope_inv hi
  unfold block at h
  rw [bind_of _ (makeChild_eq hi hs hsc)] at h
  replace h := bind_ok.1 h
  obtain ⟨r', s₂, h1, h⟩ := h
  replace h := bind_ok_unit.1 h
  obtain ⟨s₃, _, h⟩ := h
  replace h := bind_ok_unit.1 h
  obtain ⟨s₄, _, h⟩ := h
  replace h := bind_ok_unit.1 h
  obtain ⟨s₅, _, h⟩ := h
  cases h
  exact ⟨i, sc, s₂, hs, hsc, h1⟩

theorem block_sound {cfg W ext bare child s r s' inF B E c} (hn : NodesSound cfg W ext bare child)
    (h : block (validateNodes cfg [] child) s = .ok r s') (hcnt : Counted child) (hpl : W.returns → Plain ext inF child)
    (hb : bare → CallsBare child) (hp : SemPre W ext inF s B E c) :
    ∃ E₁, Stmts W c.inner E [] child E₁ ∧ SemPost W ext inF s s' B ⟨E.vis, E₁.decls⟩ c ∧ AnnOk bare s'.syms r ∧
      ∃ cur chain, blockScope s' = some (some cur) ∧ Walk s'.scopes (some cur) chain E₁.vis ∧
        (∀ i, s'.scope = some i → i ∉ chain) ∧ ∀ p ∈ E₁.vis, p.2 < E₁.decls.length := by
  obtain ⟨i, sc, s₂, hs, hsc, h1⟩ := block_inv h hp.inv
  have hw := hp.withScope
  obtain ⟨E₁, h2, h3, h4⟩ := hn _ _ _ _ _ _ _ _ h1 hcnt hpl hb (hw.pre.opened hs hsc)
  have hu := under_of_frame hs hsc h3.frame
  have heq := block_eq (makeChild_eq hp.inv hs hsc) h1 h3.pre.inv.blk.1 hu.cur
  rw [h] at heq
  cases heq
  refine ⟨E₁, h2, hw.trans (block_close (c' := c.inner) hw.pre hs hsc rfl rfl h3), h4, ?_⟩
  obtain ⟨cur, chain, h5, h6, h7⟩ := blockScope_eq hu h3.pre.inv
  refine ⟨cur, chain, h5, h6, ?_, h3.pre.inv.ids⟩
  intro i hi
  cases hi
  exact h7

theorem block_complete {cfg W ext bare child s inF B E c} (hn : NodesSound cfg W ext bare child)
    (hcnt : Counted child) (hpl : W.returns → Plain ext inF child) (hb : bare → CallsBare child) (hp : SemPre W ext inF s B E c)
    (h : ∀ s₁ B₁, SemPre W ext inF s₁ B₁ E c.inner → ∃ r s₂, validateNodes cfg [] child s₁ = .ok r s₂) :
    ∃ r s', block (validateNodes cfg [] child) s = .ok r s' := by
  obtain ⟨_, _, _, _, i, sc, hs, hsc⟩ := withScope_inv hp.inv
  have hw := hp.withScope
  obtain ⟨r, s₂, h1⟩ := h _ _ (hw.pre.opened hs hsc)
  obtain ⟨E₁, h2, h3, h4⟩ := hn _ _ _ _ _ _ _ _ h1 hcnt hpl hb (hw.pre.opened hs hsc)
  have hu := under_of_frame hs hsc h3.frame
  exact ⟨_, _, block_eq (makeChild_eq hp.inv hs hsc) h1 h3.pre.inv.blk.1 hu.cur⟩

/- ### Definitions -/

theorem fresh_of_free {E : Env} {W : World} (hl : ¬ W.strict) {x} (h : E.Free x) : E.Fresh W x := ⟨h, fun hs => absurd hs hl⟩

theorem alias_sound {cfg W ext inF s s' B E c before name isConst isImplicit isExported e tok tokEnd child next σ}
    (hW : Models cfg W) (hp : SemPre W ext inF s B E c) (hσ : TypeAt E tokEnd.tail (some σ))
    (h : validateTypeAlias isConst e tok s = .ok () s') :
    ∃ E', StmtOk W c E before (.varDef name isConst isImplicit isExported e) tok tokEnd child next E' ∧
      SemPost W ext inF s s' B E' c := by
  unfold validateTypeAlias at h
  cases isConst with
  | false => exact absurd h failTok_ok
  | true =>
    simp only [Bool.not_true, Bool.false_eq_true, if_false] at h
    by_cases ht : validateTypeAlias.isTypeExpr e = true
    · simp only [ht, Bool.not_true, Bool.false_eq_true, if_false] at h
      replace h := bind_ok.1 h
      obtain ⟨τ, s₁, h1, h⟩ := h
      replace h1 := tokenToType_sound hp.inv _ h1
      obtain ⟨rfl, h1⟩ := h1
      replace h := bind_ok.1 h
      obtain ⟨t, s₂, h2, h⟩ := h
      replace h2 := headTok_ok.1 h2
      obtain ⟨⟨ts, rfl⟩, rfl⟩ := h2
      replace h := bind_ok.1 h
      obtain ⟨x, s₃, h3, h⟩ := h
      replace h3 := tokName_ok.1 h3
      obtain ⟨h3, rfl⟩ := h3
      rw [bind_of _ (newSym_eq _ _), mustAdd_ok] at h
      have h4 := declare_sound hp.inv (d := .alias τ) .alias (.inl rfl) h
      exact ⟨_, .alias hσ ((isTypeExpr_iff e).1 ht) h1 h3 (fresh_of_free hW.loose h4.1), hp.post h4.2.1 h4.2.2.1 h4.2.2.2.1⟩
    · rw [Bool.not_eq_true] at ht
      simp only [ht, Bool.not_false, if_true] at h
      exact absurd h failTok_ok

theorem declaredType_sound {s s' B E pend isImplicit e name ty} (hi : SInv s B E pend)
    (h : declaredType isImplicit e name s = .ok ty s') :
    s' = s ∧ (isImplicit = true → ty = e.type) ∧ (isImplicit = false → TypeAt E name.tail (some ty)) := by
  unfold declaredType at h
  cases isImplicit with
  | true => cases h; exact ⟨rfl, fun _ => rfl, fun h => by cases h⟩
  | false =>
    simp only [Bool.false_eq_true, if_false] at h
    replace h := bind_ok.1 h
    obtain ⟨o, s₁, h1, h⟩ := h
    replace h1 := tokenToType_sound hi _ h1
    obtain ⟨rfl, h1⟩ := h1
    cases o with
    | none => cases h
    | some ty' => cases h; exact ⟨rfl, fun h => (by cases h), fun _ => h1⟩

theorem notVoid_ok {E e a} (ha : Anno E e a) {s s' : SS} :
    notVoidFuncAssign a s = .ok () s' ↔ (∀ f args num, e = .call f args num → a.type ≠ Void') ∧ s' = s := by
  cases e <;> cases a <;> first | (cases ha; done) | skip
  case call.call n args num n' args' id ty =>
    unfold notVoidFuncAssign
    simp only [AExpr.type]
    rw [chkIf_ok]
    constructor
    · rintro ⟨h, rfl⟩; exact ⟨fun _ _ _ _ => h, rfl⟩
    · rintro ⟨h, rfl⟩; exact ⟨h _ _ _ rfl, rfl⟩
  all_goals simp [notVoidFuncAssign, pure_def, eq_comm]

theorem linkageName_ok {cfg isExport name link} {s s' : SS} (h : linkageName cfg isExport name s = .ok link s') : s' = s := by
  unfold linkageName at h
  cases isExport with
  | false => cases h; rfl
  | true =>
    simp only [if_true] at h
    cases hm : mangleName cfg.filename name with
    | none => rw [hm] at h; cases h
    | some l => rw [hm] at h; cases h; rfl

theorem compatible_ok {e : AExpr} {ty : Ty} {s s' : SS} : compatible e ty s = .ok () s' ↔ e.type = ty ∧ s' = s := by
  unfold compatible
  rw [chkIf_ok]
  simp

theorem warnTrivial_quiet {cfg : Cfg} {e : AExpr} {i : Bool} {s s' : SS} (h : warnTrivial cfg e i s = .ok () s') : Quiet s s' := by
  unfold warnTrivial at h
  split at h
  · cases i with
    | true => cases h; exact .refl _
    | false => exact warn_quiet h
  · cases h; exact .refl _

/-- A variable is finished. -/
theorem define_var {s B E id sym v d} {f : Variable → Variable} (hi : SInv s B E (some id)) (hs : s.syms[id]? = some sym)
    (hk : sym.kind = .var v) (hd : E.decls[id]? = some d) (h1 : (f v).isDefined = true) (h2 : (f v).type = v.type)
    (h3 : (f v).isConst = v.isConst) :
    ∃ s', updVar id f s = .ok () s' ∧ SInv s' B E none ∧ Frame s s' ∧ Same s s' ∧
      s'.syms[id]? = some { sym with kind := .var (f v) } := by
  have hup : updVar id f s = .ok () { s with syms := s.syms.set id { sym with kind := .var (f v) } } := by
    unfold updVar
    rw [updSym_eq _ hs]
    simp only [hk]
  refine ⟨_, hup, ?_, set_frame hs ?_, ⟨rfl, rfl, rfl⟩, getElem?_set_self' hs⟩
  · obtain ⟨d', h4, h5⟩ := hi.sym id sym hs
    rw [hd] at h4
    cases h4
    rw [hk] at h5
    have := set_inv (sym' := { sym with kind := .var (f v) }) (d := d) (pend' := none) hi hs ?_ (.inr rfl)
    · rwa [set_same hd] at this
    · cases h5
      rw [← h2, ← h3]
      exact .var fun _ => h1
  · simp only [Symbol.core, hk, SymKind.core]

theorem varAt_eq {s : SS} {id : Nat} {sym : Symbol} {v : Variable} (hs : s.syms[id]? = some sym) (hk : sym.kind = .var v) :
    varAt id s = .ok v s := by
  unfold varAt
  rw [bind_of _ (symAt_eq hs), hk]
  rfl

theorem var_sound {cfg W ext inF s s' B E c before name isConst isImplicit isExported e tok tokEnd child next a}
    (hW : Models cfg W) (hp : SemPre W ext inF s B E c) (hσ : TypeAt E tokEnd.tail none) (hcnt : Expr.Counted e)
    (h : validateVar cfg name isConst isImplicit isExported e s = .ok a s') :
    ∃ E', StmtOk W c E before (.varDef name isConst isImplicit isExported e) tok tokEnd child next E' ∧
      SemPost W ext inF s s' B E' c ∧ AnnFits s'.syms a := by
  unfold validateVar at h
  replace h := bind_ok.1 h
  obtain ⟨ae, s₁, h1, h⟩ := h
  replace h1 := expr_sound hW.strtod e _ _ _ h1 hp.inv hcnt
  obtain ⟨h1, hanno, hq⟩ := h1
  have hi₁ := hp.inv.quiet hq
  replace h := bind_ok.1 h
  obtain ⟨id, s₂, h2, h⟩ := h
  unfold nodeToVar at h2
  replace h2 := bind_ok_unit.1 h2
  obtain ⟨s₃, h3, h2⟩ := h2
  rw [notVoid_ok hanno] at h3
  obtain ⟨h3, rfl⟩ := h3
  replace h2 := bind_ok.1 h2
  obtain ⟨ty, s₄, h4, h2⟩ := h2
  replace h4 := declaredType_sound hi₁ h4
  obtain ⟨rfl, h4, h5⟩ := h4
  replace h2 := bind_ok.1 h2
  obtain ⟨n, s₅, h6, h2⟩ := h2
  replace h6 := headTok_ok.1 h6
  obtain ⟨⟨ns, rfl⟩, rfl⟩ := h6
  replace h2 := bind_ok.1 h2
  obtain ⟨x, s₆, h7, h2⟩ := h2
  replace h7 := tokName_ok.1 h7
  obtain ⟨h7, rfl⟩ := h7
  replace h2 := bind_ok.1 h2
  obtain ⟨v, s₇, h8, h2⟩ := h2
  rw [makeVariable_ok] at h8
  obtain ⟨h8, rfl, rfl⟩ := h8
  replace h2 := bind_ok.1 h2
  obtain ⟨link, s₈, h9, h2⟩ := h2
  have := linkageName_ok h9
  subst this
  rw [bind_of _ (newSym_eq _ _)] at h2
  replace h2 := bind_ok_unit.1 h2
  obtain ⟨s₉, h10, h2⟩ := h2
  cases h2
  rw [mustAdd_ok] at h10
  have h11 := declare_sound hi₁ (d := .var ty (!isConst)) (pend' := some s₈.syms.length)
    (.var fun hne => absurd (by rw [hi₁.len]) hne) (.inr rfl) h10
  obtain ⟨hfree, hi₉, hf₉, hsame₉, hsyms₉, _⟩ := h11
  have hget := getElem?_append_new s₈.syms _ ▸ congrArg (fun l : List Symbol => l[s₈.syms.length]?) hsyms₉
  simp only at hget
  have hdget : (E.add x (.var ty (!isConst))).decls[s₈.syms.length]? = some (.var ty (!isConst)) := by
    rw [hi₁.len]; exact getElem?_append_new _ _
  obtain ⟨s₁₀, h12, h13, h14, h15, h16⟩ := define_var
    (f := fun v => { v with isDefined := true, constExpr := some ae.isConstExpr }) hi₉ hget rfl hdget rfl rfl rfl
  rw [bind_of _ h12] at h
  rw [bind_of _ (varAt_eq h16 rfl)] at h
  replace h := bind_ok_unit.1 h
  obtain ⟨s₁₁, h18, h⟩ := h
  rw [compatible_ok] at h18
  obtain ⟨h18, rfl⟩ := h18
  simp only at h18
  replace h := bind_ok_unit.1 h
  obtain ⟨s₁₂, h19, h⟩ := h
  cases h
  have hq' := warnTrivial_quiet h19
  subst h18
  refine ⟨_, .varDef (τ := ae.type) hσ h1 h3 (fun hi => h5 hi) h7 h8 (fresh_of_free hW.loose hfree), ?_, ?_⟩
  · exact (hp.post h13 ((hq.frame.trans hf₉).trans h14) ((hq.same.trans hsame₉).trans h15)).trans
      ((hp.post h13 ((hq.frame.trans hf₉).trans h14) ((hq.same.trans hsame₉).trans h15)).pre.quiet hq')
  · exact AnnFits.keep (s := s₁₁) hq'.frame ⟨_, h16, rfl⟩

theorem varDef_sound {cfg W ext inF s s' B E c before name isConst isImplicit isExported e tok tokEnd child next a}
    (hW : Models cfg W) (hp : SemPre W ext inF s B E c) (hcnt : Expr.Counted e)
    (h : validateVarDef cfg name isConst isImplicit isExported e tok tokEnd s = .ok a s') :
    ∃ E', StmtOk W c E before (.varDef name isConst isImplicit isExported e) tok tokEnd child next E' ∧
      SemPost W ext inF s s' B E' c ∧ AnnFits s'.syms a := by
  unfold validateVarDef at h
  replace h := bind_ok.1 h
  obtain ⟨o, s₁, h1, h⟩ := h
  replace h1 := tokenToType_sound hp.inv _ h1
  obtain ⟨rfl, h1⟩ := h1
  cases o with
  | none => exact var_sound hW hp h1 hcnt h
  | some σ =>
    replace h := bind_ok_unit.1 h
    obtain ⟨s₂, h2, h⟩ := h
    cases h
    obtain ⟨E', h3, h4⟩ := alias_sound hW hp h1 h2
    exact ⟨E', h3, h4, trivial⟩

theorem notRedundant_ok {E e a id} (ha : Anno E e a) {s s' : SS} {x} (hx : E.resolve x = some id) :
    notRedundant a id s = .ok () s' ↔ (∀ u y, e = .ident u → Text u y → E.resolve y ≠ E.resolve x) ∧ s' = s := by
  cases e <;> cases a <;> first | (cases ha; done) | skip
  case ident.ident t t' sym ty cst =>
    obtain ⟨rfl, y, hy, hr⟩ := ha
    unfold notRedundant
    simp only
    rw [chkIf_ok]
    constructor
    · rintro ⟨h, rfl⟩
      refine ⟨fun u z hu hz => ?_, rfl⟩
      cases hu
      unfold Text at hy hz
      rw [hy] at hz
      cases hz
      rw [hr, hx]
      intro e; cases e; exact h rfl
    · rintro ⟨h, rfl⟩
      refine ⟨fun e => h _ _ rfl hy ?_, rfl⟩
      rw [hr, hx, e]
  all_goals simp [notRedundant, pure_def, eq_comm]

theorem varAssign_sound {cfg W ext inF s s' B E c before e tok tokEnd child next a}
    (hW : Models cfg W) (hp : SemPre W ext inF s B E c) (hcnt : Expr.Counted e)
    (h : validateVarAssign cfg e tok s = .ok a s') :
    StmtOk W c E before (.varAssign e) tok tokEnd child next E ∧ Quiet s s' ∧ AnnFits s'.syms a := by
  unfold validateVarAssign at h
  replace h := bind_ok.1 h
  obtain ⟨t, s₁, h1, h⟩ := h
  replace h1 := headTok_ok.1 h1
  obtain ⟨⟨ts, rfl⟩, rfl⟩ := h1
  replace h := bind_ok.1 h
  obtain ⟨⟨id, v⟩, s₂, h2, h⟩ := h
  obtain ⟨rfl, x, sym, h3, h4, h5, h6, h7⟩ := scopeFindVar_sound hp.inv h2
  simp only at h
  split at h
  · cases h
  · rename_i hconst
    have hconst : v.isConst = false := by simpa using hconst
    rw [hconst] at h5
    obtain ⟨s₃, h8, h9⟩ := updVar_flag (f := fun v => { v with wasReassigned := true }) h6 (fun v => rfl)
    rw [bind_of _ h8] at h
    replace h := bind_ok.1 h
    obtain ⟨ae, s₄, h10, h⟩ := h
    replace h10 := expr_sound hW.strtod e _ _ _ h10 (hp.inv.quiet h9) hcnt
    obtain ⟨h10, hanno, hq⟩ := h10
    replace h := bind_ok_unit.1 h
    obtain ⟨s₅, h11, h⟩ := h
    rw [compatible_ok] at h11
    obtain ⟨h11, rfl⟩ := h11
    replace h := bind_ok_unit.1 h
    obtain ⟨s₆, h12, h⟩ := h
    rw [notRedundant_ok hanno h4] at h12
    obtain ⟨h12, rfl⟩ := h12
    cases h
    exact ⟨.varAssign h3 h5 (h11 ▸ h10) h12, h9.trans hq, trivial⟩

/- ### Functions -/

theorem retType_sound {s s' B E pend o ty} (hi : SInv s B E pend) (h : validateReturnType o s = .ok ty s') :
    s' = s ∧ RetType E o ty := by
  cases o with
  | none => cases h; exact ⟨rfl, rfl⟩
  | some toks =>
    unfold validateReturnType at h
    replace h := bind_ok.1 h
    obtain ⟨o, s₁, h1, h⟩ := h
    replace h1 := tokenToType_sound hi _ h1
    obtain ⟨rfl, h1⟩ := h1
    cases o with
    | none => cases h
    | some ty' => cases h; exact ⟨rfl, h1⟩

theorem paramDecls_sound {W : World} (hl : ¬ W.strict) {isExt B pend} : ∀ (ps : List Param) (s : SS) (r : List (Ty × Nat)) (s' : SS) (E : Env),
    validateParams isExt ps s = .ok r s' → SInv s B E pend → ∃ E', ParamsOk W E ps (r.map Prod.fst) E' ∧ SInv s' B E' pend ∧
      Frame s s' ∧ Same s s' ∧ (∀ i, s.scope = some i → s'.scope = some i) ∧
      (∀ id < s.syms.length, s'.syms[id]? = s.syms[id]?) ∧ (∀ id < E.decls.length, E'.decls[id]? = E.decls[id]?)
  | [], s, r, s', E, h, hi => by
    unfold validateParams at h
    cases h
    exact ⟨E, .nil, hi, .refl _, .refl _, fun _ h => h, fun _ _ => rfl, fun _ _ => rfl⟩
  | p :: ps, s, r, s', E, h, hi => by
    unfold validateParams at h
    replace h := bind_ok.1 h
    obtain ⟨o, s₁, h1, h⟩ := h
    replace h1 := tokenToType_sound hi _ h1
    obtain ⟨rfl, h1⟩ := h1
    cases o with
    | none => cases h
    | some ty =>
      simp only at h
      replace h := bind_ok.1 h
      obtain ⟨x, s₂, h2, h⟩ := h
      replace h2 := tokName_ok.1 h2
      obtain ⟨h2, rfl⟩ := h2
      replace h := bind_ok.1 h
      obtain ⟨v, s₃, h3, h⟩ := h
      rw [makeVariable_ok] at h3
      obtain ⟨h3, rfl, rfl⟩ := h3
      rw [bind_of _ (newSym_eq _ _)] at h
      replace h := bind_ok.1 h
      obtain ⟨b, s₄, h4, h⟩ := h
      cases b with
      | false => cases h
      | true =>
        simp only [if_true] at h
        replace h := bind_ok.1 h
        obtain ⟨rest, s₅, h5, h⟩ := h
        cases h
        unfold scopeAddVar at h4
        rw [bind_of _ (symAt_eq (push_get _ _))] at h4
        have hk : SymIs s₃.scopes s₃.scope pend (E.decls.length + 1) E.decls.length (some ty)
            (.var { type := ty, name := x, linkageName := x, isConst := true, isDefined := true, wasReassigned := isExt,
                    wasRead := isExt }) (.var ty false) := .var fun _ => rfl
        have hpush := push_inv (sym := { name := x, exprType := some ty, loc := some p.name, kind := _ }) hi hk (.inl rfl)
        rw [bind_of _ (lookup_eq hpush x), resolve_append hi] at h4
        cases hr : E.resolve x with
        | some id => rw [hr] at h4; cases h4
        | none =>
          rw [hr] at h4
          simp only at h4
          obtain ⟨h6, h7, h8, h9, h10, h11⟩ := declare_sound hi hk (.inl rfl) h4
          obtain ⟨E', g1, g2, g3, g4, g5, g6, g7⟩ := paramDecls_sound hl ps _ _ _ _ h5 h7
          refine ⟨E', .cons h1 h2 h3 (fresh_of_free hl h6) hr g1, g2, h8.trans g3, h9.trans g4, fun i hs => g5 i (h11 i hs), ?_, ?_⟩
          · intro id hid
            rw [g6 id (by rw [h10, List.length_append]; omega), h10, List.getElem?_append_left hid]
          · intro id hid
            rw [g7 id (by simp [Env.add]; omega)]
            exact List.getElem?_append_left hid


theorem funcAt_ok {s s' : SS} {id : Nat} {f : Func} (h : funcAt id s = .ok f s') :
    s' = s ∧ ∃ sym, s.syms[id]? = some sym ∧ sym.kind = .func f := by
  unfold funcAt at h
  replace h := bind_ok.1 h
  obtain ⟨sym, s₁, h1, h⟩ := h
  unfold symAt at h1
  cases hs : s.syms[id]? with
  | none => rw [hs] at h1; cases h1
  | some sym' =>
    rw [hs] at h1
    cases h1
    cases hk : sym.kind with
    | func g => rw [hk] at h; cases h; exact ⟨rfl, sym, rfl, hk⟩
    | _ => rw [hk] at h; cases h

/-- Going back into the block of the parameters. -/
theorem reenter {s : SS} {c i sc} (hs : s.scope = some c) (hb : BlkAt s c (some i)) (hi : s.scopes[i]? = some sc)
    (hc : sc.child = some c) : makeChildScope { s with scope := some i } = .ok () s := by
  obtain ⟨cur, cs, h1, h2, h3, h4, h5⟩ := hb
  unfold makeChildScope
  rw [bind_of _ (show parentScope { s with scope := some i } = .ok i { s with scope := some i } from rfl)]
  unfold enterChild
  simp only [hi, hc, h3]
  have : s.scopes.set c { cs with parent := some i } = s.scopes := by
    apply List.ext_getElem?
    intro j
    by_cases e : c = j
    · subst e
      rw [getElem?_set_self' h3, h3, ← h5]
    · rw [List.getElem?_set_ne e]
  rw [this, ← hs]

/-- A function is finished. -/
theorem finish_func {s B E id sym f} {τs : List Ty} (hi : SInv s B E (some id)) (hs : s.syms[id]? = some sym)
    (hk : sym.kind = .func f) (hd : E.decls[id]? = some (.func τs f.returnType)) (hl : f.numParams = τs.length) :
    ∃ s', updFunc id (fun f => { f with paramTypes := τs }) s = .ok () s' ∧ SInv s' B E none ∧ Frame s s' ∧ Same s s' ∧
      s'.scope = s.scope := by
  have hup : updFunc id (fun f => { f with paramTypes := τs }) s =
      .ok () { s with syms := s.syms.set id { sym with kind := .func { f with paramTypes := τs } } } := by
    unfold updFunc
    rw [updSym_eq _ hs]
    simp only [hk]
  refine ⟨_, hup, ?_, set_frame hs ?_, ⟨rfl, rfl, rfl⟩, rfl⟩
  · have := set_inv (sym' := { sym with kind := .func { f with paramTypes := τs } }) (d := .func τs f.returnType) (pend' := none) hi hs
      (.func (f := { f with paramTypes := τs }) fun _ => ⟨rfl, hl⟩) (.inr rfl)
    rwa [set_same hd] at this
  · simp only [Symbol.core, hk, SymKind.core]

theorem paramsOk_length {W E ps τs E'} (h : ParamsOk W E ps τs E') : τs.length = ps.length := by
  induction h with
  | nil => rfl
  | cons _ _ _ _ _ _ ih => simp [ih]

/-- A function with its parameters and its body. -/
theorem body_sound {cfg W ext bare child s s₁ s₂ s₃ B E p ids r sym f} (hW : Models cfg W)
    (hn : NodesSound cfg W ext bare child) (hi : SInv s B E none) (hpos : 0 < s.syms.length) (hd : s.whileDepth = 0)
    (hcur : s.currentFunc = s.syms.length) (hk : sym.kind = .func f) (hf1 : f.numParams = p.numParams) (hf2 : f.paramTypes = [])
    (hnum : p.numParams = p.params.length)
    (h1 : mustAdd s.syms.length (s.push sym) = .ok () s₁) (h2 : validateFuncParams p s.syms.length s₁ = .ok ids s₂)
    (h3 : block (validateNodes cfg [] child) s₂ = .ok r s₃) (hcnt : Counted child) (hpl : W.returns → Plain ext true child)
    (hb : bare → CallsBare child) :
    ∃ τs E₁ E₂, E.Free sym.name ∧ ParamsOk W (E.add sym.name (.func τs f.returnType)) p.params τs E₁ ∧
      Stmts W ⟨some f.returnType, 0, false⟩ E₁ [] child E₂ ∧ SInv s₃ B ⟨(sym.name, E.decls.length) :: E.vis, E₂.decls⟩ none ∧
      Frame s s₃ ∧ AnnOk bare s₃.syms r ∧ (∃ sym', s₃.syms[s.syms.length]? = some sym' ∧ sym'.core = sym.core) ∧
      (W.returns → s₃.currentFunc = s.currentFunc ∧ s₃.lastFunc = s.lastFunc) := by
  rw [mustAdd_ok] at h1
  have hret : ∀ s', (∃ sym', s'.syms[s.syms.length]? = some sym' ∧ sym'.core = sym.core) → s'.currentFunc = s.currentFunc →
      RetRel ext s' true (some f.returnType) := by
    rintro s' ⟨sym', g1, g2⟩ hcf
    refine ⟨by rw [hcf, hcur]; omega, sym', f.returnType, f.isExternal, by rw [hcf, hcur]; exact g1, ?_, rfl⟩
    rw [g2]
    simp only [Symbol.core, hk, SymKind.core]
  unfold validateFuncParams at h2
  split at h2
  · rename_i hz
    cases h2
    have hps : p.params = [] := List.eq_nil_of_length_eq_zero (by omega)
    obtain ⟨g1, g2, g3, g4, g5, g6⟩ := declare_sound hi (d := .func [] f.returnType) (pend' := none)
      (by rw [hk]; exact .func fun _ => ⟨hf2, by simp; omega⟩) (.inl rfl) h1
    have hgs : s₁.syms[s.syms.length]? = some sym := by rw [g5]; exact getElem?_append_new _ _
    have hpre : SemPre W ext true s₁ B (E.add sym.name (.func [] f.returnType)) ⟨some f.returnType, 0, B.isNone⟩ :=
      ⟨g2, rfl, g4.2.2.trans hd, Nat.lt_of_lt_of_le hpos g3.symsLen, fun _ => hret _ ⟨_, hgs, rfl⟩ g4.1⟩
    obtain ⟨E₂, k1, k2, k3, _⟩ := block_sound hn h3 hcnt hpl hb hpre
    refine ⟨[], _, E₂, g1, by rw [hps]; exact .nil, k1, k2.pre.inv, g3.trans k2.frame, k3, k2.frame.syms _ _ hgs, ?_⟩
    intro hw
    have := k2.same hw rfl
    exact ⟨this.1.trans g4.1, this.2.trans g4.2.1⟩
  · rename_i hz
    replace h2 := bind_ok_unit.1 h2
    obtain ⟨t₁, k1, h2⟩ := h2
    replace h2 := bind_ok.1 h2
    obtain ⟨ps, t₂, k2, h2⟩ := h2
    replace h2 := bind_ok_unit.1 h2
    obtain ⟨t, k3, h2⟩ := h2
    replace h2 := bind_ok_unit.1 h2
    obtain ⟨t₄, k4, h2⟩ := h2
    cases h2
    rw [hnum, List.take_length] at k2
    obtain ⟨g1, g2, g3, g4, g5, g6⟩ := declare_sound hi (d := .func (ps.map Prod.fst) f.returnType) (pend' := some s.syms.length)
      (by rw [hk]; exact .func fun hne => absurd (by rw [hi.len]) hne) (.inr rfl) h1
    obtain ⟨w1, w2, w3, w4, i, sc, hs, hsc⟩ := withScope_inv g2
    rw [makeChild_eq g2 hs hsc] at k1
    cases k1
    have o1 := opened_inv w1 hs hsc
    obtain ⟨E₁, q1, q2, q3, q4, q5, q6, q7⟩ := paramDecls_sound hW.loose _ _ _ _ _ k2 o1
    have hgs : s₁.syms[s.syms.length]? = some sym := by rw [g5]; exact getElem?_append_new _ _
    have hgo : (opened s₁.withScope i sc).syms[s.syms.length]? = some sym := by
      show s₁.withScope.syms[s.syms.length]? = some sym
      rw [w4]; exact hgs
    have hgt : t₂.syms[s.syms.length]? = some sym := by rw [q6 _ (get_lt hgo), hgo]
    have hgd : E₁.decls[s.syms.length]? = some (.func (ps.map Prod.fst) f.returnType) := by
      rw [q7 _ (by simp [Env.add, hi.len]), hi.len]
      exact getElem?_append_new _ _
    obtain ⟨t₃, hup, r1, r2, r3, r4⟩ := finish_func q2 hgt hk hgd (by rw [paramsOk_length q1]; omega)
    rw [hup] at k3
    cases k3
    have hfr : Frame (opened s₁.withScope i sc) t := q3.trans r2
    have hu := under_of_frame hs hsc hfr
    have hblk : BlkAt t s₁.withScope.scopes.length (some i) := r1.blk.1
    have hsc' : t.scope = some s₁.withScope.scopes.length := by rw [r4]; exact q5 _ rfl
    rw [restoreParent_eq hblk] at k4
    cases k4
    have hre := reenter hsc' hblk hu.cur rfl
    obtain ⟨t', m1⟩ : ∃ t', validateNodes cfg [] child t = .ok r t' := by
      have h3' := h3
      unfold block at h3'
      rw [bind_of _ hre] at h3'
      replace h3' := bind_ok.1 h3'
      obtain ⟨r', t', m1, h3'⟩ := h3'
      replace h3' := bind_ok_unit.1 h3'
      obtain ⟨_, _, h3'⟩ := h3'
      replace h3' := bind_ok_unit.1 h3'
      obtain ⟨_, _, h3'⟩ := h3'
      replace h3' := bind_ok_unit.1 h3'
      obtain ⟨_, _, h3'⟩ := h3'
      cases h3'
      exact ⟨t', m1⟩
    have hsame : Same s t :=
      (((g4.trans w3).trans (show Same s₁.withScope (opened s₁.withScope i sc) from ⟨rfl, rfl, rfl⟩)).trans q4).trans r3
    have hpre : SemPre W ext true t (some (s₁.withScope.scopes.length, i)) E₁ ⟨some f.returnType, 0, false⟩ := by
      refine ⟨r1, rfl, hsame.2.2.trans hd, ?_, fun _ => hret t (hfr.syms _ _ hgo) hsame.1⟩
      have := get_lt (hfr.syms _ _ hgo).choose_spec.1
      omega
    obtain ⟨E₂, n1, n2, n3⟩ := hn _ _ _ _ _ _ _ _ m1 hcnt hpl hb hpre
    have hfr' := hfr.trans n2.frame
    have hu' := under_of_frame hs hsc hfr'
    have heq := block_eq hre m1 n2.pre.inv.blk.1 hu'.cur
    rw [h3] at heq
    cases heq
    obtain ⟨c1, c2⟩ := closed_inv w1 hu' n2.pre.inv
    refine ⟨_, E₁, E₂, g1, q1, n1, c1, (g3.trans w2).trans c2, n3, hfr'.syms _ _ hgo, fun hw => ?_⟩
    have := n2.same hw rfl
    exact ⟨this.1.trans hsame.1, this.2.trans hsame.2.1⟩

theorem post_ok {child : Tree} {s s' : SS} (h : postValidateFunc child s = .ok () s') :
    ∃ sym f, s.syms[s.currentFunc]? = some sym ∧ sym.kind = .func f ∧
      ((f.isExternal = true ∧ s' = s) ∨
        (f.isExternal = false ∧ (ReturnsValue child ↔ f.returnType ≠ Void') ∧ ∃ l, s.lastFunc = some l ∧ s' = { s with currentFunc := l })) := by
  unfold postValidateFunc at h
  rw [bind_of _ (show Chk.get s = .ok s s from rfl)] at h
  replace h := bind_ok.1 h
  obtain ⟨f, s₁, h1, h⟩ := h
  obtain ⟨rfl, sym, h2, h3⟩ := funcAt_ok h1
  refine ⟨sym, f, h2, h3, ?_⟩
  cases he : f.isExternal with
  | true =>
    rw [he] at h
    cases h
    exact .inl ⟨rfl, rfl⟩
  | false =>
    rw [he] at h
    simp only [Bool.false_eq_true, if_false] at h
    replace h := bind_ok_unit.1 h
    obtain ⟨s₂, h4, h⟩ := h
    unfold checkReturns at h4
    have h5 : (ReturnsValue child ↔ f.returnType ≠ Void') ∧ s₂ = s₁ := by
      rw [← returnsValue_iff]
      split at h4
      · cases h4
      · rename_i h5
        split at h4
        · cases h4
        · rename_i h6
          cases h4
          refine ⟨?_, rfl⟩
          show returnsValue child = true ↔ f.returnType ≠ tVoid
          cases hr : returnsValue child <;> by_cases hv : f.returnType = tVoid <;> simp [hr, hv] at h5 h6 ⊢
    obtain ⟨h5, rfl⟩ := h5
    refine .inr ⟨rfl, h5, ?_⟩
    unfold leaveFunc at h
    cases hl : s₂.lastFunc with
    | none => rw [hl] at h; cases h
    | some l => rw [hl] at h; cases h; exact ⟨l, rfl, rfl⟩

theorem notNested_ok {s s' : SS} {B p} (hb : Blk s B) :
    notNested p s = .ok () s' ↔ ((p.isExport || p.isExternal) = true → B.isNone = true) ∧ s' = s := by
  unfold notNested
  rw [bind_of _ (isTopLvl_eq hb), chkIf_ok]
  cases p.isExport || p.isExternal <;> cases B.isNone <;> simp

theorem func_sound {cfg W ext bare inF s s' B E c before p tok tokEnd child next r}
    (hW : Models cfg W) (hn : NodesSound cfg W ext bare child) (hp : SemPre W ext inF s B E c) (hnum : p.numParams = p.params.length)
    (hcnt : Counted child) (hpl : W.returns → inF = false ∧ (p.isExternal = true → ext = true) ∧ Plain ext true child)
    (hb : bare → CallsBare child)
    (h : validateStmt cfg before (.funcProto p) tok tokEnd child next (validateNodes cfg [] child) s = .ok r s') :
    ∃ E', StmtOk W c E before (.funcProto p) tok tokEnd child next E' ∧ SemPost W ext inF s s' B E' c ∧
      AnnFits s'.syms r.1 ∧ AnnOk bare s'.syms r.2 := by
  unfold validateStmt at h
  simp only at h
  rw [bind_of _ (show Chk.get s = .ok s s from rfl),
    bind_of _ (show setDepth 0 s = .ok () { s with whileDepth := 0 } from rfl)] at h
  replace h := bind_ok.1 h
  obtain ⟨⟨id, ids⟩, s₁, h1, h⟩ := h
  unfold validateFuncDecl at h1
  have hi₀ : SInv { s with whileDepth := 0 } B E none := hp.inv.of_eq rfl rfl rfl
  replace h1 := bind_ok_unit.1 h1
  obtain ⟨s₂, h2, h1⟩ := h1
  rw [notNested_ok hi₀.blk] at h2
  obtain ⟨h2, rfl⟩ := h2
  replace h1 := bind_ok.1 h1
  obtain ⟨ret, s₃, h3, h1⟩ := h1
  replace h3 := retType_sound hi₀ h3
  obtain ⟨rfl, h3⟩ := h3
  replace h1 := bind_ok.1 h1
  obtain ⟨x, s₄, h4, h1⟩ := h1
  replace h4 := tokName_ok.1 h4
  obtain ⟨h4, rfl⟩ := h4
  replace h1 := bind_ok.1 h1
  obtain ⟨link, s₅, h5, h1⟩ := h1
  have := linkageName_ok h5
  subst this
  rw [bind_of _ (newSym_eq _ _)] at h1
  replace h1 := bind_ok_unit.1 h1
  obtain ⟨s₆, h6, h1⟩ := h1
  cases h6
  replace h1 := bind_ok_unit.1 h1
  obtain ⟨s₇, h7, h1⟩ := h1
  replace h1 := bind_ok.1 h1
  obtain ⟨ids', s₈, h8, h1⟩ := h1
  cases h1
  replace h := bind_ok.1 h
  obtain ⟨body, s₉, h9, h⟩ := h
  replace h := bind_ok_unit.1 h
  obtain ⟨s₁₀, h10, h⟩ := h
  replace h := bind_ok_unit.1 h
  obtain ⟨s₁₁, h11, h⟩ := h
  cases h
  cases h11
  have hi₁ : SInv { s with whileDepth := 0, lastFunc := some s.currentFunc, currentFunc := s.syms.length } B E none :=
    hp.inv.of_eq rfl rfl rfl
  obtain ⟨τs, E₁, E₂, g1, g2, g3, g4, g5, g6, g7, g8⟩ := body_sound hW hn hi₁ hp.pos rfl rfl rfl rfl rfl hnum h7 h8 h9 hcnt
    (fun hw => (hpl hw).2.2) hb
  obtain ⟨sym, f, p1, p2, p3⟩ := post_ok h10
  obtain ⟨sym', g7, g9⟩ := g7
  have hfs : Frame s s₉ := by
    refine Frame.trans ?_ g5
    exact .of_eq rfl rfl rfl
  have hsc : s₁₀.scopes = s₉.scopes ∧ s₁₀.scope = s₉.scope ∧ s₁₀.syms = s₉.syms := by
    rcases p3 with ⟨_, rfl⟩ | ⟨_, _, l, _, rfl⟩ <;> exact ⟨rfl, rfl, rfl⟩
  have hkey : W.returns → f.returnType = ret ∧ f.isExternal = p.isExternal ∧ s₉.lastFunc = some s.currentFunc := by
    intro hw
    have := g8 hw
    simp only at this g7
    rw [this.1, g7] at p1
    cases p1
    rw [Symbol.core, p2] at g9
    simp only [SymKind.core, Symbol.core, Prod.mk.injEq, Option.some.injEq] at g9
    exact ⟨g9.2.1, g9.2.2, this.2⟩
  refine ⟨_, .func (τ := ret) (τs := τs) (fun he => ?_) h3 h4 (fresh_of_free hW.loose g1) g2 g3 ?_, ⟨⟨?_, hp.top, ?_, ?_, ?_⟩, ?_, ?_⟩, ?_, ?_⟩
  · rw [hp.top]; exact h2 he
  · intro hw he
    obtain ⟨k1, k2, _⟩ := hkey hw
    rcases p3 with ⟨k3, _⟩ | ⟨_, k4, _⟩
    · rw [k2, he] at k3; cases k3
    · rw [← k1]; exact k4
  · exact g4.of_eq hsc.1 hsc.2.1 hsc.2.2
  · show s.whileDepth % 2 ^ 32 = c.loops % 2 ^ 32
    rw [hp.loops, Nat.mod_mod]
  · show 0 < s₁₀.syms.length
    rw [hsc.2.2]
    exact Nat.lt_of_lt_of_le hp.pos hfs.symsLen
  · intro hw
    obtain ⟨k1, k2, k3⟩ := hkey hw
    obtain ⟨hin, hex, _⟩ := hpl hw
    have hr := hp.ret hw
    rw [hin] at hr ⊢
    refine ⟨hr.1, fun he => ?_⟩
    obtain ⟨r1, sym₀, r2, r3⟩ := hr.2 he
    obtain ⟨sym₁, r4, r5⟩ := hfs.syms _ _ r2
    refine ⟨?_, sym₁, by show s₁₀.syms[0]? = some sym₁; rw [hsc.2.2]; exact r4, r5.trans r3⟩
    rcases p3 with ⟨k4, _⟩ | ⟨_, _, l, k5, rfl⟩
    · rw [k2] at k4
      have := hex k4
      rw [he] at this; cases this
    · rw [k3] at k5
      cases k5
      exact r1
  · exact hfs.trans (Frame.of_eq hsc.1 hsc.2.1 hsc.2.2)
  · intro hw hin
    rw [(hpl hw).1] at hin
    cases hin
  · show AnnFits s₁₀.syms (.func s.syms.length ids)
    rw [hsc.2.2]
    exact ⟨sym', g7, by rw [g9]; rfl⟩
  · show AnnOk bare s₁₀.syms body
    rw [hsc.2.2]
    exact g6

/- ### Returns -/

theorem optExpr_sound {cfg : Cfg} {W : World} (hW : W.strtod = cfg.strtod) {B E e s o s'} (h : validateOptExpr cfg e s = .ok o s')
    (hi : SInv s B E none) (hc : Expr.Counted e) :
    Quiet s s' ∧ ((e = .missing ∧ o = none) ∨ (e ≠ .missing ∧ ∃ a, o = some a ∧ HasType W E e a.type)) := by
  by_cases he : e = .missing
  · subst he
    cases h
    exact ⟨.refl _, .inl ⟨rfl, rfl⟩⟩
  · have h' : (do pure (some (← validateExpr cfg e)) : Chk (Option AExpr)) s = .ok o s' := by
      cases e <;> first | exact absurd rfl he | exact h
    replace h' := bind_ok.1 h'
    obtain ⟨a, s₁, h1, h'⟩ := h'
    cases h'
    have h1 := expr_sound hW e _ _ _ h1 hi hc
    exact ⟨h1.2.2, .inr ⟨he, a, rfl, h1.1⟩⟩

theorem checkReturn_ok {isMain : Bool} {f : Func} {o : Option AExpr} {tok} {s s' : SS} :
    checkReturn isMain f o tok s = .ok () s' ↔ (match o with
      | none => f.returnType = Void'
      | some e => (isMain = true → e.type = Int') ∧ (f.returnType = Void' ∨ e.type = f.returnType)) ∧ s' = s := by
  unfold checkReturn
  cases o with
  | none =>
    simp only
    split
    · rename_i h
      simp only [h, false_and, iff_false]
      exact failTok_ok
    · rename_i h
      simp only [ne_eq, Decidable.not_not] at h
      simp [h, pure_def, eq_comm]
  | some e =>
    simp only
    split
    · rename_i h
      simp [Chk.error, h]
    · rename_i h
      split
      · rename_i h'
        simp [Chk.error, h']
      · rename_i h'
        simp only [pure_def, SRes.ok.injEq, true_and]
        constructor
        · rintro rfl
          refine ⟨⟨fun hm => ?_, ?_⟩, rfl⟩
          · by_cases ht : e.type = tInt
            · exact ht
            · exact absurd ⟨hm, ht⟩ h
          · by_cases ht : f.returnType = tVoid
            · exact .inl ht
            · by_cases ht' : e.type = f.returnType
              · exact .inr ht'
              · exact absurd ⟨ht, ht'⟩ h'
        · rintro ⟨_, rfl⟩; rfl

theorem sane_state {t : Tree} {s s' : SS} (h : assertSaneChild t s = .ok () s') : s' = s := by
  cases t with
  | nil => cases h; rfl
  | node => exact (saneChild_ok h).2

theorem core_func {sym : Symbol} {f : Func} {r x} (hk : sym.kind = .func f) (hc : sym.core = (.func, some (r, x))) :
    f.returnType = r ∧ f.isExternal = x := by
  rw [Symbol.core, hk] at hc
  simp only [SymKind.core, Prod.mk.injEq, Option.some.injEq, true_and] at hc
  exact hc

/-- The current function is the one a return belongs to. -/
theorem returnFits {W ext inF s B E c sym f} (hp : SemPre W ext inF s B E c) (hw : W.returns) (hpl : inF = true ∨ ext = false)
    (hs : s.syms[s.currentFunc]? = some sym) (hk : sym.kind = .func f) (o : Option Ty) :
    ReturnFits c o ↔ match o with
      | none => f.returnType = Void'
      | some τ => ((s.currentFunc == 0) = true → τ = Int') ∧ (f.returnType = Void' ∨ τ = f.returnType) := by
  have hr := hp.ret hw
  cases inF with
  | true =>
    obtain ⟨h0, sym', r, x, h1, h2, h3⟩ := hr
    rw [hs] at h1
    cases h1
    obtain ⟨h4, _⟩ := core_func hk h2
    unfold ReturnFits
    rw [h3, h4]
    cases o with
    | none => rfl
    | some τ => simp [h0]
  | false =>
    have he : ext = false := by
      rcases hpl with h | h
      · cases h
      · exact h
    obtain ⟨h0, h1⟩ := hr
    obtain ⟨h2, sym', h3, h4⟩ := h1 he
    rw [h2, h3] at hs
    cases hs
    obtain ⟨h5, _⟩ := core_func hk h4
    unfold ReturnFits
    rw [h0, h5, h2]
    cases o with
    | none => simp
    | some τ => simp

theorem ret_sound {cfg W ext inF s s' B E c before e tok tokEnd child next a}
    (hW : Models cfg W) (hp : SemPre W ext inF s B E c) (hcnt : Expr.Counted e) (hpl : W.returns → inF = true ∨ ext = false)
    (h : validateReturn cfg e tok next s = .ok a s') :
    StmtOk W c E before (.ret e) tok tokEnd child next E ∧ Quiet s s' ∧ AnnFits s'.syms a := by
  unfold validateReturn at h
  replace h := bind_ok_unit.1 h
  obtain ⟨s₁, h1, h⟩ := h
  have := sane_state h1
  subst this
  replace h := bind_ok.1 h
  obtain ⟨o, s₂, h2, h⟩ := h
  replace h2 := optExpr_sound hW.strtod h2 hp.inv hcnt
  obtain ⟨hq, h2⟩ := h2
  rw [bind_of _ (show Chk.get s₂ = .ok s₂ s₂ from rfl)] at h
  replace h := bind_ok.1 h
  obtain ⟨f, s₃, h3, h⟩ := h
  replace h3 := funcAt_ok h3
  obtain ⟨rfl, sym, h3, h4⟩ := h3
  replace h := bind_ok_unit.1 h
  obtain ⟨s₄, h5, h⟩ := h
  rw [checkReturn_ok] at h5
  obtain ⟨h5, rfl⟩ := h5
  replace h := bind_ok_unit.1 h
  obtain ⟨s₅, h6, h⟩ := h
  rw [noDead_ok] at h6
  obtain ⟨h6, rfl⟩ := h6
  cases h
  have hfit := fun hw => returnFits (hp.quiet hq).pre hw (hpl hw) h3 h4
  refine ⟨?_, hq, ?_⟩
  · rcases h2 with ⟨rfl, rfl⟩ | ⟨he, ae, rfl, ht⟩
    · exact .retNone (fun hw => (hfit hw none).2 h5) h6
    · exact .ret he ht (fun hw => (hfit hw (some ae.type)).2 h5) h6
  · cases o <;> trivial

/- ### Namespaces -/

theorem ns_sound {cfg W ext bare inF s s' B E c before tok tokEnd child next r}
    (hW : Models cfg W) (hn : NodesSound cfg W ext bare child) (hp : SemPre W ext inF s B E c)
    (hcnt : Counted child) (hpl : W.returns → Plain ext inF child) (hb : bare → CallsBare child)
    (h : validateStmt cfg before .namespaces tok tokEnd child next (validateNodes cfg [] child) s = .ok r s') :
    ∃ E', StmtOk W c E before .namespaces tok tokEnd child next E' ∧ SemPost W ext inF s s' B E' c ∧
      AnnFits s'.syms r.1 ∧ AnnOk bare s'.syms r.2 := by
  unfold validateStmt at h
  simp only at h
  replace h := bind_ok.1 h
  obtain ⟨id, s₁, h1, h⟩ := h
  unfold declareNamespace at h1
  replace h1 := bind_ok.1 h1
  obtain ⟨t, s₂, h2, h1⟩ := h1
  replace h2 := headTok_ok.1 h2
  obtain ⟨⟨ts, htok⟩, rfl⟩ := h2
  replace h1 := bind_ok.1 h1
  obtain ⟨x, s₃, h3, h1⟩ := h1
  replace h3 := tokName_ok.1 h3
  obtain ⟨h3, rfl⟩ := h3
  rw [bind_of _ (newSym_eq _ _)] at h1
  replace h1 := bind_ok_unit.1 h1
  obtain ⟨s₄, h4, h1⟩ := h1
  cases h1
  rw [mustAdd_ok] at h4
  obtain ⟨g1, g2, g3, g4, g5, g6⟩ := declare_sound hp.inv (d := .ns []) (pend' := none) .nsNone (.inl rfl) h4
  replace h := bind_ok.1 h
  obtain ⟨body, s₅, h5, h⟩ := h
  have hpre := (hp.post g2 g3 g4).pre
  obtain ⟨E₁, k1, k2, k3, cur, chain, k4, k5, k6, k7⟩ := block_sound hn h5 hcnt hpl hb hpre
  replace h := bind_ok_unit.1 h
  obtain ⟨s₆, h6, h⟩ := h
  cases h
  unfold closeNamespace at h6
  rw [k4] at h6
  simp only at h6
  have hg : s₁.syms[s₃.syms.length]? = some { name := x, loc := some t, kind := .ns none } := by
    rw [g5]; exact getElem?_append_new _ _
  obtain ⟨sym, m1, m2⟩ := k2.frame.syms _ _ hg
  rw [updSym_eq _ m1] at h6
  cases h6
  obtain ⟨n, htok'⟩ : ∃ n, tok = n :: t :: ts := by
    cases tok with
    | nil => cases htok
    | cons n l => exact ⟨n, by rw [show l = t :: ts from htok]⟩
  subst htok'
  have hcore : ({ sym with kind := .ns (some cur) } : Symbol).core = sym.core := by
    rw [m2]; rfl
  have hset := set_inv (sym' := { sym with kind := .ns (some cur) }) (d := .ns E₁.vis) (pend' := none) k2.pre.inv m1
    (.ns k5 k6 k7) (.inl rfl)
  rw [hp.inv.len] at hset
  have hfr := set_frame (sym' := { sym with kind := .ns (some cur) }) m1 hcore
  refine ⟨_, .namespaces h3 (fresh_of_free hW.loose g1) k1, ?_, trivial, ?_⟩
  · have hpost := (hp.post g2 g3 g4).trans k2
    refine hpost.trans (hpost.pre.post ?_ hfr ⟨rfl, rfl, rfl⟩)
    rw [hp.inv.len]
    exact hset
  · exact AnnOk.keep hfr k3

/- ### Statements -/

theorem jump_ok {code tok next} {s s' : SS} : validateJump code tok next s = .ok () s' ↔ (0 < s.whileDepth ∧ NoCode next) ∧ s' = s := by
  unfold validateJump
  rw [bind_of _ (show Chk.get s = .ok s s from rfl)]
  split
  · rename_i h
    rw [noDead_ok]
    simp [show 0 < s.whileDepth from h]
  · rename_i h
    constructor
    · intro h'; exact absurd h' failTok_ok
    · rintro ⟨⟨h', _⟩, _⟩; exact absurd h' h

theorem importCheck_ok {cfg W tok} (hW : Models cfg W) {s s' : SS} : validateImport cfg tok s = .ok () s' ↔
    (∃ k t ts m, tok = k :: t :: ts ∧ Text t m ∧ W.canImport m) ∧ s' = s := by
  unfold validateImport
  constructor
  · intro h
    replace h := bind_ok.1 h
    obtain ⟨t, s₁, h1, h⟩ := h
    replace h1 := headTok_ok.1 h1
    obtain ⟨⟨ts, htok⟩, rfl⟩ := h1
    replace h := bind_ok.1 h
    obtain ⟨m, s₂, h2, h⟩ := h
    replace h2 := tokName_ok.1 h2
    obtain ⟨h2, rfl⟩ := h2
    obtain ⟨n, htok'⟩ : ∃ n, tok = n :: t :: ts := by
      cases tok with
      | nil => cases htok
      | cons n l => exact ⟨n, by rw [show l = t :: ts from htok]⟩
    split at h
    · cases h
    · rename_i hd
      split at h
      · cases h
      · rename_i hf
        cases h
        refine ⟨⟨n, t, ts, m, htok', h2, (hW.imports m).2 ⟨?_, ?_⟩⟩, rfl⟩
        · simpa using hd
        · simpa using hf
  · rintro ⟨⟨k, t, ts, m, rfl, h1, h2⟩, rfl⟩
    rw [bind_of _ (show headTok (k :: t :: ts).tail s' = .ok t s' from rfl), bind_of _ (tokName_eq _ h1)]
    obtain ⟨h3, h4⟩ := (hW.imports m).1 h2
    rw [if_neg (by simp [h3]), if_neg (by simp only [h4]; simp)]
    rfl

theorem inner_plain {ext inF stmt tok tokEnd child next} (h : Plain ext inF (.node stmt tok tokEnd child next))
    (hs : (∃ e, stmt = .ifs e) ∨ (∃ e, stmt = .elifs e) ∨ stmt = .elses ∨ (∃ e, stmt = .whiles e) ∨ stmt = .namespaces) :
    Plain ext inF child := by
  rcases hs with ⟨e, rfl⟩ | ⟨e, rfl⟩ | rfl | ⟨e, rfl⟩ | rfl <;> exact h.1

theorem while_depth (d : Nat) : ((d + 1) % 2 ^ 32 + (2 ^ 32 - 1)) % 2 ^ 32 = d % 2 ^ 32 := by omega

theorem stmt_sound {cfg W ext bare inF s s' B E c before stmt tok tokEnd child next r}
    (hW : Models cfg W) (hn : NodesSound cfg W ext bare child) (hp : SemPre W ext inF s B E c)
    (hcs : StmtCounted stmt) (hcnt : Counted child) (hpl : W.returns → Plain ext inF (.node stmt tok tokEnd child next))
    (hb : bare → CallsBare (.node stmt tok tokEnd child next))
    (h : validateStmt cfg before stmt tok tokEnd child next (validateNodes cfg [] child) s = .ok r s') :
    ∃ E', StmtOk W c E before stmt tok tokEnd child next E' ∧ SemPost W ext inF s s' B E' c ∧
      AnnFits s'.syms r.1 ∧ AnnOk bare s'.syms r.2 := by
  cases stmt with
  | funcProto p => exact func_sound hW hn hp hcs hcnt (fun hw => (hpl hw).1) (fun h => (hb h).2.1) h
  | namespaces => exact ns_sound hW hn hp hcnt (fun hw => (hpl hw).1) (fun h => (hb h).2.1) h
  | ret e =>
    unfold validateStmt at h
    simp only at h
    replace h := bind_ok.1 h
    obtain ⟨a, s₁, h1, h⟩ := h
    cases h
    obtain ⟨g1, g2, g3⟩ := ret_sound (before := before) (tokEnd := tokEnd) (child := child) hW hp hcs (fun hw => (hpl hw).1.1) h1
    exact ⟨E, g1, hp.quiet g2, g3, trivial⟩
  | unreachable =>
    unfold validateStmt at h
    simp only at h
    replace h := bind_ok_unit.1 h
    obtain ⟨s₁, h1, h⟩ := h
    cases h
    rw [noDead_ok] at h1
    obtain ⟨h1, rfl⟩ := h1
    exact ⟨E, .unreachable h1, hp.refl, trivial, trivial⟩
  | varDef name isConst isImplicit isExported e =>
    unfold validateStmt at h
    simp only at h
    replace h := bind_ok.1 h
    obtain ⟨a, s₁, h1, h⟩ := h
    cases h
    obtain ⟨E', g1, g2, g3⟩ := varDef_sound (before := before) (child := child) (next := next) hW hp hcs h1
    exact ⟨E', g1, g2, g3, trivial⟩
  | varAssign e =>
    unfold validateStmt at h
    simp only at h
    replace h := bind_ok.1 h
    obtain ⟨a, s₁, h1, h⟩ := h
    cases h
    obtain ⟨g1, g2, g3⟩ := varAssign_sound (before := before) (tokEnd := tokEnd) (child := child) (next := next) hW hp hcs h1
    exact ⟨E, g1, hp.quiet g2, g3, trivial⟩
  | expr e =>
    cases e with
    | call n args num =>
      unfold validateStmt at h
      simp only at h
      replace h := bind_ok.1 h
      obtain ⟨a, s₁, h1, h⟩ := h
      cases h
      have h2 := expr_sound hW.strtod _ _ _ _ h1 hp.inv hcs
      refine ⟨E, .call h2.1, hp.quiet h2.2.2, trivial, ?_⟩
      cases child with
      | nil => trivial
      | node =>
        intro hbare
        have := (hb hbare).1 n args num rfl
        cases this
    | missing => unfold validateStmt at h; cases h
    | ident | const | un | bin => unfold validateStmt at h; exact absurd h failTok_ok
  | ifs e =>
    unfold validateStmt at h
    simp only at h
    replace h := bind_ok_unit.1 h
    obtain ⟨s₁, h1, h⟩ := h
    rw [needBlock_ok] at h1
    obtain ⟨h1, rfl⟩ := h1
    replace h := bind_ok.1 h
    obtain ⟨a, s₂, h2, h⟩ := h
    replace h2 := condition_sound hW.strtod h2 hp.inv hcs
    replace h := bind_ok.1 h
    obtain ⟨body, s₃, h3, h⟩ := h
    cases h
    have hq := hp.quiet h2.2
    obtain ⟨E₁, k1, k2, k3, _⟩ := block_sound hn h3 hcnt (fun hw => (hpl hw).1) (fun h => (hb h).2.1) hq.pre
    exact ⟨_, .ifs h1 h2.1 k1, hq.trans k2, trivial, k3⟩
  | elifs e =>
    unfold validateStmt at h
    simp only at h
    replace h := bind_ok_unit.1 h
    obtain ⟨s₁, h1, h⟩ := h
    rw [needBlock_ok] at h1
    obtain ⟨h1, rfl⟩ := h1
    replace h := bind_ok_unit.1 h
    obtain ⟨s₁, h0, h⟩ := h
    rw [needIf_ok] at h0
    obtain ⟨h0, rfl⟩ := h0
    replace h := bind_ok.1 h
    obtain ⟨a, s₂, h2, h⟩ := h
    replace h2 := condition_sound hW.strtod h2 hp.inv hcs
    replace h := bind_ok.1 h
    obtain ⟨body, s₃, h3, h⟩ := h
    cases h
    have hq := hp.quiet h2.2
    obtain ⟨E₁, k1, k2, k3, _⟩ := block_sound hn h3 hcnt (fun hw => (hpl hw).1) (fun h => (hb h).2.1) hq.pre
    exact ⟨_, .elifs h0 h1 h2.1 k1, hq.trans k2, trivial, k3⟩
  | elses =>
    unfold validateStmt at h
    simp only at h
    replace h := bind_ok_unit.1 h
    obtain ⟨s₁, h0, h⟩ := h
    rw [needIf_ok] at h0
    obtain ⟨h0, rfl⟩ := h0
    replace h := bind_ok_unit.1 h
    obtain ⟨s₁, h1, h⟩ := h
    rw [needBlock_ok] at h1
    obtain ⟨h1, rfl⟩ := h1
    replace h := bind_ok.1 h
    obtain ⟨body, s₃, h3, h⟩ := h
    cases h
    obtain ⟨E₁, k1, k2, k3, _⟩ := block_sound hn h3 hcnt (fun hw => (hpl hw).1) (fun h => (hb h).2.1) hp
    exact ⟨_, .elses h0 h1 k1, k2, trivial, k3⟩
  | whiles e =>
    unfold validateStmt at h
    simp only at h
    rw [bind_of _ (show Chk.get s = .ok s s from rfl),
      bind_of _ (show setDepth (s.whileDepth + 1) s = .ok () { s with whileDepth := (s.whileDepth + 1) % 2 ^ 32 } from rfl)] at h
    have hp' : SemPre W ext inF { s with whileDepth := (s.whileDepth + 1) % 2 ^ 32 } B E { c with loops := c.loops + 1 } := by
      refine ⟨hp.inv.of_eq rfl rfl rfl, hp.top, ?_, hp.pos, fun hw => (hp.ret hw).keep (.of_eq rfl rfl rfl) rfl⟩
      show (s.whileDepth + 1) % 2 ^ 32 = (c.loops + 1) % 2 ^ 32
      rw [hp.loops]
      omega
    replace h := bind_ok_unit.1 h
    obtain ⟨s₁, h1, h⟩ := h
    rw [needBlock_ok] at h1
    obtain ⟨h1, rfl⟩ := h1
    replace h := bind_ok.1 h
    obtain ⟨a, s₂, h2, h⟩ := h
    replace h2 := condition_sound hW.strtod h2 hp'.inv hcs
    replace h := bind_ok.1 h
    obtain ⟨body, s₃, h3, h⟩ := h
    rw [bind_of _ (show Chk.get s₃ = .ok s₃ s₃ from rfl)] at h
    replace h := bind_ok_unit.1 h
    obtain ⟨s₄, h4, h⟩ := h
    cases h4
    cases h
    have hq := hp'.quiet h2.2
    obtain ⟨E₁, k1, k2, k3, _⟩ := block_sound hn h3 hcnt (fun hw => (hpl hw).1) (fun h => (hb h).2.1) hq.pre
    have hpost := hq.trans k2
    refine ⟨_, .whiles h1 h2.1 k1, ⟨⟨hpost.pre.inv.of_eq rfl rfl rfl, hp.top, ?_, hpost.pre.pos,
      fun hw => (hpost.pre.ret hw).keep (.of_eq rfl rfl rfl) rfl⟩,
      ((Frame.of_eq rfl rfl rfl : Frame s { s with whileDepth := (s.whileDepth + 1) % 2 ^ 32 }).trans hpost.frame).trans
        (.of_eq rfl rfl rfl), hpost.same⟩, trivial, k3⟩
    show (s₃.whileDepth + (2 ^ 32 - 1)) % 2 ^ 32 = c.loops % 2 ^ 32
    rw [hpost.pre.loops]
    exact while_depth _
  | breaks =>
    unfold validateStmt at h
    simp only at h
    replace h := bind_ok_unit.1 h
    obtain ⟨s₁, h1, h⟩ := h
    cases h
    rw [jump_ok] at h1
    obtain ⟨⟨h1, h2⟩, rfl⟩ := h1
    refine ⟨E, .breaks ?_ h2, hp.refl, trivial, trivial⟩
    have := hp.loops
    rcases Nat.eq_zero_or_pos c.loops with h | h
    · rw [h] at this; omega
    · exact h
  | continues =>
    unfold validateStmt at h
    simp only at h
    replace h := bind_ok_unit.1 h
    obtain ⟨s₁, h1, h⟩ := h
    cases h
    rw [jump_ok] at h1
    obtain ⟨⟨h1, h2⟩, rfl⟩ := h1
    refine ⟨E, .continues ?_ h2, hp.refl, trivial, trivial⟩
    have := hp.loops
    rcases Nat.eq_zero_or_pos c.loops with h | h
    · rw [h] at this; omega
    · exact h
  | imports =>
    unfold validateStmt at h
    simp only at h
    replace h := bind_ok_unit.1 h
    obtain ⟨s₁, h1, h⟩ := h
    cases h
    rw [importCheck_ok hW] at h1
    obtain ⟨⟨k, t, ts, m, rfl, h1, h2⟩, rfl⟩ := h1
    exact ⟨E, .imports h1 h2, hp.refl, trivial, trivial⟩
  | unknown => unfold validateStmt at h; cases h; exact ⟨E, .unknown, hp.refl, trivial, trivial⟩
  | comment => unfold validateStmt at h; cases h; exact ⟨E, .comment, hp.refl, trivial, trivial⟩
  | noop => unfold validateStmt at h; cases h; exact ⟨E, .noop, hp.refl, trivial, trivial⟩

theorem nodes_sound {cfg W ext bare} (hW : Models cfg W) : ∀ t, NodesSound cfg W ext bare t
  | .nil => by
    intro before s a s' inF B E c h _ _ _ hp
    unfold validateNodes at h
    cases h
    exact ⟨E, .nil, hp.refl, trivial⟩
  | .node stmt tok tokEnd child next => by
    intro before s a s' inF B E c h hcnt hpl hb hp
    unfold validateNodes at h
    replace h := bind_ok_unit.1 h
    obtain ⟨s₁, h1, h⟩ := h
    replace h1 := saneChild_ok h1
    obtain ⟨h1, rfl⟩ := h1
    replace h := bind_ok.1 h
    obtain ⟨r, s₂, h2, h⟩ := h
    obtain ⟨E₁, g1, g2, g3, g4⟩ := stmt_sound hW (nodes_sound hW child) hp hcnt.1 hcnt.2.1 hpl hb h2
    replace h := bind_ok.1 h
    obtain ⟨rest, s₃, h3, h⟩ := h
    cases h
    obtain ⟨E₂, k1, k2, k3⟩ := nodes_sound hW next _ _ _ _ _ _ _ _ h3 hcnt.2.2 (fun hw => (hpl hw).2) (fun h => (hb h).2.2) g2.pre
    exact ⟨E₂, .node h1 g1 k1, g2.trans k2, g3.keep k2.frame, g4.keep k2.frame, k3⟩

/- ### Programs -/

theorem setup_inv {cfg : Cfg} {s : SS} (h : setupState cfg = some s) (W : World) (ext : Bool) :
    SemPre W ext false s none .start .main := by
  unfold setupState at h
  cases hn : createMainFuncName cfg.filename with
  | none => rw [hn] at h; cases h
  | some name =>
    rw [hn] at h
    cases h
    refine ⟨⟨rfl, ?_, ⟨_, .none⟩, (fun p h => by cases h), .inl rfl, (fun i sc h => by cases h)⟩, rfl, rfl, by simp, fun _ => ?_⟩
    · intro id sym h
      cases id with
      | zero => cases h; exact ⟨_, rfl, .func fun _ => ⟨rfl, rfl⟩⟩
      | succ n => cases h
    · exact ⟨rfl, fun _ => ⟨rfl, _, rfl, rfl⟩⟩

/-- What the check of a program starts with, and what it gives back if it is content. -/
theorem semantic_nodes {cfg : Cfg} {t : Tree} {a : ATree} {s' : SS} (h : semantic cfg t = .ok a s') :
    ∃ s s₁, setupState cfg = some s ∧ validateNodes cfg [] t s = .ok a s₁ := by
  unfold semantic at h
  cases hs : setupState cfg with
  | none => rw [hs] at h; cases h
  | some s =>
    rw [hs] at h
    simp only at h
    unfold validateAstTree at h
    replace h := bind_ok.1 h
    obtain ⟨a', s₁, h1, h⟩ := h
    replace h := bind_ok_unit.1 h
    obtain ⟨s₂, h2, h⟩ := h
    replace h := bind_ok_unit.1 h
    obtain ⟨s₃, h3, h⟩ := h
    refine ⟨s, s₁, rfl, ?_⟩
    split at h
    · cases h; exact h1
    · replace h := bind_ok.1 h
      obtain ⟨err, s₄, h4, h⟩ := h
      split at h
      · cases h
      · cases h; exact h1

/-- A program that is accepted is well formed. -/
theorem semantic_sound {cfg : Cfg} {W : World} (hW : Models cfg W) {t : Tree} {a : ATree} {s' : SS}
    (h : semantic cfg t = .ok a s') (hc : Counted t) {ext : Bool} (hp : W.returns → Plain ext false t) : Program W t := by
  obtain ⟨s, s₁, h1, h2⟩ := semantic_nodes h
  obtain ⟨E, h3, _⟩ := nodes_sound (bare := False) hW t _ _ _ _ _ _ _ _ h2 hc hp (fun h => h.elim) (setup_inv h1 W ext)
  exact ⟨E, h3⟩

end Skull
