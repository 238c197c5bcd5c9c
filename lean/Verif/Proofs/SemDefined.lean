import Verif.Proofs.SemDefExpr
import Verif.Proofs.SemComplete
/-
Where the check of statements is defined.
-/
namespace Skull.SemDef

open Skull.Spec

/-- Nothing in a statement is undefined, names aside. -/
def StmtSafe (cfg : Cfg) (stmt : Stmt) (tok te : List Token) : Prop :=
  tok ≠ [] ∧ match stmt with
    | .varDef name _ _ _ e => (∃ n r, name = n :: r ∧ Named cfg n) ∧ Typed name.tail ∧ Typed te.tail ∧ Typed tok.tail.tail ∧
        (∃ t r, tok = t :: r ∧ Spelled t) ∧ ExprSafe cfg e
    | .varAssign e => (∃ t r, tok = t :: r ∧ Spelled t) ∧ ExprSafe cfg e
    | .expr e | .ifs e | .elifs e | .whiles e => ExprSafe cfg e
    | .ret e => e = .missing ∨ ExprSafe cfg e
    | .funcProto p => Named cfg p.name ∧ (∀ r, p.returnType = some r → Typed r) ∧ ∀ q ∈ p.params, Typed q.type ∧ Named cfg q.name
    | .namespaces | .imports => ∃ k n r, tok = k :: n :: r ∧ Spelled n
    | _ => True

/-- The names that a list of statements uses as variables may stand for variables. -/
def NamesFit (W : World) (c : Ctx) (E : Env) (before : List Stmt) (t : Tree) : Prop :=
  ∀ c' E' before' stmt tok te child next u, Reach W c E before t c' E' before' (.node stmt tok te child next) →
    UsesVar E' stmt tok te u → VarFits E' u

theorem NamesFit.next {W c E E₁ before stmt tok te child next} (h : NamesFit W c E before (.node stmt tok te child next))
    (hs : StmtOk W c E before stmt tok te child next E₁) : NamesFit W c E₁ (stmt :: before) next :=
  fun _ _ _ _ _ _ _ _ _ hr hu => h _ _ _ _ _ _ _ _ _ (.next hs hr) hu

theorem NamesFit.body {W c E c₁ E₁ before stmt tok te child next} (h : NamesFit W c E before (.node stmt tok te child next))
    (hs : Enters W c E stmt tok c₁ E₁) : NamesFit W c₁ E₁ [] child :=
  fun _ _ _ _ _ _ _ _ _ hr hu => h _ _ _ _ _ _ _ _ _ (.body hs hr) hu

theorem NamesFit.here {W c E before stmt tok te child next} (h : NamesFit W c E before (.node stmt tok te child next)) {e}
    (he : stmtExpr stmt = some e) (hn : ¬ IsAlias E stmt te) : ∀ u, SubExpr (.ident u) e → VarFits E u :=
  fun _ hu => h _ _ _ _ _ _ _ _ _ .here (.operand he hn hu)

/-- The check of a list of statements is defined. -/
def NodesDef (cfg : Cfg) (W : World) (t : Tree) : Prop :=
  ∀ before s inF B E c, SemPre W false inF s B E c → FuncsOk s → Counted t → AllNodes (StmtSafe cfg) t → NamesFit W c E before t →
    validateNodes cfg before t s ≠ .ub

/- ### Conditions without effect -/

theorem def_sane {cfg : Cfg} {t : Tree} (h : AllNodes (StmtSafe cfg) t) (s : SS) : assertSaneChild t s ≠ .ub := by
  cases t with
  | nil => exact def_pure _ _
  | node stmt tok te child next =>
    cases child with
    | nil => exact def_pure _ _
    | node cs ctok cte cc cn =>
      have hc : ctok ≠ [] := h.2.1.1.1
      cases stmt with
      | expr e =>
        cases e with
        | missing => exact h.1.2.elim
        | call => exact def_pure _ _
        | _ => exact def_failTok hc _
      | ifs | elifs | elses | whiles | funcProto | namespaces => exact def_pure _ _
      | _ => exact def_failTok hc _

theorem def_noDead {cfg : Cfg} : ∀ {t : Tree}, AllNodes (StmtSafe cfg) t → ∀ s, noDeadCodeBelow t s ≠ .ub
  | .nil, _, s => def_pure _ _
  | .node stmt tok te child next, h, s => by
    have ih := def_noDead h.2.2 s
    unfold noDeadCodeBelow
    split
    all_goals first | exact ih | exact def_failTok h.1.1 _

theorem def_needIf {before : List Stmt} {tok : List Token} (h : tok ≠ []) (s : SS) : needIf before tok s ≠ .ub := by
  unfold needIf
  split
  · exact def_pure _ _
  · exact def_failTok h _

theorem def_needBlock {child : Tree} {tok : List Token} (h : tok ≠ []) (s : SS) : needBlock child tok s ≠ .ub := by
  unfold needBlock
  split
  · exact def_pure _ _
  · exact def_failTok h _

theorem def_jump {cfg : Cfg} {code : Code} {tok : List Token} {next : Tree} (h : tok ≠ []) (hn : AllNodes (StmtSafe cfg) next) (s : SS) :
    validateJump code tok next s ≠ .ub := by
  unfold validateJump
  refine def_bind (by simp [Chk.get]) fun _ _ _ => ?_
  split
  · exact def_noDead hn _
  · exact def_failTok h _

theorem def_condition {cfg : Cfg} {W : World} (hW : W.strtod = cfg.strtod) {B E e s} (hi : SInv s B E none) (hc : Expr.Counted e)
    (hs : ExprSafe cfg e) (hv : ∀ u, SubExpr (.ident u) e → VarFits E u) : condition cfg e s ≠ .ub := by
  unfold condition
  refine def_bind (expr_defined hW e s hi hc hs hv) fun a s₁ _ => ?_
  refine def_bind ?_ fun _ _ _ => def_pure _ _
  unfold validateCond
  split
  · exact def_error _ _ _
  · split
    · exact def_warn _ _ _ _
    · exact def_pure _ _

theorem def_compatible (e : AExpr) (ty : Ty) (s : SS) : compatible e ty s ≠ .ub := by
  unfold compatible
  split
  · exact def_error _ _ _
  · exact def_pure _ _

theorem def_funcAt {s : SS} {i : Nat} (h : FuncSym s i) : ∃ f, funcAt i s = .ok f s := by
  obtain ⟨sym, h1, h2⟩ := h
  cases hk : sym.kind with
  | func f => exact ⟨f, funcAt_eq h1 hk⟩
  | _ => rw [hk] at h2; cases h2

/- ### Blocks -/

theorem def_block {nodes : Chk ATree} {s s₁ : SS} (h1 : makeChildScope s = .ok () s₁) (h2 : nodes s₁ ≠ .ub)
    (h3 : ∀ r s₂, nodes s₁ = .ok r s₂ → block nodes s ≠ .ub) : block nodes s ≠ .ub := by
  cases e : nodes s₁ with
  | ok r s₂ => exact h3 r s₂ e
  | ub => exact absurd e h2
  | fail s₂ =>
    unfold block
    rw [bind_of _ h1]
    show Chk.bind nodes _ s₁ ≠ .ub
    unfold Chk.bind
    rw [e]
    simp

theorem block_defined {cfg W child s inF B E c} (hW : Models cfg W) (hr : ¬ W.returns) (hn : NodesDef cfg W child)
    (hp : SemPre W false inF s B E c) (hf : FuncsOk s) (hcnt : Counted child) (hs : AllNodes (StmtSafe cfg) child)
    (hv : NamesFit W c.inner E [] child) : block (validateNodes cfg [] child) s ≠ .ub := by
  obtain ⟨_, _, _, _, i, sc, hsc, hsc'⟩ := withScope_inv hp.inv
  have hw := hp.withScope
  have ho := hw.pre.opened hsc hsc'
  have hm := makeChild_eq hp.inv hsc hsc'
  refine def_block hm (hn _ _ _ _ _ _ ho ((still_makeChildScope.ok hm).funcs hf) hcnt hs hv) fun r s₂ h1 => ?_
  obtain ⟨E₁, h2, h3, h4⟩ := nodes_sound (bare := False) hW child _ _ _ _ _ _ _ _ h1 hcnt (fun h => absurd h hr) (fun h => h.elim) ho
  have hu := under_of_frame hsc hsc' h3.frame
  exact def_of (block_eq hm h1 h3.pre.inv.blk.1 hu.cur)

/- ### Definitions -/

theorem alias_defined {W inF s B E c isConst e tok} (hp : SemPre W false inF s B E c) (h1 : ∃ t r, tok = t :: r ∧ Spelled t)
    (h2 : Typed tok.tail.tail) : validateTypeAlias isConst e tok s ≠ .ub := by
  obtain ⟨t, r, rfl, ht⟩ := h1
  obtain ⟨u, ts, hr⟩ : ∃ u ts, r = u :: ts := by
    cases r with
    | nil => obtain ⟨_, t, h, _⟩ := h2; cases h
    | cons u ts => exact ⟨u, ts, rfl⟩
  subst hr
  have hne : ts ≠ [] := by
    rintro rfl
    obtain ⟨_, t, h, _⟩ := h2
    cases h
  unfold validateTypeAlias
  split
  · exact def_failTok (by simp) _
  · split
    · exact def_failTok hne _
    · refine def_bind (def_type hp.inv h2) fun o s₁ h3 => ?_
      obtain ⟨rfl, _⟩ := tokenToType_sound hp.inv _ h3
      rw [bind_of _ (show headTok (t :: u :: ts) s₁ = .ok t s₁ from rfl)]
      obtain ⟨x, hx⟩ := ht
      rw [bind_of _ (tokName_eq s₁ hx), bind_of _ (newSym_eq _ _)]
      exact def_mustAdd (push_inv hp.inv (d := .alias o) (pend' := none) .alias (.inl rfl)) (push_get _ _)

theorem typeAt_only {s B E pend l o o'} (hi : SInv s B E pend) (h : TypeAt E l o) (h' : TypeAt E l o') : o = o' := by
  have h1 := tokenToType_complete hi h
  have h2 := tokenToType_complete hi h'
  rw [h1] at h2
  cases h2
  rfl

theorem var_defined {cfg W inF s B E c name isConst isImplicit isExported e} (hW : Models cfg W) (hp : SemPre W false inF s B E c)
    (hcnt : Expr.Counted e) (hs : ExprSafe cfg e) (hv : ∀ u, SubExpr (.ident u) e → VarFits E u)
    (h1 : ∃ n r, name = n :: r ∧ Named cfg n) (h2 : Typed name.tail) : validateVar cfg name isConst isImplicit isExported e s ≠ .ub := by
  obtain ⟨n, r, rfl, x, hx, hx1, hx2⟩ := h1
  unfold validateVar
  refine def_bind (expr_defined hW.strtod e s hp.inv hcnt hs hv) fun ae s₁ g1 => ?_
  obtain ⟨_, hanno, hq⟩ := expr_sound hW.strtod e _ _ _ g1 hp.inv hcnt
  have hi₁ := hp.inv.quiet hq
  refine def_bind ?_ fun id s₂ g2 => ?_
  · unfold nodeToVar
    refine def_bind ?_ fun _ s₃ g3 => ?_
    · unfold notVoidFuncAssign
      split
      · split
        · exact def_error _ _ _
        · exact def_pure _ _
      · exact def_pure _ _
    · rw [notVoid_ok hanno] at g3
      obtain ⟨_, rfl⟩ := g3
      refine def_bind ?_ fun ty s₄ g4 => ?_
      · unfold declaredType
        split
        · exact def_pure _ _
        · refine def_bind (def_type hi₁ h2) fun o _ _ => ?_
          cases o with
          | none => exact def_error _ _ _
          | some => exact def_pure _ _
      · obtain ⟨rfl, _, _⟩ := declaredType_sound hi₁ g4
        rw [bind_of _ (show headTok (n :: r) s₄ = .ok n s₄ from rfl), bind_of _ (tokName_eq s₄ hx),
          bind_of _ (makeVariable_ok.2 ⟨hx1, rfl, rfl⟩)]
        refine def_bind (def_linkage hx2 _ _) fun link s₅ g5 => ?_
        have := linkageName_ok g5
        subst this
        rw [bind_of _ (newSym_eq _ _)]
        refine def_bind ?_ fun _ _ _ => def_pure _ _
        exact def_mustAdd (push_inv hi₁ (d := .var ty (!isConst)) (pend' := some s₅.syms.length)
          (.var fun hne => absurd (by rw [hi₁.len]) hne) (.inr rfl)) (push_get _ _)
  · unfold nodeToVar at g2
    replace g2 := bind_ok_unit.1 g2
    obtain ⟨s₃, g3, g2⟩ := g2
    rw [notVoid_ok hanno] at g3
    obtain ⟨_, rfl⟩ := g3
    replace g2 := bind_ok.1 g2
    obtain ⟨ty, s₄, g4, g2⟩ := g2
    obtain ⟨rfl, _, _⟩ := declaredType_sound hi₁ g4
    rw [bind_of _ (show headTok (n :: r) s₄ = .ok n s₄ from rfl), bind_of _ (tokName_eq s₄ hx),
      bind_of _ (makeVariable_ok.2 ⟨hx1, rfl, rfl⟩)] at g2
    replace g2 := bind_ok.1 g2
    obtain ⟨link, s₅, g5, g2⟩ := g2
    have := linkageName_ok g5
    subst this
    rw [bind_of _ (newSym_eq _ _)] at g2
    replace g2 := bind_ok_unit.1 g2
    obtain ⟨s₉, h10, h⟩ := g2
    cases h
    rw [mustAdd_ok] at h10
    have h11 := declare_sound hi₁ (d := .var ty (!isConst)) (pend' := some s₅.syms.length)
      (.var fun hne => absurd (by rw [hi₁.len]) hne) (.inr rfl) h10
    obtain ⟨hfree, hi₉, hf₉, hsame₉, hsyms₉, _⟩ := h11
    have hget := getElem?_append_new s₅.syms _ ▸ congrArg (fun l : List Symbol => l[s₅.syms.length]?) hsyms₉
    simp only at hget
    have hdget : (E.add x (.var ty (!isConst))).decls[s₅.syms.length]? = some (.var ty (!isConst)) := by
      rw [hi₁.len]; exact getElem?_append_new _ _
    obtain ⟨s₁₀, h12, h13, h14, h15, h16⟩ := define_var
      (f := fun v => { v with isDefined := true, constExpr := some ae.isConstExpr }) hi₉ hget rfl hdget rfl rfl rfl
    rw [bind_of _ h12, bind_of _ (varAt_eq h16 rfl)]
    refine def_bind (def_compatible _ _ _) fun _ _ _ => def_bind ?_ fun _ _ _ => def_pure _ _
    unfold warnTrivial
    split
    · split
      · exact def_pure _ _
      · exact def_warn _ _ _ _
    · exact def_pure _ _

theorem assign_defined {cfg W inF s B E c e tok} (hW : Models cfg W) (hp : SemPre W false inF s B E c)
    (hcnt : Expr.Counted e) (hs : ExprSafe cfg e) (hv : ∀ u, SubExpr (.ident u) e → VarFits E u)
    (h1 : ∃ t r, tok = t :: r ∧ Spelled t ∧ VarFits E t) : validateVarAssign cfg e tok s ≠ .ub := by
  obtain ⟨t, r, rfl, h1, h2⟩ := h1
  unfold validateVarAssign
  rw [bind_of _ (show headTok (t :: r) s = .ok t s from rfl)]
  refine def_bind (def_findVar hp.inv h1 h2) fun p s₁ g1 => ?_
  obtain ⟨rfl, x, sym, h3, h4, h5, h6, h7⟩ := scopeFindVar_sound hp.inv (id := p.1) (v := p.2) g1
  simp only
  split
  · exact def_error _ _ _
  · obtain ⟨s₃, h8, h9⟩ := updVar_flag (f := fun v => { v with wasReassigned := true }) h6 (fun v => rfl)
    rw [bind_of _ h8]
    refine def_bind (expr_defined hW.strtod e _ (hp.inv.quiet h9) hcnt hs hv) fun a s₄ _ => ?_
    refine def_bind (def_compatible _ _ _) fun _ _ _ => def_bind ?_ fun _ _ _ => def_pure _ _
    unfold notRedundant
    split
    · split
      · exact def_error _ _ _
      · exact def_pure _ _
    · exact def_pure _ _

/- ### Functions -/

theorem params_defined {cfg : Cfg} {isExt B pend} : ∀ (ps : List Param) (s : SS) (E : Env), SInv s B E pend →
    (∀ q ∈ ps, Typed q.type ∧ Named cfg q.name) → validateParams isExt ps s ≠ .ub
  | [], s, E, _, _ => by unfold validateParams; exact def_pure _ _
  | p :: ps, s, E, hi, h => by
    obtain ⟨h1, x, hx, hx1, _⟩ := h p (.head _)
    unfold validateParams
    refine def_bind (def_type hi h1) fun o s₁ g1 => ?_
    obtain ⟨rfl, _⟩ := tokenToType_sound hi _ g1
    cases o with
    | none => exact def_error _ _ _
    | some ty =>
      simp only
      rw [bind_of _ (tokName_eq s₁ hx), bind_of _ (makeVariable_ok.2 ⟨hx1, rfl, rfl⟩), bind_of _ (newSym_eq _ _)]
      have hk : SymIs s₁.scopes s₁.scope pend (E.decls.length + 1) E.decls.length (some ty)
          (.var { type := ty, name := x, linkageName := x, isConst := true, isDefined := true, wasReassigned := isExt,
                  wasRead := isExt }) (.var ty false) := .var fun _ => rfl
      have hpush := push_inv (sym := { name := x, exprType := some ty, loc := some p.name, kind := _ }) hi hk (.inl rfl)
      have hadd : scopeAddVar s₁.syms.length (s₁.push { name := x, exprType := some ty, loc := some p.name, kind := (.var { type := ty, name := x, linkageName := x, isConst := true, isDefined := true, wasReassigned := isExt, wasRead := isExt }) }) = (match E.resolve x with
            | some _ => (pure false : Chk Bool)
            | none => scopeAddSymbol s₁.syms.length) (s₁.push { name := x, exprType := some ty, loc := some p.name, kind := (.var { type := ty, name := x, linkageName := x, isConst := true, isDefined := true, wasReassigned := isExt, wasRead := isExt }) }) := by
        unfold scopeAddVar
        rw [bind_of _ (symAt_eq (push_get _ _)), bind_of _ (lookup_eq hpush x), resolve_append hi]
        rfl
      refine def_bind ?_ fun b s₂ g2 => ?_
      · rw [hadd]
        cases E.resolve x with
        | some => exact def_pure _ _
        | none => exact def_scopeAdd hpush (push_get _ _)
      · rw [hadd] at g2
        cases b with
        | false => exact def_error _ _ _
        | true =>
          cases hr : E.resolve x with
          | some => rw [hr] at g2; cases g2
          | none =>
            rw [hr] at g2
            simp only at g2
            obtain ⟨_, h7, _⟩ := declare_sound hi hk (.inl rfl) g2
            simp only [if_true]
            exact def_bind (params_defined ps _ _ h7 fun q hq => h q (.tail _ hq)) fun _ _ _ => def_pure _ _

/-- The parameters of a function. -/
theorem funcParams_defined {cfg W s s₁ B E p sym f} (hW : Models cfg W) (hi : SInv s B E none) (hk : sym.kind = .func f)
    (hf1 : f.numParams = p.numParams) (hnum : p.numParams = p.params.length)
    (h1 : mustAdd s.syms.length (s.push sym) = .ok () s₁) (hps : ∀ q ∈ p.params, Typed q.type ∧ Named cfg q.name) :
    validateFuncParams p s.syms.length s₁ ≠ .ub := by
  rw [mustAdd_ok] at h1
  unfold validateFuncParams
  split
  · exact def_pure _ _
  · have dec := fun d (hd : ∃ τs, d = .func τs f.returnType) => declare_sound hi (d := d) (pend' := some s.syms.length)
      (by obtain ⟨τs, rfl⟩ := hd; rw [hk]; exact .func fun hne => absurd (by rw [hi.len]) hne) (.inr rfl) h1
    obtain ⟨g1, g2, g3, g4, g5, g6⟩ := dec (.func [] f.returnType) ⟨_, rfl⟩
    obtain ⟨w1, w2, w3, w4, i, sc, hs, hsc⟩ := withScope_inv g2
    rw [bind_of _ (makeChild_eq g2 hs hsc), hnum, List.take_length]
    have o1 := opened_inv w1 hs hsc
    refine def_bind (params_defined _ _ _ o1 hps) fun ps t₂ k2 => ?_
    obtain ⟨g1, g2, g3, g4, g5, g6⟩ := dec (.func (ps.map Prod.fst) f.returnType) ⟨_, rfl⟩
    obtain ⟨w1, w2, w3, w4, _⟩ := withScope_inv g2
    have o1 := opened_inv w1 hs hsc
    obtain ⟨E₁, q1, q2, q3, q4, q5, q6, q7⟩ := paramDecls_sound hW.loose _ _ _ _ _ k2 o1
    have hgs : s₁.syms[s.syms.length]? = some sym := by rw [g5]; exact getElem?_append_new _ _
    have hgo : (opened s₁.withScope i sc).syms[s.syms.length]? = some sym := by
      show s₁.withScope.syms[s.syms.length]? = some sym
      rw [w4]; exact hgs
    have hgt : t₂.syms[s.syms.length]? = some sym := by rw [q6 _ (get_lt hgo), hgo]
    have hgd : E₁.decls[s.syms.length]? = some (.func (ps.map Prod.fst) f.returnType) := by
      rw [q7 _ (by simp [Env.add, hi.len]), hi.len]
      exact getElem?_append_new _ _
    obtain ⟨t₃, hup, r1, r2, r3, r4⟩ := finish_func q2 hgt hk hgd (by rw [paramsOk_length q1]; omega)
    rw [bind_of _ hup]
    have hblk : BlkAt t₃ s₁.withScope.scopes.length (some i) := r1.blk.1
    rw [bind_of _ (restoreParent_eq hblk)]
    exact def_pure _ _

/-- The body of a function. -/
theorem body_defined {cfg W child s s₁ s₂ B E p ids sym f before stmt tok te next c x} (hW : Models cfg W) (hr : ¬ W.returns)
    (hn : NodesDef cfg W child) (hi : SInv s B E none) (hpos : 0 < s.syms.length) (hd : s.whileDepth = 0)
    (hk : sym.kind = .func f) (hf1 : f.numParams = p.numParams) (hf2 : f.paramTypes = []) (hnum : p.numParams = p.params.length)
    (h1 : mustAdd s.syms.length (s.push sym) = .ok () s₁) (h2 : validateFuncParams p s.syms.length s₁ = .ok ids s₂)
    (hf : FuncsOk s₂) (hcnt : Counted child) (hs : AllNodes (StmtSafe cfg) child) (hst : stmt = .funcProto p)
    (hret : RetType E p.returnType f.returnType) (hx : Text p.name x) (hname : sym.name = x)
    (hv : NamesFit W c E before (.node stmt tok te child next)) : block (validateNodes cfg [] child) s₂ ≠ .ub := by
  subst hst
  subst hname
  rw [mustAdd_ok] at h1
  have hf0 := hf
  have h2' := h2
  unfold validateFuncParams at h2
  split at h2
  · rename_i hz
    cases h2
    have hps : p.params = [] := List.eq_nil_of_length_eq_zero (by omega)
    obtain ⟨g1, g2, g3, g4, g5, g6⟩ := declare_sound hi (d := .func [] f.returnType) (pend' := none)
      (by rw [hk]; exact .func fun _ => ⟨hf2, by simp; omega⟩) (.inl rfl) h1
    have hpre : SemPre W false true s₁ B (E.add sym.name (.func [] f.returnType)) ⟨some f.returnType, 0, B.isNone⟩ :=
      ⟨g2, rfl, g4.2.2.trans hd, Nat.lt_of_lt_of_le hpos g3.symsLen, fun h => absurd h hr⟩
    exact block_defined hW hr hn hpre hf hcnt hs (hv.body (.func hret hx (by rw [hps]; exact .nil)))
  · rename_i hz
    replace h2 := bind_ok_unit.1 h2
    obtain ⟨t₁, k1, h2⟩ := h2
    replace h2 := bind_ok.1 h2
    obtain ⟨ps, t₂, k2, h2⟩ := h2
    replace h2 := bind_ok_unit.1 h2
    obtain ⟨t, k3, h2⟩ := h2
    replace h2 := bind_ok_unit.1 h2
    obtain ⟨t₄, k4, h2⟩ := h2
    cases h2
    rw [hnum, List.take_length] at k2
    obtain ⟨g1, g2, g3, g4, g5, g6⟩ := declare_sound hi (d := .func (ps.map Prod.fst) f.returnType) (pend' := some s.syms.length)
      (by rw [hk]; exact .func fun hne => absurd (by rw [hi.len]) hne) (.inr rfl) h1
    obtain ⟨w1, w2, w3, w4, i, sc, hsc1, hsc⟩ := withScope_inv g2
    rw [makeChild_eq g2 hsc1 hsc] at k1
    cases k1
    have o1 := opened_inv w1 hsc1 hsc
    obtain ⟨E₁, q1, q2, q3, q4, q5, q6, q7⟩ := paramDecls_sound hW.loose _ _ _ _ _ k2 o1
    have hgs : s₁.syms[s.syms.length]? = some sym := by rw [g5]; exact getElem?_append_new _ _
    have hgo : (opened s₁.withScope i sc).syms[s.syms.length]? = some sym := by
      show s₁.withScope.syms[s.syms.length]? = some sym
      rw [w4]; exact hgs
    have hgt : t₂.syms[s.syms.length]? = some sym := by rw [q6 _ (get_lt hgo), hgo]
    have hgd : E₁.decls[s.syms.length]? = some (.func (ps.map Prod.fst) f.returnType) := by
      rw [q7 _ (by simp [Env.add, hi.len]), hi.len]
      exact getElem?_append_new _ _
    obtain ⟨t₃, hup, r1, r2, r3, r4⟩ := finish_func q2 hgt hk hgd (by rw [paramsOk_length q1]; omega)
    rw [hup] at k3
    cases k3
    have hfr : Frame (opened s₁.withScope i sc) t := q3.trans r2
    have hu := under_of_frame hsc1 hsc hfr
    have hblk : BlkAt t s₁.withScope.scopes.length (some i) := r1.blk.1
    have hsc' : t.scope = some s₁.withScope.scopes.length := by rw [r4]; exact q5 _ rfl
    rw [restoreParent_eq hblk] at k4
    cases k4
    have hre := reenter hsc' hblk hu.cur rfl
    have hsame : Same s t :=
      (((g4.trans w3).trans (show Same s₁.withScope (opened s₁.withScope i sc) from ⟨rfl, rfl, rfl⟩)).trans q4).trans r3
    have hpre : SemPre W false true t (some (s₁.withScope.scopes.length, i)) E₁ ⟨some f.returnType, 0, false⟩ := by
      refine ⟨r1, rfl, hsame.2.2.trans hd, ?_, fun h => absurd h hr⟩
      have := get_lt (hfr.syms _ _ hgo).choose_spec.1
      omega
    refine def_block hre (hn _ _ _ _ _ _ hpre (hf.keep (.refl _) rfl rfl) hcnt hs (hv.body (.func hret hx q1))) fun r t' m1 => ?_
    obtain ⟨E₂, n1, n2, n3⟩ := nodes_sound (bare := False) hW child _ _ _ _ _ _ _ _ m1 hcnt (fun h => absurd h hr) (fun h => h.elim) hpre
    have hfr' := hfr.trans n2.frame
    have hu' := under_of_frame hsc1 hsc hfr'
    exact def_of (block_eq hre m1 n2.pre.inv.blk.1 hu'.cur)

theorem func_defined {cfg W inF s B E c before p tok te child next} (hW : Models cfg W) (hr : ¬ W.returns)
    (hn : NodesDef cfg W child) (hp : SemPre W false inF s B E c) (hf : FuncsOk s) (hnum : p.numParams = p.params.length)
    (hcnt : Counted child) (hs : AllNodes (StmtSafe cfg) child) (h1 : StmtSafe cfg (.funcProto p) tok te)
    (hv : NamesFit W c E before (.node (.funcProto p) tok te child next)) :
    validateStmt cfg before (.funcProto p) tok te child next (validateNodes cfg [] child) s ≠ .ub := by
  obtain ⟨_, ⟨x, hx, hx1, hx2⟩, hret, hps⟩ := h1
  have hi₀ : SInv { s with whileDepth := 0 } B E none := hp.inv.of_eq rfl rfl rfl
  unfold validateStmt
  simp only
  rw [bind_of _ (show Chk.get s = .ok s s from rfl),
    bind_of _ (show setDepth 0 s = .ok () { s with whileDepth := 0 } from rfl)]
  have dnest : notNested p { s with whileDepth := 0 } ≠ .ub := by
    unfold notNested
    rw [bind_of _ (isTopLvl_eq hi₀.blk)]
    split
    · exact def_error _ _ _
    · exact def_pure _ _
  refine def_bind ?_ fun r s₁ g1 => ?_
  · unfold validateFuncDecl
    refine def_bind dnest fun _ s₂ g2 => ?_
    rw [notNested_ok hi₀.blk] at g2
    obtain ⟨_, rfl⟩ := g2
    refine def_bind ?_ fun ret s₃ g3 => ?_
    · cases hr : p.returnType with
      | none => exact def_pure _ _
      | some l =>
        unfold validateReturnType
        refine def_bind (def_type hi₀ (hret l hr)) fun o _ _ => ?_
        cases o with
        | none => exact def_error _ _ _
        | some => exact def_pure _ _
    · obtain ⟨rfl, g3⟩ := retType_sound hi₀ g3
      rw [bind_of _ (tokName_eq _ hx)]
      refine def_bind (def_linkage hx2 _ _) fun link s₅ g5 => ?_
      have := linkageName_ok g5
      subst this
      have hi₁ : SInv { s with whileDepth := 0, lastFunc := some s.currentFunc, currentFunc := s.syms.length } B E none :=
        hp.inv.of_eq rfl rfl rfl
      rw [bind_of _ (newSym_eq _ _)]
      rw [bind_of _ (show enterFunc _ (SS.push _ _) = .ok () (SS.push { s with whileDepth := 0, lastFunc := some s.currentFunc, currentFunc := s.syms.length } _) from rfl)]
      refine def_bind ?_ fun _ s₆ g6 => ?_
      · exact def_mustAdd (push_inv hi₁ (d := .func [] ret) (pend' := some s.syms.length)
          (.func fun hne => absurd (by show some s.syms.length = _; rw [hp.inv.len]) hne) (.inr rfl)) (push_get _ _)
      · have d := funcParams_defined hW hi₁ rfl rfl hnum g6 hps
        exact def_bind d fun _ _ _ => def_pure _ _
  · have hk1 := (still_validateFuncDecl cfg p).ok g1
    have hf₁ : FuncsOk s₁ := hk1.funcs (hf.keep (.refl _) rfl rfl)
    unfold validateFuncDecl at g1
    replace g1 := bind_ok_unit.1 g1
    obtain ⟨s₂, h2, g1⟩ := g1
    rw [notNested_ok hi₀.blk] at h2
    obtain ⟨h2, rfl⟩ := h2
    replace g1 := bind_ok.1 g1
    obtain ⟨ret, s₃, h3, g1⟩ := g1
    replace h3 := retType_sound hi₀ h3
    obtain ⟨rfl, h3⟩ := h3
    rw [bind_of _ (tokName_eq _ hx)] at g1
    replace g1 := bind_ok.1 g1
    obtain ⟨link, s₅, h5, g1⟩ := g1
    have := linkageName_ok h5
    subst this
    rw [bind_of _ (newSym_eq _ _)] at g1
    replace g1 := bind_ok_unit.1 g1
    obtain ⟨s₆, h6, g1⟩ := g1
    have hlast : s₆.lastFunc.isSome = true := by cases h6; rfl
    cases h6
    replace g1 := bind_ok_unit.1 g1
    obtain ⟨s₇, h7, g1⟩ := g1
    replace g1 := bind_ok.1 g1
    obtain ⟨ids', s₈, h8, g1⟩ := g1
    cases g1
    have hi₁ : SInv { s with whileDepth := 0, lastFunc := some s.currentFunc, currentFunc := s.syms.length } B E none :=
      hp.inv.of_eq rfl rfl rfl
    have hl₁ := ((still_validateFuncParams p _).ok h8).last (((still_mustAdd _).ok h7).last hlast)
    have d := body_defined hW hr hn hi₁ hp.pos rfl rfl rfl rfl hnum h7 h8 hf₁ hcnt hs rfl h3 hx rfl hv
    refine def_bind d fun body s₉ h9 => ?_
    have hk9 := (still_block (still_nodes cfg child [])).ok h9
    refine def_bind ?_ fun _ _ _ => def_bind (by simp [setDepth]) fun _ _ _ => def_pure _ _
    unfold postValidateFunc
    rw [bind_of _ (show Chk.get s₉ = .ok s₉ s₉ from rfl)]
    obtain ⟨f, hfa⟩ := def_funcAt (hk9.funcs hf₁).1
    rw [bind_of _ hfa]
    split
    · exact def_pure _ _
    · refine def_bind ?_ fun _ s' hc => ?_
      · unfold checkReturns
        repeat' split
        all_goals first | exact def_error _ _ _ | exact def_pure _ _
      · have hl := ((still_checkReturns f child).ok hc).last (hk9.last hl₁)
        unfold leaveFunc
        cases hq : s'.lastFunc with
        | none => rw [hq] at hl; cases hl
        | some l => simp

/- ### Namespaces -/

theorem ns_defined {cfg W inF s B E c before tok te child next} (hW : Models cfg W) (hr : ¬ W.returns)
    (hn : NodesDef cfg W child) (hp : SemPre W false inF s B E c) (hf : FuncsOk s)
    (hcnt : Counted child) (hs : AllNodes (StmtSafe cfg) child) (h1 : StmtSafe cfg .namespaces tok te)
    (hv : NamesFit W c E before (.node .namespaces tok te child next)) :
    validateStmt cfg before .namespaces tok te child next (validateNodes cfg [] child) s ≠ .ub := by
  obtain ⟨_, k, t, r, rfl, x, hx⟩ := h1
  unfold validateStmt
  simp only
  have hdec : declareNamespace (k :: t :: r) s = (do mustAdd s.syms.length; pure s.syms.length)
      (s.push { name := x, loc := some t, kind := .ns none }) := by
    unfold declareNamespace
    rw [bind_of _ (show headTok (k :: t :: r).tail s = .ok t s from rfl), bind_of _ (tokName_eq s hx), bind_of _ (newSym_eq _ _)]
  have hpush := push_inv (sym := { name := x, loc := some t, kind := .ns none }) hp.inv (d := .ns []) (pend' := none) .nsNone (.inl rfl)
  refine def_bind ?_ fun id s₁ g1 => ?_
  · rw [hdec]
    exact def_bind (def_mustAdd hpush (push_get _ _)) fun _ _ _ => def_pure _ _
  · have hk1 := (declareNs_ok g1).1
    rw [hdec] at g1
    replace g1 := bind_ok_unit.1 g1
    obtain ⟨s₄, h4, g1⟩ := g1
    cases g1
    rw [mustAdd_ok] at h4
    obtain ⟨g1, g2, g3, g4, g5, g6⟩ := declare_sound hp.inv (d := .ns []) (pend' := none) .nsNone (.inl rfl) h4
    have hpre := (hp.post g2 g3 g4).pre
    refine def_bind (block_defined hW hr hn hpre (hk1.funcs hf) hcnt hs (hv.body (.ns hx))) fun body s₅ h5 => ?_
    obtain ⟨E₁, k1, k2, k3, cur, chain, k4, k5, k6, k7⟩ := block_sound (nodes_sound (bare := False) hW child) h5 hcnt
      (fun h => absurd h hr) (fun h => h.elim) hpre
    refine def_bind ?_ fun _ _ _ => def_pure _ _
    unfold closeNamespace
    rw [k4]
    simp only
    have hg : s₁.syms[s.syms.length]? = some { name := x, loc := some t, kind := .ns none } := by
      rw [g5]; exact getElem?_append_new _ _
    obtain ⟨sym, m1, m2⟩ := k2.frame.syms _ _ hg
    exact def_of (updSym_eq _ m1)

/- ### Statements -/

theorem ret_defined {cfg W inF s B E c before e tok te child next} {body : Chk ATree} (hW : Models cfg W) (hp : SemPre W false inF s B E c)
    (hf : FuncsOk s) (hcnt : Expr.Counted e) (hnext : AllNodes (StmtSafe cfg) next) (h1 : StmtSafe cfg (.ret e) tok te)
    (hv : NamesFit W c E before (.node (.ret e) tok te child next)) : validateStmt cfg before (.ret e) tok te child next body s ≠ .ub := by
  obtain ⟨htok, h1⟩ := h1
  unfold validateStmt
  simp only
  refine def_bind ?_ fun _ _ _ => def_pure _ _
  unfold validateReturn
  refine def_bind (def_sane hnext s) fun _ s₀ g0 => ?_
  have h0 : s₀ = s := by
    cases next with
    | nil => cases g0; rfl
    | node => exact (saneChild_ok g0).2
  subst h0
  refine def_bind ?_ fun a s₁ g1 => ?_
  · cases e with
    | missing => exact def_pure _ _
    | _ =>
      unfold validateOptExpr
      refine def_bind (expr_defined hW.strtod _ _ hp.inv hcnt (h1.resolve_left (by simp)) (hv.here rfl (by simp [IsAlias])))
        fun _ _ _ => def_pure _ _
  · have hk := (still_validateOptExpr cfg e).ok g1
    rw [bind_of _ (show Chk.get s₁ = .ok s₁ s₁ from rfl)]
    obtain ⟨f, hfa⟩ := def_funcAt (hk.funcs hf).1
    rw [bind_of _ hfa]
    refine def_bind ?_ fun _ _ _ => def_bind (def_noDead hnext _) fun _ _ _ => def_pure _ _
    unfold checkReturn
    repeat' split
    all_goals first | exact def_failTok htok _ | exact def_pure _ _ | exact def_error _ _ _

theorem vardef_defined {cfg W inF s B E c before name isConst isImplicit isExported e tok te child next} {body : Chk ATree}
    (hW : Models cfg W) (hp : SemPre W false inF s B E c) (hcnt : Expr.Counted e)
    (h1 : StmtSafe cfg (.varDef name isConst isImplicit isExported e) tok te)
    (hv : NamesFit W c E before (.node (.varDef name isConst isImplicit isExported e) tok te child next)) :
    validateStmt cfg before (.varDef name isConst isImplicit isExported e) tok te child next body s ≠ .ub := by
  obtain ⟨_, h1, h2, h3, h4, h5, h6⟩ := h1
  unfold validateStmt
  simp only
  refine def_bind ?_ fun _ _ _ => def_pure _ _
  unfold validateVarDef
  refine def_bind (def_type hp.inv h3) fun o s₁ g1 => ?_
  have g2 := tokenToType_sound hp.inv _ g1
  obtain ⟨rfl, g2⟩ := g2
  cases o with
  | some => exact def_bind (alias_defined hp h5 h4) fun _ _ _ => def_pure _ _
  | none =>
    refine var_defined hW hp hcnt h6 (hv.here rfl ?_) h1 h2
    rintro ⟨_, ty, h⟩
    cases typeAt_only hp.inv g2 h

theorem import_defined {cfg : Cfg} {tok} (h : ∃ k n r, tok = k :: n :: r ∧ Spelled n) (s : SS) : validateImport cfg tok s ≠ .ub := by
  obtain ⟨k, n, r, rfl, x, hx⟩ := h
  unfold validateImport
  rw [bind_of _ (show headTok (k :: n :: r).tail s = .ok n s from rfl), bind_of _ (tokName_eq s hx)]
  split
  · exact def_error _ _ _
  · split
    · exact def_error _ _ _
    · exact def_pure _ _

theorem def_depth (d : Nat) (s : SS) : setDepth d s ≠ .ub := by simp [setDepth]

theorem stmt_defined {cfg W inF s B E c before stmt tok te child next} (hW : Models cfg W) (hr : ¬ W.returns)
    (hn : NodesDef cfg W child) (hp : SemPre W false inF s B E c) (hf : FuncsOk s)
    (hcnt : Counted (.node stmt tok te child next)) (h1 : AllNodes (StmtSafe cfg) (.node stmt tok te child next))
    (hv : NamesFit W c E before (.node stmt tok te child next)) :
    validateStmt cfg before stmt tok te child next (validateNodes cfg [] child) s ≠ .ub := by
  obtain ⟨h1, hs, hnext⟩ := h1
  obtain ⟨hcnt, hcc, hcn⟩ := hcnt
  have blk : ∀ {s'}, SemPre W false inF s' B E c → FuncsOk s' → Enters W c E stmt tok c.inner E → block (validateNodes cfg [] child) s' ≠ .ub :=
    fun hp' hf' hen => block_defined hW hr hn hp' hf' hcc hs (hv.body hen)
  cases stmt with
  | ret e => exact ret_defined hW hp hf hcnt hnext h1 hv
  | varDef => exact vardef_defined hW hp hcnt h1 hv
  | funcProto p => exact func_defined hW hr hn hp hf hcnt hcc hs h1 hv
  | namespaces => exact ns_defined hW hr hn hp hf hcc hs h1 hv
  | unknown => exact def_pure _ _
  | comment => exact def_pure _ _
  | noop => exact def_pure _ _
  | unreachable => exact def_bind (def_noDead hnext _) fun _ _ _ => def_pure _ _
  | breaks => exact def_bind (def_jump h1.1 hnext _) fun _ _ _ => def_pure _ _
  | continues => exact def_bind (def_jump h1.1 hnext _) fun _ _ _ => def_pure _ _
  | imports => exact def_bind (import_defined h1.2 _) fun _ _ _ => def_pure _ _
  | varAssign e =>
    refine def_bind (assign_defined hW hp hcnt h1.2.2 (hv.here rfl (by simp [IsAlias])) ?_) fun _ _ _ => def_pure _ _
    obtain ⟨t, r, rfl, ht⟩ := h1.2.1
    exact ⟨t, r, rfl, ht, hv _ _ _ _ _ _ _ _ _ .here .target⟩
  | expr e =>
    cases e with
    | missing => exact h1.2.elim
    | call =>
      exact def_bind (expr_defined hW.strtod _ s hp.inv hcnt h1.2 (hv.here rfl (by simp [IsAlias]))) fun _ _ _ => def_pure _ _
    | _ => exact def_failTok h1.1 _
  | elses =>
    refine def_bind (def_needIf h1.1 _) fun _ _ g1 => ?_
    obtain ⟨_, rfl⟩ := needIf_ok.1 g1
    refine def_bind (def_needBlock h1.1 _) fun _ _ g2 => ?_
    obtain ⟨_, rfl⟩ := needBlock_ok.1 g2
    exact def_bind (blk hp hf .elses) fun _ _ _ => def_pure _ _
  | ifs e =>
    refine def_bind (def_needBlock h1.1 _) fun _ _ g2 => ?_
    obtain ⟨_, rfl⟩ := needBlock_ok.1 g2
    refine def_bind (def_condition hW.strtod hp.inv hcnt h1.2 (hv.here rfl (by simp [IsAlias]))) fun _ _ g3 => ?_
    have hq := (condition_sound hW.strtod g3 hp.inv hcnt).2
    exact def_bind (blk (hp.quiet hq).pre (((still_condition cfg e).ok g3).funcs hf) .ifs) fun _ _ _ => def_pure _ _
  | elifs e =>
    refine def_bind (def_needBlock h1.1 _) fun _ _ g2 => ?_
    obtain ⟨_, rfl⟩ := needBlock_ok.1 g2
    refine def_bind (def_needIf h1.1 _) fun _ _ g1 => ?_
    obtain ⟨_, rfl⟩ := needIf_ok.1 g1
    refine def_bind (def_condition hW.strtod hp.inv hcnt h1.2 (hv.here rfl (by simp [IsAlias]))) fun _ _ g3 => ?_
    have hq := (condition_sound hW.strtod g3 hp.inv hcnt).2
    exact def_bind (blk (hp.quiet hq).pre (((still_condition cfg e).ok g3).funcs hf) .elifs) fun _ _ _ => def_pure _ _
  | whiles e =>
    unfold validateStmt
    simp only
    rw [bind_of _ (show Chk.get s = .ok s s from rfl),
      bind_of _ (show setDepth (s.whileDepth + 1) s = .ok () { s with whileDepth := (s.whileDepth + 1) % 2 ^ 32 } from rfl)]
    have hp' : SemPre W false inF { s with whileDepth := (s.whileDepth + 1) % 2 ^ 32 } B E { c with loops := c.loops + 1 } := by
      refine ⟨hp.inv.of_eq rfl rfl rfl, hp.top, ?_, hp.pos, fun hw => absurd hw hr⟩
      show (s.whileDepth + 1) % 2 ^ 32 = (c.loops + 1) % 2 ^ 32
      rw [hp.loops]
      omega
    refine def_bind (def_needBlock h1.1 _) fun _ _ g2 => ?_
    obtain ⟨_, rfl⟩ := needBlock_ok.1 g2
    refine def_bind (def_condition hW.strtod hp'.inv hcnt h1.2 (hv.here rfl (by simp [IsAlias]))) fun _ _ g3 => ?_
    have hq := (condition_sound hW.strtod g3 hp'.inv hcnt).2
    have hf' := ((still_condition cfg e).ok g3).funcs (hf.keep (.refl _) rfl rfl)
    refine def_bind (block_defined hW hr hn (hp'.quiet hq).pre hf' hcc hs (hv.body .whiles)) fun _ _ _ => ?_
    refine def_bind (by simp [Chk.get]) fun _ _ _ => def_bind (def_depth _ _) fun _ _ _ => def_pure _ _

theorem nodes_defined {cfg W} (hW : Models cfg W) (hr : ¬ W.returns) : ∀ t, NodesDef cfg W t
  | .nil => by
    intro before s inF B E c _ _ _ _ _
    exact def_pure _ _
  | .node stmt tok te child next => by
    intro before s inF B E c hp hf hcnt hs hv
    unfold validateNodes
    refine def_bind (def_sane hs s) fun _ s₁ g1 => ?_
    obtain ⟨_, rfl⟩ := saneChild_ok g1
    refine def_bind (stmt_defined hW hr (nodes_defined hW hr child) hp hf hcnt hs hv) fun r s₂ g2 => ?_
    obtain ⟨E₁, k1, k2, _⟩ := stmt_sound (bare := False) hW (nodes_sound hW child) hp hcnt.1 hcnt.2.1 (fun h => absurd h hr)
      (fun h => h.elim) g2
    have hf₂ := ((still_stmt _ _ _ _ _ _ _ (still_nodes cfg child [])).ok g2).funcs hf
    exact def_bind (nodes_defined hW hr next _ _ _ _ _ _ k2.pre hf₂ hcnt.2.2 hs.2.2 (hv.next k1)) fun _ _ _ => def_pure _ _

/- ### Programs -/

/-- The blocks that were not checked declare no functions. -/
def UncheckedOk : ATree → Prop
  | .nil => True
  | .unchecked t => unusedUnchecked t = true
  | .node _ _ _ child next => UncheckedOk child ∧ UncheckedOk next

theorem unchecked_of_noFuncs : ∀ {t : Tree}, noFuncs t = true → unusedUnchecked t = true
  | .nil, _ => rfl
  | .node stmt tok te child next, h => by
    cases stmt with
    | funcProto p => simp [noFuncs] at h
    | _ =>
      simp only [noFuncs, Bool.and_eq_true] at h
      have h1 := unchecked_of_noFuncs h.1
      have h2 := unchecked_of_noFuncs h.2
      simp [unusedUnchecked, h1, h2]

theorem uncheckedOk_leave {t : Tree} (h : noFuncs t = true) : UncheckedOk (leaveAlone t) := by
  cases t with
  | nil => trivial
  | node => exact unchecked_of_noFuncs h

theorem block_ok {nodes : Chk ATree} {s s' r} (h : block nodes s = .ok r s') : ∃ s₁ s₂, nodes s₁ = .ok r s₂ := by
  unfold block at h
  obtain ⟨s₁, _, h⟩ := bind_ok_unit.1 h
  obtain ⟨r', s₂, h1, h⟩ := bind_ok.1 h
  obtain ⟨s₃, _, h⟩ := bind_ok_unit.1 h
  obtain ⟨s₄, _, h⟩ := bind_ok_unit.1 h
  obtain ⟨s₅, _, h⟩ := bind_ok_unit.1 h
  cases h
  exact ⟨_, _, h1⟩

theorem stmt_uncheckedOk {cfg before stmt tok te child next s s' r} {nodes : Chk ATree}
    (hn : ∀ {s r s'}, nodes s = .ok r s' → UncheckedOk r) (hc : ∀ n args num, stmt = .expr (.call n args num) → noFuncs child = true)
    (h : validateStmt cfg before stmt tok te child next nodes s = .ok r s') : UncheckedOk r.2 := by
  have hb : ∀ {s r s'}, block nodes s = .ok r s' → UncheckedOk r := fun h => by
    obtain ⟨_, _, h⟩ := block_ok h
    exact hn h
  cases stmt with
  | funcProto p =>
    unfold validateStmt at h
    obtain ⟨_, _, _, h⟩ := bind_ok.1 h
    obtain ⟨_, _, h⟩ := bind_ok_unit.1 h
    obtain ⟨_, _, _, h⟩ := bind_ok.1 h
    obtain ⟨_, _, h1, h⟩ := bind_ok.1 h
    obtain ⟨_, _, h⟩ := bind_ok_unit.1 h
    obtain ⟨_, _, h⟩ := bind_ok_unit.1 h
    cases h
    exact hb h1
  | namespaces =>
    unfold validateStmt at h
    obtain ⟨_, _, _, h⟩ := bind_ok.1 h
    obtain ⟨_, _, h1, h⟩ := bind_ok.1 h
    obtain ⟨_, _, h⟩ := bind_ok_unit.1 h
    cases h
    exact hb h1
  | whiles e =>
    unfold validateStmt at h
    obtain ⟨_, _, _, h⟩ := bind_ok.1 h
    obtain ⟨_, _, h⟩ := bind_ok_unit.1 h
    obtain ⟨_, _, h⟩ := bind_ok_unit.1 h
    obtain ⟨_, _, _, h⟩ := bind_ok.1 h
    obtain ⟨_, _, h1, h⟩ := bind_ok.1 h
    obtain ⟨_, _, _, h⟩ := bind_ok.1 h
    obtain ⟨_, _, h⟩ := bind_ok_unit.1 h
    cases h
    exact hb h1
  | ifs e =>
    unfold validateStmt at h
    obtain ⟨_, _, h⟩ := bind_ok_unit.1 h
    obtain ⟨_, _, _, h⟩ := bind_ok.1 h
    obtain ⟨_, _, h1, h⟩ := bind_ok.1 h
    cases h
    exact hb h1
  | elifs e =>
    unfold validateStmt at h
    obtain ⟨_, _, h⟩ := bind_ok_unit.1 h
    obtain ⟨_, _, h⟩ := bind_ok_unit.1 h
    obtain ⟨_, _, _, h⟩ := bind_ok.1 h
    obtain ⟨_, _, h1, h⟩ := bind_ok.1 h
    cases h
    exact hb h1
  | elses =>
    unfold validateStmt at h
    obtain ⟨_, _, h⟩ := bind_ok_unit.1 h
    obtain ⟨_, _, h⟩ := bind_ok_unit.1 h
    obtain ⟨_, _, h1, h⟩ := bind_ok.1 h
    cases h
    exact hb h1
  | expr e =>
    cases e with
    | missing => cases h
    | call =>
      unfold validateStmt at h
      obtain ⟨_, _, _, h⟩ := bind_ok.1 h
      cases h
      exact uncheckedOk_leave (hc _ _ _ rfl)
    | _ =>
      unfold validateStmt at h
      obtain ⟨_, _, _, h⟩ := bind_ok.1 h
      cases h
  | _ =>
    unfold validateStmt at h
    first
    | (cases h; trivial; done)
    | (obtain ⟨_, _, _, h⟩ := bind_ok.1 h; cases h; trivial)

theorem nodes_uncheckedOk {cfg} : ∀ (t : Tree) {before s r s'}, callsNoFuncs t = true → validateNodes cfg before t s = .ok r s' → UncheckedOk r
  | .nil, _, _, _, _, _, h => by cases h; trivial
  | .node stmt tok te child next, before, s, r, s', hc, h => by
    unfold validateNodes at h
    obtain ⟨_, _, h⟩ := bind_ok_unit.1 h
    obtain ⟨_, _, h1, h⟩ := bind_ok.1 h
    obtain ⟨_, _, h2, h⟩ := bind_ok.1 h
    cases h
    have hc' : callsNoFuncs next = true ∧ (∀ n args num, stmt = .expr (.call n args num) → noFuncs child = true) ∧
        ((∃ n args num, stmt = .expr (.call n args num)) ∨ callsNoFuncs child = true) := by
      unfold callsNoFuncs at hc
      split at hc
      · rename_i he; cases he
      · rename_i he
        cases he
        simp only [Bool.and_eq_true] at hc
        exact ⟨hc.2, fun _ _ _ _ => hc.1, .inl ⟨_, _, _, rfl⟩⟩
      · rename_i hne he
        cases he
        simp only [Bool.and_eq_true] at hc
        exact ⟨hc.2, fun n args num h => absurd h (hne n args num), .inr hc.1⟩
    obtain ⟨c1, c2, c3⟩ := hc'
    refine ⟨?_, nodes_uncheckedOk next c1 h2⟩
    rcases c3 with ⟨n, args, num, rfl⟩ | c3
    · unfold validateStmt at h1
      obtain ⟨_, _, _, h1⟩ := bind_ok.1 h1
      cases h1
      exact uncheckedOk_leave (c2 _ _ _ rfl)
    · exact stmt_uncheckedOk (fun h => nodes_uncheckedOk child c3 h) c2 h1

theorem warnIf_eq {cfg : Cfg} (c : Bool) (err : Bool) (code : Code) (t : Option Token) (s : SS) :
    ∃ e s', warnIf cfg c err code t s = .ok e s' ∧ s'.syms = s.syms := by
  unfold warnIf
  cases c with
  | false => exact ⟨_, s, rfl, rfl⟩
  | true => exact ⟨_, _, rfl, rfl⟩

theorem unusedSym_defined {cfg : Cfg} (err : Bool) {sym : Symbol} (h : sym.core.1 = .var ∨ sym.core.1 = .func) (s : SS) :
    ∃ e s', unusedSym cfg err sym s = .ok e s' ∧ s'.syms = s.syms := by
  unfold unusedSym
  cases hk : sym.kind with
  | var v =>
    simp only
    obtain ⟨e₁, s₁, h1, h2⟩ := warnIf_eq (cfg := cfg) (!v.isConst && !v.wasReassigned) err .warnVarNotConst sym.loc s
    rw [bind_of _ h1]
    obtain ⟨e₂, s₂, h3, h4⟩ := warnIf_eq (cfg := cfg) (!v.wasRead && !v.isExported) e₁ .warnVarUnused sym.loc s₁
    exact ⟨e₂, s₂, h3, h4.trans h2⟩
  | func f => exact warnIf_eq _ _ _ _ _
  | _ => rw [Symbol.core, hk] at h; simp [SymKind.core] at h

theorem checkUnused_defined {cfg : Cfg} : ∀ (t : ATree) (err : Bool) (s : SS), AnnOk False s.syms t → UncheckedOk t →
    ∃ e s', checkUnused cfg err t s = .ok e s' ∧ s'.syms = s.syms
  | .nil, err, s, _, _ => ⟨err, s, rfl, rfl⟩
  | .unchecked _, err, s, _, h => by
    refine ⟨err, s, ?_, rfl⟩
    unfold checkUnused
    rw [if_pos (show unusedUnchecked _ = true from h)]
    rfl
  | .node ann stmt tok child next, err, s, h, hu => by
    have step : ∀ (err : Bool) (s₁ : SS), s₁.syms = s.syms → ∃ e s', checkUnused cfg err next s₁ = .ok e s' ∧ s'.syms = s.syms := by
      intro err s₁ he
      obtain ⟨e, s', h1, h2⟩ := checkUnused_defined next err s₁ (by rw [he]; exact h.2.2) hu.2
      exact ⟨e, s', h1, h2.trans he⟩
    have walk : (∀ id e, ann ≠ .varDef id e) → (∀ id e, ann ≠ .func id e) →
        ∃ e s', checkUnused cfg err (.node ann stmt tok child next) s = .ok e s' ∧ s'.syms = s.syms := by
      intro hn1 hn2
      have hsub := checkUnused_defined (cfg := cfg) child false s h.2.1 hu.1
      have key : child ≠ .nil → checkUnused cfg err (.node ann stmt tok child next) s =
            (do let inner ← checkUnused cfg false child; checkUnused cfg (err && !inner) next) s := by
        intro hne
        cases child with
        | nil => exact absurd rfl hne
        | _ => cases ann <;> first | exact absurd rfl (hn1 _ _) | exact absurd rfl (hn2 _ _) | rfl
      by_cases hc : child = .nil
      · subst hc
        have : checkUnused cfg err (.node ann stmt tok .nil next) s = checkUnused cfg err next s := by
          cases ann <;> first | exact absurd rfl (hn1 _ _) | exact absurd rfl (hn2 _ _) | rfl
        rw [this]
        exact step err s rfl
      · obtain ⟨e₁, s₁, h1, h2⟩ := hsub
        rw [key hc, bind_of _ h1]
        exact step _ s₁ h2
    cases ann with
    | varDef id e =>
      obtain ⟨sym, h1, h2⟩ := h.1
      obtain ⟨e₁, s₁, h3, h4⟩ := unusedSym_defined (cfg := cfg) err (.inl h2) s
      obtain ⟨e', s', h5, h6⟩ := step e₁ s₁ h4
      refine ⟨e', s', ?_, h6⟩
      unfold checkUnused
      rw [bind_of _ (symAt_eq h1), bind_of _ h3]
      exact h5
    | func id e =>
      obtain ⟨sym, h1, h2⟩ := h.1
      obtain ⟨e₁, s₁, h3, h4⟩ := unusedSym_defined (cfg := cfg) err (.inr h2) s
      obtain ⟨e', s', h5, h6⟩ := step e₁ s₁ h4
      refine ⟨e', s', ?_, h6⟩
      unfold checkUnused
      rw [bind_of _ (symAt_eq h1), bind_of _ h3]
      exact h5
    | none => exact walk (fun _ _ h => by cases h) (fun _ _ h => by cases h)
    | varAssign => exact walk (fun _ _ h => by cases h) (fun _ _ h => by cases h)
    | expr => exact walk (fun _ _ h => by cases h) (fun _ _ h => by cases h)
    | ns => exact walk (fun _ _ h => by cases h) (fun _ _ h => by cases h)

/-- The end of the check of a program. -/
theorem tree_defined {cfg : Cfg} {W : World} {t : Tree} {s : SS} (hW : Models cfg W) (hr : ¬ W.returns) (hs : setupState cfg = some s)
    (hc : Counted t) (hb : cfg.quiet = true ∨ callsNoFuncs t = true) (hn : validateNodes cfg [] t s ≠ .ub) : semantic cfg t ≠ .ub := by
  unfold semantic
  rw [hs]
  simp only
  unfold validateAstTree
  refine def_bind hn fun a s₁ h1 => ?_
  obtain ⟨E', _, h2, h3⟩ := nodes_sound (bare := False) hW t _ _ _ _ _ _ _ _ h1 hc (fun h => absurd h hr) (fun h => h.elim)
    (setup_inv hs W false)
  obtain ⟨s₂, h4, h5, h6⟩ := resetHead_top h2.pre.inv.blk
  obtain ⟨s₃, h7, h8, _⟩ := resetHead_top h6
  rw [bind_of _ h4, bind_of _ h7]
  split
  · exact def_pure _ _
  · rename_i hq
    obtain ⟨e, s₄, h9, _⟩ := checkUnused_defined (cfg := cfg) a false s₃ (by rw [h8, h5]; exact h3)
      (nodes_uncheckedOk t (hb.resolve_left hq) h1)
    rw [bind_of _ h9]
    split
    · exact def_stop _
    · exact def_pure _ _

theorem setup_funcs {cfg : Cfg} {s : SS} (hs : setupState cfg = some s) : FuncsOk s := by
  unfold setupState at hs
  cases hn : createMainFuncName cfg.filename with
  | none => rw [hn] at hs; cases hs
  | some name =>
    rw [hn] at hs
    cases hs
    exact ⟨⟨_, rfl, rfl⟩, fun l hl => by cases hl⟩

/-- The check of a program is defined. -/
theorem program_defined {cfg : Cfg} {W : World} {t : Tree} (hW : Models cfg W) (hr : ¬ W.returns)
    (hm : (createMainFuncName cfg.filename).isSome = true) (hc : Counted t) (hb : cfg.quiet = true ∨ callsNoFuncs t = true)
    (hsafe : AllNodes (StmtSafe cfg) t ∨ ∃ hd ch, t = .node .unknown hd [] ch .nil ∧ AllNodes (StmtSafe cfg) ch)
    (hv : VarsOnly W t) : semantic cfg t ≠ .ub := by
  obtain ⟨s, hs⟩ : ∃ s, setupState cfg = some s := by
    unfold setupState
    cases hn : createMainFuncName cfg.filename with
    | none => rw [hn] at hm; cases hm
    | some name => exact ⟨_, rfl⟩
  refine tree_defined hW hr hs hc hb ?_
  rcases hsafe with h | ⟨hd, ch, rfl, h⟩
  · exact nodes_defined hW hr t _ _ _ _ _ _ (setup_inv hs W false) (setup_funcs hs) hc h hv
  · unfold validateNodes
    refine def_bind ?_ fun _ _ _ => def_bind (def_pure _ _) fun _ _ _ => def_bind (def_pure _ _) fun _ _ _ => def_pure _ _
    cases ch with
    | nil => exact def_pure _ _
    | node cs ctok cte cc cn => exact def_failTok h.1.1 _

end Skull.SemDef
