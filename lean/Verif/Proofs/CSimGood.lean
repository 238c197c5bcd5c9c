import Verif.Proofs.CSimCall
/-
The C form of a program does what the program does: what there is in a program that fits.
-/
namespace Skull.CSim
open Spec Spec.C

/-- Not a declaration. -/
def PlainAnn : Ann → Prop
  | .varDef .. | .func .. => False
  | _ => True

/-- Without statements. -/
def Leaf (t : ATree) : Prop := t = .nil ∨ ∃ u, t = .unchecked u

section
variable {ω : Type}

/-- The names that can be used. -/
structure Vis (c : RunCtx ω) (K : CScope) (vis : List (List Char)) : Prop where
  var : ∀ id, id ∈ K.autos ∨ id ∈ K.own ∨ id ∈ K.tops → nameOf c.syms id ∈ vis
  func : ∀ (j id : Nat) (ps : List Nat) (body : ATree), (decls c.prog)[j]? = some (id, ps, body) → j < K.count ∨ K.self = some j → nameOf c.syms id ∈ vis

/-- A variable outside of blocks. -/
structure DefAt (c : RunCtx ω) (id : Nat) (e : AExpr) (sym : Symbol) (v : Variable) : Prop where
  symbol : c.syms[id]? = some sym
  kind : sym.kind = .var v
  known : v.constExpr = some e.isConstExpr
  type : v.type = e.type

/-- A known value. -/
structure KnownAt (c : RunCtx ω) (d : CRunCtx ω) (fmtA : Nat → List Char) (F : Floats) (id : Nat) (e : AExpr) (cx : Exp) : Prop where
  reads : Reads c.syms fmtA e cx
  wt : WtE c.syms e
  texts : FloatTexts fmtA ⟨fun _ => none, F, d.dbl⟩ e
  literal : literalOnly e = true
  noStr : e.someBin comparesStr = false
  noInt : e.someBin powsInt = false
  noFloat : e.someBin powsFloat = false
  safe : safeC F (fun _ => none) e = true
  val : (valueE (docArith F) (fun _ => none) e).isSome = true

/-- Parameters. -/
structure ParamsAt (c : RunCtx ω) (K : CScope) (id : Nat) (ps : List Nat) (child : ATree) (sym : Symbol) (f : Func) (cps : List (CType × List Char)) : Prop where
  symbol : c.syms[id]? = some sym
  kind : sym.kind = .func f
  self : K.self = none
  form : ParamsOf c.syms ps cps
  types : ∀ (i id : Nat) (ty : Ty), ps[i]? = some id → f.paramTypes[i]? = some ty → IsParam c.syms id ty
  length : ps.length = f.paramTypes.length
  nodup : ps.Nodup
  names : (ps.map (nameOf c.syms)).Nodup
  notRunTime : ∀ p ∈ ps, nameOf c.syms p ∉ runTimeNames
  decl : (decls c.prog)[K.count]? = some (id, ps, child)

/-- What there is in a program. -/
inductive Good (c : RunCtx ω) (d : CRunCtx ω) (fmtA : Nat → List Char) (F : Floats) : CScope → Bool → ATree → Option Stms → Stms → List C.Item → Prop
  | nil {K deep} : Good c d fmtA F K deep .nil none .nil []
  | same {K deep ann stmt tok child next ss its} : PlainAnn ann → Leaf child → Good c d fmtA F K deep next none ss its →
      Good c d fmtA F K deep (.node ann stmt tok child next) none ss its
  | simple {K deep ann stmt tok child next s ss its} : PlainAnn ann → Leaf child →
      (∀ vis block next, Vis c K vis → scopedS vis block next = true → scopedS vis block (.simple s next) = true) →
      Good c d fmtA F K deep next none ss its → Good c d fmtA F K deep (.node ann stmt tok child next) none (.simple s ss) its
  | spin {K deep ann stmt tok child next ss its} : PlainAnn ann → Leaf child → Good c d fmtA F K deep next none ss its →
      Good c d fmtA F K deep (.node ann stmt tok child next) none (.whiles (.num ['1']) .nil ss) its
  | known {K id e n k i x e' tok next sym v cx st link ss its} : DefAt c id e sym v → e.isConstExpr = true → KnownAt c d fmtA F id e cx →
      Good c d fmtA F (K.addObj id) false next none ss its →
      Good c d fmtA F K false (.node (.varDef id e) (.varDef n k i x e') tok .nil next) none ss
        (.object st v.isConst (cType v.type) sym.name link (some cx) :: its)
  | unknown {K id e n k i x e' tok next sym v cx st link ss its} : DefAt c id e sym v → e.isConstExpr = false →
      (∀ vis, Vis c K vis → scopedX vis cx = true) → Good c d fmtA F (K.addObj id) false next none ss its →
      Good c d fmtA F K false (.node (.varDef id e) (.varDef n k i x e') tok .nil next) none (.simple (.assign sym.name cx) ss)
        (.object st false (cType v.type) sym.name link none :: its)
  | loc {K id e n k i x e' tok next sym kk ty cx ss its} : c.syms[id]? = some sym →
      (∀ vis, Vis c K vis → scopedX vis cx = true) → (∀ i ∈ K.block, nameOf c.syms i ≠ nameOf c.syms id) →
      Good c d fmtA F (K.push id) true next none ss its →
      Good c d fmtA F K true (.node (.varDef id e) (.varDef n k i x e') tok .nil next) none (.simple (.decl kk ty sym.name cx) ss) its
  | ifs {K deep ann stmt tok child next cx body els ss its} : PlainAnn ann → (∀ vis, Vis c K vis → scopedX vis cx = true) →
      Good c d fmtA F K.inner true child none body [] → Good c d fmtA F K deep next (some els) ss its →
      Good c d fmtA F K deep (.node ann stmt tok child next) none (.ifs cx body els ss) its
  | whiles {K deep ann stmt tok child next cx body ss its} : PlainAnn ann → (∀ vis, Vis c K vis → scopedX vis cx = true) →
      Good c d fmtA F K.inner true child none body [] → Good c d fmtA F K deep next none ss its →
      Good c d fmtA F K deep (.node ann stmt tok child next) none (.whiles cx body ss) its
  | external {K id ps p tok child next sym f cps ss its} : ParamsAt c K id ps child sym f cps → f.isExternal = true → p.isExternal = true →
      sym.linkageName = sym.name → Good c d fmtA F { K with count := K.count + 1 } false next none ss its →
      Good c d fmtA F K false (.node (.func id ps) (.funcProto p) tok child next) none ss
        (.proto false (cType f.returnType) sym.name cps none :: its)
  | func {K id ps p tok child next sym f cps st ex body ss bi ni} : ParamsAt c K id ps child sym f cps → f.isExternal = false → p.isExternal = false →
      (∃ link, ex = exported f.isExport (cType f.returnType) sym.name cps link) →
      CForm c.syms fmtA 1 child body bi → fitsT F c.syms (decls c.prog) (K.enter c.syms id ps) false child = true →
      WtTree c.syms false [] child → (∀ e ∈ child.exprs, FloatTexts fmtA ⟨fun _ => none, F, d.dbl⟩ e) →
      Good c d fmtA F (K.enter c.syms id ps) false child none body bi →
      Good c d fmtA F { K with count := K.count + 1 } false next none ss ni →
      Good c d fmtA F K false (.node (.func id ps) (.funcProto p) tok child next) none ss
        (bi ++ ex ++ .func st (cType f.returnType) sym.name cps body :: ni)
  | noElse {K deep t ss its} : Good c d fmtA F K deep t none ss its → Good c d fmtA F K deep t (some .nil) ss its
  | comment {K deep ann stmt tok child next els ss its} : PlainAnn ann → Leaf child → Good c d fmtA F K deep next (some els) ss its →
      Good c d fmtA F K deep (.node ann stmt tok child next) (some els) ss its
  | els {K deep ann stmt tok child next body ss its} : PlainAnn ann → Good c d fmtA F K.inner true child none body [] →
      Good c d fmtA F K deep next none ss its → Good c d fmtA F K deep (.node ann stmt tok child next) (some body) ss its
  | elif {K deep ann stmt tok child next cx body els ss its} : PlainAnn ann → (∀ vis, Vis c K vis → scopedX vis cx = true) →
      Good c d fmtA F K.inner true child none body [] → Good c d fmtA F K deep next (some els) ss its →
      Good c d fmtA F K deep (.node ann stmt tok child next) (some (.ifs cx body els .nil)) ss its

variable {c : RunCtx ω} {d : CRunCtx ω} {fmtA : Nat → List Char} {F : Floats}

/- ### Names of expressions -/

theorem resolves_vis {K : CScope} {id vis} (h : resolves c.syms K id = true) (hv : Vis c K vis) : nameOf c.syms id ∈ vis := by
  unfold resolves at h
  split at h
  · rename_i h1; exact hv.var id (.inl h1)
  · simp only [Bool.and_eq_true, Bool.or_eq_true, decide_eq_true_eq] at h
    exact hv.var id (.inr h.1)

theorem callable_vis {K : CScope} {id vis} (h : callable (decls c.prog) K id = true) (hv : Vis c K vis) : nameOf c.syms id ∈ vis := by
  unfold callable at h
  split at h
  · rename_i j hj
    obtain ⟨⟨id', ps, body⟩, _, h2, h3⟩ := find_of_findIdx hj
    simp only [decide_eq_true_eq] at h3
    subst h3
    refine hv.func j id' ps body h2 ?_
    simp only [Bool.or_eq_true, Bool.and_eq_true, decide_eq_true_eq] at h
    exact h.imp (fun h => h) fun h => h.1
  · cases h

mutual
theorem symbols_vis {K : CScope} {vis} (hv : Vis c K vis) : ∀ e, fitsE F c.syms (decls c.prog) K e = true → ∀ i ∈ symbolsE e, nameOf c.syms i ∈ vis
  | .ident _ id _ _, h, i, hi => by
    unfold fitsE at h
    simp only [symbolsE, List.mem_singleton] at hi
    subst hi
    exact resolves_vis h hv
  | .const .., _, i, hi => by simp [symbolsE] at hi
  | .call _ args id _, h, i, hi => by
    unfold fitsE at h
    simp only [Bool.and_eq_true] at h
    simp only [symbolsE, List.mem_cons] at hi
    rcases hi with rfl | hi
    · exact callable_vis h.1.1.1 hv
    · exact symbolsA_vis hv args h.1.2 i hi
  | .un o r ty k, h, i, hi => by
    unfold fitsE at h
    rw [Bool.and_eq_true] at h
    exact symbols_vis hv r h.1 i hi
  | .bin o l r ty k, h, i, hi => by
    unfold fitsE at h
    simp only [Bool.and_eq_true] at h
    simp only [symbolsE, List.mem_append] at hi
    rcases hi with hi | hi
    · exact symbols_vis hv l h.1.1.1 i hi
    · exact symbols_vis hv r h.1.1.2 i hi
theorem symbolsA_vis {K : CScope} {vis} (hv : Vis c K vis) : ∀ as, fitsA F c.syms (decls c.prog) K as = true → ∀ i ∈ symbolsA as, nameOf c.syms i ∈ vis
  | .nil, _, i, hi => by simp [symbolsA] at hi
  | .unchecked _, _, i, hi => by simp [symbolsA] at hi
  | .cons _ e next, h, i, hi => by
    unfold fitsA at h
    simp only [Bool.and_eq_true] at h
    simp only [symbolsA, List.mem_append] at hi
    rcases hi with hi | hi
    · exact symbols_vis hv e h.1.1 i hi
    · exact symbolsA_vis hv next h.2 i hi
end

theorem scopedX_of {K : CScope} {e cx} (hr : Reads c.syms fmtA e cx) (hf : fitsE F c.syms (decls c.prog) K e = true) :
    ∀ vis, Vis c K vis → scopedX vis cx = true := by
  intro vis hv
  unfold scopedX
  rw [List.all_eq_true]
  intro x hx
  rw [Bool.or_eq_true, decide_eq_true_eq, decide_eq_true_eq]
  rcases names_of hr x hx with ⟨i, h1, rfl⟩ | h1
  · exact .inl (symbols_vis hv e hf i h1)
  · exact .inr h1

/- ### No functions in blocks and functions -/

theorem leaf_of {syms : List Symbol} {loop before ann stmt child next} (h : WtNode syms loop before ann stmt child next) (hc : ann.value.isNone = true ∨ ∃ e, stmt = .expr e)
    (hs : stmt ≠ .elses) (hn : ∀ i, ann ≠ .ns i) (hf : ∀ i ps, ann ≠ .func i ps) : Leaf child := by
  cases h <;> first
    | exact .inl rfl
    | assumption
    | exact absurd rfl hs
    | exact absurd rfl (hn _)
    | exact absurd rfl (hf _ _)
    | (rcases hc with hc | ⟨e, hc⟩ <;> cases hc)

theorem decls_leaf {t : ATree} (h : Leaf t) : decls t = [] := by
  rcases h with rfl | ⟨u, rfl⟩ <;> rfl

theorem defs_leaf {t : ATree} (h : Leaf t) : t.defs = [] := by
  rcases h with rfl | ⟨u, rfl⟩ <;> rfl

theorem decls_plain {ann stmt tok child next} (h : PlainAnn ann) : decls (.node ann stmt tok child next) = decls child ++ decls next := by
  cases ann <;> first | exact h.elim | (cases stmt <;> rfl)

theorem decls_varDef {id e stmt tok child next} : decls (.node (.varDef id e) stmt tok child next) = decls child ++ decls next := by
  cases stmt <;> rfl

theorem fits_decls : ∀ {t : ATree} {K : CScope} {deep loop before}, fitsT F c.syms (decls c.prog) K deep t = true → WtTree c.syms loop before t →
    (K.self.isSome = true ∨ deep = true) → decls t = []
  | .nil, _, _, _, _, _, _, _ => rfl
  | .unchecked _, _, _, _, _, _, _, _ => rfl
  | .node ann stmt tok child next, K, deep, loop, before, h, hw, hk => by
    cases hw with
    | node w wc wn =>
      have key : ∀ {K' deep'}, fitsT F c.syms (decls c.prog) K' deep' next = true → (K'.self.isSome = true ∨ deep' = true) → decls next = [] :=
        fun h1 h2 => fits_decls h1 wn h2
      have kc : fitsT F c.syms (decls c.prog) K.inner true child = true → decls child = [] := fun h1 => fits_decls h1 wc (.inr rfl)
      cases w with
      | alias => refine (decls_plain (by exact trivial)).trans ?_; rw [key (by unfold fitsT at h; exact h) hk]; rfl
      | varDef =>
        rw [decls_varDef]
        unfold fitsT at h
        rw [Bool.and_eq_true] at h
        have h := h.2
        cases deep with
        | true =>
          simp only [if_true, Bool.and_eq_true] at h
          rw [key h.2 (.inr rfl)]; rfl
        | false =>
          simp only [Bool.false_eq_true, if_false, Bool.and_eq_true] at h
          have hk : K.self.isSome = true := by simpa using hk
          rw [key h.2 (.inl (by rw [CScope.addObj_same.2.2]; exact hk))]; rfl
      | assign => refine (decls_plain (by exact trivial)).trans ?_; unfold fitsT at h; simp only [Bool.and_eq_true] at h; rw [key h.2 hk]; rfl
      | ret => refine (decls_plain (by exact trivial)).trans ?_; rw [key (by unfold fitsT at h; exact h) hk]; rfl
      | retValue => refine (decls_plain (by exact trivial)).trans ?_; unfold fitsT at h; simp only [Bool.and_eq_true] at h; rw [key h.2 hk]; rfl
      | call _ hl => refine (decls_plain (by exact trivial)).trans ?_; unfold fitsT at h; simp only [Bool.and_eq_true] at h; rw [key h.2 hk, decls_leaf hl]; rfl
      | ifs => refine (decls_plain (by exact trivial)).trans ?_; unfold fitsT at h; simp only [Bool.and_eq_true] at h; rw [key h.2 hk, kc h.1.2]; rfl
      | elifs => refine (decls_plain (by exact trivial)).trans ?_; unfold fitsT at h; simp only [Bool.and_eq_true] at h; rw [key h.2 hk, kc h.1.2]; rfl
      | whiles => refine (decls_plain (by exact trivial)).trans ?_; unfold fitsT at h; simp only [Bool.and_eq_true] at h; rw [key h.2 hk, kc h.1.2]; rfl
      | elses => refine (decls_plain (by exact trivial)).trans ?_; unfold fitsT at h; simp only [Bool.and_eq_true] at h; rw [key h.2 hk, kc h.1]; rfl
      | breaks => refine (decls_plain (by exact trivial)).trans ?_; rw [key (by unfold fitsT at h; exact h) hk]; rfl
      | continues => refine (decls_plain (by exact trivial)).trans ?_; rw [key (by unfold fitsT at h; exact h) hk]; rfl
      | unreachable => refine (decls_plain (by exact trivial)).trans ?_; rw [key (by unfold fitsT at h; exact h) hk]; rfl
      | ns => unfold fitsT at h; cases h
      | func =>
        unfold fitsT at h
        simp only [Bool.and_eq_true] at h
        have h1 := h.1.1.1.1
        rcases hk with hk | hk
        · rw [Option.isSome_iff_ne_none] at hk
          exact absurd (by simpa using h1.1) hk
        · rw [hk] at h1; cases h1.2
      | other ho =>
        have : fitsT F c.syms (decls c.prog) K deep next = true := by
          rcases ho with rfl | rfl | rfl | rfl <;> (unfold fitsT at h; exact h)
        refine (decls_plain (by exact trivial)).trans ?_; rw [key this hk]; rfl

/- ### A program that fits is good -/

theorem simple_expr {K : CScope} {cx s} (hx : ∀ vis, Vis c K vis → scopedX vis cx = true) (hs : s = .expr cx ∨ s = .ret (some cx)) :
    ∀ vis block next, Vis c K vis → scopedS vis block next = true → scopedS vis block (.simple s next) = true := by
  intro vis block next hv hn
  rcases hs with rfl | rfl <;> (unfold scopedS; simp only [hx vis hv, hn, Bool.and_self])

theorem simple_other {K : CScope} {s} (hs : s = .skip ∨ s = .ret none ∨ s = .breaks ∨ s = .continues) :
    ∀ vis block next, Vis c K vis → scopedS vis block next = true → scopedS vis block (.simple s next) = true := by
  intro vis block next hv hn
  rcases hs with rfl | rfl | rfl | rfl <;> (unfold scopedS; exact hn)

theorem simple_assign {K : CScope} {cx id sym} (hs : c.syms[id]? = some sym) (hr : resolves c.syms K id = true)
    (hx : ∀ vis, Vis c K vis → scopedX vis cx = true) :
    ∀ vis block next, Vis c K vis → scopedS vis block next = true → scopedS vis block (.simple (.assign sym.name cx) next) = true := by
  intro vis block next hv hn
  have h1 := resolves_vis hr hv
  rw [nameOf_eq hs] at h1
  unfold scopedS
  simp only [hx vis hv, hn, h1, decide_true, Bool.and_self]

/-- In a program that fits. -/
structure FitOk (c : RunCtx ω) (d : CRunCtx ω) (fmtA : Nat → List Char) (F : Floats) (K : CScope) (deep : Bool) (lvl : Nat) (t : ATree) : Prop where
  fits : fitsT F c.syms (decls c.prog) K deep t = true
  wt : ∃ loop before, WtTree c.syms loop before t
  texts : ∀ e ∈ t.exprs, FloatTexts fmtA ⟨fun _ => none, F, d.dbl⟩ e
  lvl : 1 ≤ lvl ∧ (deep = true ↔ lvl ≠ 1)
  decl : K.self = none → deep = false → ∃ pre, decls c.prog = pre ++ decls t ∧ pre.length = K.count

theorem good_deep {K deep t o ss its} (h : Good c d fmtA F K deep t o ss its) : deep = true → its = [] := by
  induction h <;> intro hd <;> first | rfl | (cases hd; done) | (rename_i ih; exact ih hd)

theorem good_of : ∀ t : ATree,
    (∀ {K deep lvl ss its}, CForm c.syms fmtA lvl t ss its → FitOk c d fmtA F K deep lvl t → Good c d fmtA F K deep t none ss its) ∧
    (∀ {K deep lvl els ss its}, CFormElse c.syms fmtA lvl t els ss its → FitOk c d fmtA F K deep lvl t → Good c d fmtA F K deep t (some els) ss its) := by
  intro t
  induction t with
  | nil =>
    have h1 : ∀ {K deep lvl ss its}, CForm c.syms fmtA lvl .nil ss its → FitOk c d fmtA F K deep lvl .nil → Good c d fmtA F K deep .nil none ss its := by
      intro K deep lvl ss its h _
      cases h
      exact .nil
    exact ⟨h1, fun h hk => by cases h with | none h => exact .noElse (h1 h hk)⟩
  | unchecked u =>
    have h1 : ∀ {K deep lvl ss its}, CForm c.syms fmtA lvl (.unchecked u) ss its → FitOk c d fmtA F K deep lvl (.unchecked u) → Good c d fmtA F K deep (.unchecked u) none ss its := by
      intro K deep lvl ss its h _
      cases h
    exact ⟨h1, fun h hk => by cases h with | none h => exact .noElse (h1 h hk)⟩
  | node ann stmt tok child next ihc ihn =>
    have mk : ∀ {K deep lvl loop before K'} , FitOk c d fmtA F K deep lvl (.node ann stmt tok child next) → WtTree c.syms loop before next →
        fitsT F c.syms (decls c.prog) K' deep next = true →
        (K'.self = none → deep = false → ∃ pre, decls c.prog = pre ++ decls next ∧ pre.length = K'.count) → FitOk c d fmtA F K' deep lvl next :=
      fun h hw hf hd => ⟨hf, ⟨_, _, hw⟩, (texts_node h.texts).2.2, h.lvl, hd⟩
    have mkc : ∀ {K deep lvl loop before} , FitOk c d fmtA F K deep lvl (.node ann stmt tok child next) → WtTree c.syms loop before child →
        fitsT F c.syms (decls c.prog) K.inner true child = true → FitOk c d fmtA F K.inner true (lvl + 1) child :=
      fun h hw hf => ⟨hf, ⟨_, _, hw⟩, (texts_node h.texts).2.1, ⟨by omega, by have := h.lvl; simp; omega⟩, fun _ h => by cases h⟩
    have same : ∀ {K deep lvl}, FitOk c d fmtA F K deep lvl (.node ann stmt tok child next) → PlainAnn ann → decls child = [] →
        (K.self = none → deep = false → ∃ pre, decls c.prog = pre ++ decls next ∧ pre.length = K.count) := by
      intro K deep lvl h hp hc h1 h2
      obtain ⟨pre, h3, h4⟩ := h.decl h1 h2
      rw [decls_plain hp, hc] at h3
      exact ⟨pre, h3, h4⟩
    have h1 : ∀ {K deep lvl ss its}, CForm c.syms fmtA lvl (.node ann stmt tok child next) ss its →
        FitOk c d fmtA F K deep lvl (.node ann stmt tok child next) → Good c d fmtA F K deep (.node ann stmt tok child next) none ss its := by
      intro K deep lvl ss its h hk
      obtain ⟨loop, before, hw⟩ := hk.wt
      have hfit := hk.fits
      cases h with
      | silent hst hn =>
        cases hw with
        | node w wc wn =>
          have hf : fitsT F c.syms (decls c.prog) K deep next = true := by
            rcases hst with rfl | rfl | rfl <;> (unfold fitsT at hfit; exact hfit)
          have hl : child = .nil ∧ ann = .none := by
            rcases hst with rfl | rfl | rfl <;> (cases w; exact ⟨rfl, rfl⟩)
          obtain ⟨rfl, rfl⟩ := hl
          exact .same trivial (.inl rfl) (ihn.1 hn (mk hk wn hf (same hk trivial rfl)))
      | alias hn =>
        cases hw with
        | node w wc wn =>
          cases w with
          | alias =>
            unfold fitsT at hfit
            exact .same trivial (.inl rfl) (ihn.1 hn (mk hk wn hfit (same hk trivial rfl)))
          | other h => simp at h
      | @known id e _ _ _ _ sym v cx _ its hs hkind hce hrd hn =>
        cases hw with
        | node w wc wn =>
          cases w with
          | varDef w1 w2 w3 w4 w5 w6 w7 w8 w9 w10 =>
            rw [hs] at w1
            cases w1
            rw [hkind] at w2
            cases w2
            have hdeep : deep = false := by cases deep with | false => rfl | true => exact absurd rfl (hk.lvl.2.1 rfl)
            subst hdeep
            unfold fitsT at hfit
            simp only [Bool.false_eq_true, if_false, Bool.and_eq_true] at hfit
            obtain ⟨⟨hfe, _⟩, ⟨hfo, _⟩, hfn⟩ := hfit
            unfold fitsObj at hfo
            rw [hce] at hfo
            simp only [Bool.not_true, Bool.false_or, Bool.and_eq_true, Bool.not_eq_true'] at hfo
            obtain ⟨⟨⟨⟨⟨⟨f1, f2⟩, f3⟩, f4⟩, f5⟩, f6⟩, _⟩ := hfo
            refine .known ⟨hs, hkind, by rw [w8], w7⟩ hce ⟨hrd, w9, (texts_node hk.texts).1 e rfl, f1, f2, f3, f4, f5, f6⟩ (ihn.1 hn (mk hk wn hfn ?_))
            intro h1 h2
            rw [CScope.addObj_same.2.2] at h1
            obtain ⟨pre, h3, h4⟩ := hk.decl h1 h2
            rw [decls_varDef] at h3
            exact ⟨pre, h3, by rw [CScope.addObj_same.2.1]; exact h4⟩
      | @unknown id e _ _ _ _ sym v cx _ its hs hkind hce hrd hn =>
        cases hw with
        | node w wc wn =>
          cases w with
          | varDef w1 w2 w3 w4 w5 w6 w7 w8 w9 w10 =>
            rw [hs] at w1
            cases w1
            rw [hkind] at w2
            cases w2
            have hdeep : deep = false := by cases deep with | false => rfl | true => exact absurd rfl (hk.lvl.2.1 rfl)
            subst hdeep
            unfold fitsT at hfit
            simp only [Bool.false_eq_true, if_false, Bool.and_eq_true] at hfit
            obtain ⟨⟨hfe, _⟩, ⟨hfo, _⟩, hfn⟩ := hfit
            refine .unknown ⟨hs, hkind, by rw [w8], w7⟩ hce (scopedX_of hrd hfe) (ihn.1 hn (mk hk wn hfn ?_))
            intro h1 h2
            rw [CScope.addObj_same.2.2] at h1
            obtain ⟨pre, h3, h4⟩ := hk.decl h1 h2
            rw [decls_varDef] at h3
            exact ⟨pre, h3, by rw [CScope.addObj_same.2.1]; exact h4⟩
      | @loc _ id e _ _ _ _ sym v cx _ its hd hs hkind hrd hn =>
        cases hw with
        | node w wc wn =>
          cases w with
          | varDef =>
            have hdeep : deep = true := hk.lvl.2.2 hd
            subst hdeep
            unfold fitsT at hfit
            simp only [if_true, Bool.and_eq_true] at hfit
            obtain ⟨⟨hfe, _⟩, ⟨hfa, _⟩, hfn⟩ := hfit
            unfold fitsAuto at hfa
            simp only [Bool.and_eq_true, List.all_eq_true, decide_eq_true_eq] at hfa
            exact .loc hs (scopedX_of hrd hfe) hfa.2 (ihn.1 hn (mk hk wn hfn fun _ h => by cases h))
      | assign hs hrd hn =>
        cases hw with
        | node w wc wn =>
          cases w
          unfold fitsT at hfit
          simp only [Bool.and_eq_true] at hfit
          exact .simple trivial (.inl rfl) (simple_assign hs hfit.1.2 (scopedX_of hrd hfit.1.1.1)) (ihn.1 hn (mk hk wn hfit.2 (same hk trivial rfl)))
      | ret hn =>
        cases hw with
        | node w wc wn =>
          cases w with
          | ret =>
            unfold fitsT at hfit
            exact .simple trivial (.inl rfl) (simple_other (.inr (.inl rfl))) (ihn.1 hn (mk hk wn hfit (same hk trivial rfl)))
          | other h => simp at h
      | retValue hrd hn =>
        cases hw with
        | node w wc wn =>
          cases w
          unfold fitsT at hfit
          simp only [Bool.and_eq_true] at hfit
          exact .simple trivial (.inl rfl) (simple_expr (scopedX_of hrd hfit.1.1.1) (.inr rfl)) (ihn.1 hn (mk hk wn hfit.2 (same hk trivial rfl)))
      | expr hrd hn =>
        cases hw with
        | node w wc wn =>
          cases w with
          | call _ hl =>
            unfold fitsT at hfit
            simp only [Bool.and_eq_true] at hfit
            exact .simple trivial hl (simple_expr (scopedX_of hrd hfit.1) (.inl rfl)) (ihn.1 hn (mk hk wn hfit.2 (same hk trivial (decls_leaf hl))))
      | noop hn =>
        cases hw with
        | node w wc wn =>
          cases w
          unfold fitsT at hfit
          exact .simple trivial (.inl rfl) (simple_other (.inl rfl)) (ihn.1 hn (mk hk wn hfit (same hk trivial rfl)))
      | breaks hn =>
        cases hw with
        | node w wc wn =>
          cases w with
          | breaks =>
            unfold fitsT at hfit
            exact .simple trivial (.inl rfl) (simple_other (.inr (.inr (.inl rfl)))) (ihn.1 hn (mk hk wn hfit (same hk trivial rfl)))
          | other h => simp at h
      | continues hn =>
        cases hw with
        | node w wc wn =>
          cases w with
          | continues =>
            unfold fitsT at hfit
            exact .simple trivial (.inl rfl) (simple_other (.inr (.inr (.inr rfl)))) (ihn.1 hn (mk hk wn hfit (same hk trivial rfl)))
          | other h => simp at h
      | @ifs _ a e cx _ _ _ body els ss bi ni hrd hc hn =>
        cases hw with
        | node w wc wn =>
          cases w
          unfold fitsT at hfit
          simp only [Bool.and_eq_true] at hfit
          have hgc := ihc.1 hc (mkc hk wc hfit.1.2)
          have hb := good_deep hgc rfl
          subst hb
          exact .ifs trivial (scopedX_of hrd hfit.1.1) hgc (ihn.2 hn (mk hk wn hfit.2 (same hk trivial (fits_decls hfit.1.2 wc (.inr rfl)))))
      | @whiles _ a e cx _ _ _ body ss bi ni hrd hc hn =>
        cases hw with
        | node w wc wn =>
          cases w
          unfold fitsT at hfit
          simp only [Bool.and_eq_true] at hfit
          have hgc := ihc.1 hc (mkc hk wc hfit.1.2)
          have hb := good_deep hgc rfl
          subst hb
          exact .whiles trivial (scopedX_of hrd hfit.1.1) hgc (ihn.1 hn (mk hk wn hfit.2 (same hk trivial (fits_decls hfit.1.2 wc (.inr rfl)))))
      | unreachable hn =>
        cases hw with
        | node w wc wn =>
          cases w with
          | unreachable =>
            unfold fitsT at hfit
            exact .spin trivial (.inl rfl) (ihn.1 hn (mk hk wn hfit (same hk trivial rfl)))
          | other h => simp at h
      | ns =>
        cases hw with
        | node w wc wn => cases w; unfold fitsT at hfit; cases hfit
      | @external _ id ps sym f cps _ _ _ _ ss its hs hkind hext hps hn =>
        cases hw with
        | node w wc wn =>
          cases w with
          | @func p _ sym' f' _ _ _ w1 w2 w3 w4 w5 w6 w7 w8 w9 =>
            rw [hs] at w1
            cases w1
            rw [hkind] at w2
            cases w2
            have hp : p.isExternal = true := by rw [← w3]; exact hext
            unfold fitsT at hfit
            simp only [hp, if_true, Bool.and_eq_true, List.all_eq_true, decide_eq_true_eq] at hfit
            obtain ⟨⟨⟨⟨⟨f1, f2⟩, f3⟩, f4⟩, f5⟩, f6⟩ := hfit
            have hself : K.self = none := by simpa using f1
            have hdeep : deep = false := by simpa using f2
            subst hdeep
            unfold fitsExtern at f5
            rw [hs] at f5
            simp only [hkind, Bool.and_eq_true, Bool.not_eq_true', decide_eq_true_eq] at f5
            obtain ⟨pre, h3, h4⟩ := hk.decl hself rfl
            have e : decls (ATree.node (.func id ps) (.funcProto p) tok child next) = (id, ps, child) :: decls next := by
              simp only [decls, hp, if_true, List.nil_append]
            rw [e] at h3
            have hd : (decls c.prog)[K.count]? = some (id, ps, child) := by rw [h3, ← h4]; simp
            unfold linkOf
            rw [f5.1]
            refine .external ⟨hs, hkind, hself, hps, w8, by omega, w9, f3, f4, hd⟩ hext hp f5.2 (ihn.1 hn (mk hk wn f6 fun _ _ => ?_))
            exact ⟨pre ++ [(id, ps, child)], by rw [h3]; simp, by simp [h4]⟩
      | @func _ id ps sym f cps _ _ _ _ body ss bi ni hs hkind hext hps hc hn =>
        cases hw with
        | node w wc wn =>
          cases w with
          | @func p _ sym' f' _ _ _ w1 w2 w3 w4 w5 w6 w7 w8 w9 =>
            rw [hs] at w1
            cases w1
            rw [hkind] at w2
            cases w2
            have hp : p.isExternal = false := by rw [← w3]; exact hext
            unfold fitsT at hfit
            simp only [hp, Bool.false_eq_true, if_false, Bool.and_eq_true, List.all_eq_true, decide_eq_true_eq] at hfit
            obtain ⟨⟨⟨⟨⟨f1, f2⟩, f3⟩, f4⟩, f5⟩, f6⟩ := hfit
            have hself : K.self = none := by simpa using f1
            have hdeep : deep = false := by simpa using f2
            subst hdeep
            have hcd : decls child = [] := fits_decls f5 wc (.inl rfl)
            obtain ⟨pre, h3, h4⟩ := hk.decl hself rfl
            have e : decls (ATree.node (.func id ps) (.funcProto p) tok child next) = (id, ps, child) :: decls next := by
              simp only [decls, hp, Bool.false_eq_true, if_false, hcd, List.nil_append]
            rw [e] at h3
            have hd : (decls c.prog)[K.count]? = some (id, ps, child) := by rw [h3, ← h4]; simp
            have hgc : Good c d fmtA F (K.enter c.syms id ps) false child none body bi :=
              ihc.1 hc ⟨f5, ⟨_, _, wc⟩, (texts_node hk.texts).2.1, by simp, fun h => by cases h⟩
            refine .func ⟨hs, hkind, hself, hps, w8, by omega, w9, f3, f4, hd⟩ hext hp ⟨_, rfl⟩ hc f5 wc (texts_node hk.texts).2.1 hgc
              (ihn.1 hn (mk hk wn f6 fun _ _ => ?_))
            exact ⟨pre ++ [(id, ps, child)], by rw [h3]; simp, by simp [h4]⟩
    refine ⟨h1, ?_⟩
    intro K deep lvl els ss its h hk
    obtain ⟨loop, before, hw⟩ := hk.wt
    have hfit := hk.fits
    cases h with
    | none h => exact .noElse (h1 h hk)
    | comment hn =>
      cases hw with
      | node w wc wn =>
        cases w
        unfold fitsT at hfit
        exact .comment trivial (.inl rfl) (ihn.2 hn (mk hk wn hfit (same hk trivial rfl)))
    | @els _ _ _ _ _ body ss bi ni hc hn =>
      cases hw with
      | node w wc wn =>
        cases w with
        | elses =>
          unfold fitsT at hfit
          simp only [Bool.and_eq_true] at hfit
          have hgc := ihc.1 hc (mkc hk wc hfit.1)
          have hb := good_deep hgc rfl
          subst hb
          exact .els trivial hgc (ihn.1 hn (mk hk wn hfit.2 (same hk trivial (fits_decls hfit.1 wc (.inr rfl)))))
        | other h => simp at h
    | @elif _ a e cx _ _ _ body els ss bi ni hrd hc hn =>
      cases hw with
      | node w wc wn =>
        cases w
        unfold fitsT at hfit
        simp only [Bool.and_eq_true] at hfit
        have hgc := ihc.1 hc (mkc hk wc hfit.1.2)
        have hb := good_deep hgc rfl
        subst hb
        exact .elif trivial (scopedX_of hrd hfit.1.1) hgc (ihn.2 hn (mk hk wn hfit.2 (same hk trivial (fits_decls hfit.1.2 wc (.inr rfl)))))

end

end Skull.CSim
