import Verif.Proofs.SemSound
import Verif.Proofs.SemEnv
import Verif.Proofs.CheckedTree
import Verif.Spec.Declared
/-
The check leaves names only to declarations that are before them and in blocks around them.
-/
namespace Skull
open Spec

/- ### What names lead to -/

/-- The declaration is visible, or in a namespace that can be reached. -/
inductive Reachable (D : List Decl) (vis : List (List Char × Nat)) : Nat → Prop
  | vis {p : List Char × Nat} : p ∈ vis → Reachable D vis p.2
  | member {i ms} {p : List Char × Nat} : Reachable D vis i → D[i]? = some (.ns ms) → p ∈ ms → Reachable D vis p.2

/-- A variable or a function. -/
def isEntityDecl : Decl → Prop
  | .var .. | .func .. => True
  | _ => False

/-- The declarations of variables and functions that can be reached are among these. -/
def InDs (E : Env) (ds : List Nat) : Prop :=
  ∀ i d, Reachable E.decls E.vis i → E.decls[i]? = some d → isEntityDecl d → i ∈ ds

/-- A variable or function that can be reached. -/
def Used (E : Env) (i : Nat) : Prop := Reachable E.decls E.vis i ∧ ∃ d, E.decls[i]? = some d ∧ isEntityDecl d

theorem Used.mem {E ds i} (h : Used E i) (hd : InDs E ds) : i ∈ ds := by
  obtain ⟨h1, d, h2, h3⟩ := h
  exact hd i d h1 h2 h3

theorem InDs.mono {E ds ds'} (h : InDs E ds) (hs : ∀ i ∈ ds, i ∈ ds') : InDs E ds' := fun i d h1 h2 h3 => hs i (h i d h1 h2 h3)

theorem follow_reach {D : List Decl} {vis₀ : List (List Char × Nat)} : ∀ (p : List (List Char)) (vis : List (List Char × Nat)) (i : Nat),
    (∀ q ∈ vis, Reachable D vis₀ q.2) → follow D vis p = some i → Reachable D vis₀ i
  | [], _, _, _, h => by simp [follow] at h
  | [x], vis, i, hv, h => by
    simp only [follow] at h
    obtain ⟨q, h1, _, rfl⟩ := follow_ext.lookup_mem h
    exact hv q h1
  | x :: y :: more, vis, i, hv, h => by
    simp only [follow] at h
    split at h
    · rename_i ms hms
      cases hx : vis.lookup x with
      | none => rw [hx] at hms; cases hms
      | some j =>
        rw [hx] at hms
        obtain ⟨q, h1, _, rfl⟩ := follow_ext.lookup_mem hx
        exact follow_reach _ _ _ (fun q' hq' => .member (hv q h1) hms hq') h
    · cases h

theorem used_of_resolve {E : Env} {x i d} (h : E.resolve x = some i) (hd : E.decl x = some d) (he : isEntityDecl d) : Used E i := by
  refine ⟨follow_reach _ _ _ (fun q hq => .vis hq) h, d, ?_, he⟩
  simpa [Env.decl, h] using hd

/-- More declarations do not make more reachable. -/
theorem reachable_ext {E : Env} {D' : List Decl} (hw : E.WF) (hl : E.decls.length ≤ D'.length)
    (hs : ∀ i, i < E.decls.length → D'[i]? = E.decls[i]?) {i} (h : Reachable D' E.vis i) : Reachable E.decls E.vis i ∧ i < E.decls.length := by
  induction h with
  | vis h => exact ⟨.vis h, hw.vis _ h⟩
  | member _ h2 h3 ih =>
    rw [hs _ ih.2] at h2
    exact ⟨.member ih.1 h2 h3, hw.members _ _ h2 _ h3⟩

theorem InDs.leave {E E₁ : Env} {ds} (hw : E.WF) (hx : E.Ext E₁) (h : InDs E ds) : InDs ⟨E.vis, E₁.decls⟩ ds := by
  intro i d h1 h2 h3
  obtain ⟨h4, h5⟩ := reachable_ext hw hx.len hx.same h1
  rw [show (⟨E.vis, E₁.decls⟩ : Env).decls = E₁.decls from rfl, hx.same i h5] at h2
  exact h i d h4 h2 h3

theorem InDs.add {E : Env} {x d ds ds'} (hw : E.WF) (hd : ∀ ms, d = .ns ms → ms = []) (h : InDs E ds) (hs : ∀ i ∈ ds, i ∈ ds')
    (hn : isEntityDecl d → E.decls.length ∈ ds') : InDs (E.add x d) ds' := by
  have key : ∀ i, Reachable (E.add x d).decls (E.add x d).vis i → i = E.decls.length ∨ (Reachable E.decls E.vis i ∧ i < E.decls.length) := by
    intro i hi
    induction hi with
    | vis h =>
      rcases List.mem_cons.1 h with rfl | h
      · exact .inl rfl
      · exact .inr ⟨.vis h, hw.vis _ h⟩
    | member _ h2 h3 ih =>
      rcases ih with rfl | ⟨ih, hl⟩
      · simp only [Env.add] at h2
        rw [List.getElem?_append_right (Nat.le_refl _)] at h2
        simp at h2
        rw [hd _ h2] at h3
        cases h3
      · simp only [Env.add] at h2
        rw [List.getElem?_append_left hl] at h2
        exact .inr ⟨.member ih h2 h3, hw.members _ _ h2 _ h3⟩
  intro i d' h1 h2 h3
  rcases key i h1 with rfl | ⟨h4, h5⟩
  · simp only [Env.add] at h2
    rw [List.getElem?_append_right (Nat.le_refl _)] at h2
    simp at h2
    subst h2
    exact hn h3
  · simp only [Env.add] at h2
    rw [List.getElem?_append_left h5] at h2
    exact hs i (h i d' h4 h2 h3)

/-- A namespace that has ended makes no more reachable than was so at its end. -/
theorem InDs.ns {E E₁ : Env} {n ds} (hx : EnvGrows (E.add n (.ns [])) E₁) (h : InDs E₁ ds) :
    InDs ⟨(n, E.decls.length) :: E.vis, E₁.decls.set E.decls.length (.ns E₁.vis)⟩ ds := by
  have hl : E.decls.length < E₁.decls.length := by
    have := hx.ext.len
    simp [Env.add] at this
    omega
  have key : ∀ i, Reachable (E₁.decls.set E.decls.length (.ns E₁.vis)) ((n, E.decls.length) :: E.vis) i → Reachable E₁.decls E₁.vis i := by
    intro i hi
    obtain ⟨added, ha⟩ := hx.vis
    induction hi with
    | vis h =>
      refine .vis ?_
      rw [ha]
      exact List.mem_append_right _ h
    | @member j ms p _ h2 h3 ih =>
      by_cases hj : j = E.decls.length
      · subst hj
        rw [List.getElem?_set_self hl] at h2
        cases h2
        exact .vis h3
      · rw [List.getElem?_set_ne (fun h => hj h.symm)] at h2
        exact .member ih h2 h3
  intro i d h1 h2 h3
  by_cases hj : i = E.decls.length
  · subst hj
    simp only at h2
    rw [List.getElem?_set_self hl] at h2
    cases h2
    exact h3.elim
  · simp only at h2
    rw [List.getElem?_set_ne (fun h => hj h.symm)] at h2
    exact h i d (key i h1) h2 h3

theorem SInv.wf {s B E pend} (hi : SInv s B E pend) : E.WF := ⟨hi.ids, hi.closed⟩

/- ### Expressions -/

/-- When the step goes on it changes nothing. -/
def Still (m : Chk α) : Prop := ∀ s a s', m s = .ok a s' → s' = s

theorem Still.pure (a : α) : Still (Pure.pure a : Chk α) := by intro s b s' h; cases h; rfl
theorem Still.ub : Still (Chk.ub : Chk α) := by intro s b s' h; cases h
theorem Still.stop : Still (Chk.stop : Chk α) := by intro s b s' h; cases h
theorem Still.error (c : Code) (t : Option Token) : Still (Chk.error c t : Chk α) := by intro s b s' h; cases h
theorem Still.bind {m : Chk α} {f : α → Chk β} (hm : Still m) (hf : ∀ a, Still (f a)) : Still (m >>= f) := by
  intro s b s' h
  replace h := bind_ok.1 h
  obtain ⟨a, s₁, h1, h2⟩ := h
  rw [hf _ _ _ _ h2, hm _ _ _ h1]
theorem Still.ite {c : Prop} [Decidable c] {m m' : Chk α} (h : Still m) (h' : Still m') : Still (if c then m else m') := by
  split
  · exact h
  · exact h'

theorem evalLit_still {t : Token} (e : Ev α) : Still (evalLit t e) := by
  cases e <;> first | exact .pure _ | exact .error _ _ | exact .ub

theorem validateConst_still (cfg : Cfg) (t : Token) : Still (validateConst cfg t) := by
  unfold validateConst
  split
  · exact .bind (evalLit_still _) fun _ => .pure _
  · exact .bind (evalLit_still _) fun _ => .pure _
  · exact .pure _
  · exact .bind (evalLit_still _) fun _ => .pure _
  · exact .bind (evalLit_still _) fun _ => .ite (.pure _) (.error _ _)
  · exact .stop

theorem isNumeric_still (r : AExpr) (t : Token) : Still (isNumeric r t) := .ite (.pure _) (.error _ _)

theorem validateRestrictions_still (o : Oper) (r : AExpr) (t : Token) : Still (validateRestrictions o r t) := by
  unfold validateRestrictions
  split <;> first
    | exact isNumeric_still _ _
    | exact .ite (.error _ _) (.pure _)
    | exact .pure _
    | skip
  · refine .bind ?_ fun _ => isNumeric_still _ _
    unfold notDivByZero
    split
    · refine .ite ?_ (.pure _)
      split
      · exact .ite (.error _ _) (.pure _)
      · exact .ub
      · exact .pure _
    · exact .pure _
  · refine .bind ?_ fun _ => isNumeric_still _ _
    unfold notDivByZero
    split
    · refine .ite ?_ (.pure _)
      split
      · exact .ite (.error _ _) (.pure _)
      · exact .ub
      · exact .pure _
    · exact .pure _
  · exact .bind (.ite (.error _ _) (.pure _)) fun _ => isNumeric_still _ _
  · split
    · exact .pure _
    · exact .error _ _

theorem exprType_still (o : Oper) (ty : Ty) : Still (exprType o ty) := by
  unfold exprType
  split <;> first | exact .pure _ | skip
  split
  · exact .pure _
  · exact .ub

theorem checkCount_still (f : Func) (t : Token) (ps : Args) (n : Nat) : Still (checkCount f t ps n) := by
  refine .ite (.error _ _) ?_
  split
  · exact .ite (.error _ _) (.pure _)
  · exact .pure _

mutual

theorem expr_used {cfg : Cfg} {B E} : ∀ (e : Expr) (s : SS) (a : AExpr) (s' : SS),
    validateExpr cfg e s = .ok a s' → SInv s B E none → Quiet s s' ∧ ∀ id, a.reads id = true ∨ a.calls id = true → Used E id
  | .missing, s, a, s', h, _ => by simp [validateExpr, Chk.ub] at h
  | .ident t, s, a, s', h, hi => by
    simp only [validateExpr] at h
    replace h := bind_ok.1 h
    obtain ⟨⟨id, v⟩, s₁, h1, h⟩ := h
    have h1 := scopeFindVar_sound hi h1
    obtain ⟨rfl, x, sym, h2, h3, h4, h5, h6⟩ := h1
    simp only at h
    obtain ⟨s₂, h7, h8⟩ := updVar_flag (f := fun v => { v with wasRead := true }) h5 (fun v => rfl)
    rw [bind_of _ h7] at h
    cases h
    refine ⟨h8, ?_⟩
    intro id' hu
    simp [AExpr.reads, AExpr.calls] at hu
    subst hu
    exact used_of_resolve h3 h4 trivial
  | .const t, s, a, s', h, _ => by
    simp only [validateExpr] at h
    replace h := bind_ok.1 h
    obtain ⟨v, s₁, h1, h⟩ := h
    cases h
    obtain rfl := validateConst_still _ _ _ _ _ h1
    refine ⟨.refl _, ?_⟩
    intro id' hu
    simp [AExpr.reads, AExpr.calls] at hu
  | .call n params num, s, a, s', h, hi => by
    simp only [validateExpr] at h
    replace h := bind_ok.1 h
    obtain ⟨id, s₁, h1, h⟩ := h
    have h1 := findFunc_sound hi h1
    obtain ⟨rfl, x, sym, f, ps, h2, h3, h4, h5, h6, h7, h8⟩ := h1
    rw [bind_of _ (funcAt_eq h5 h6)] at h
    obtain ⟨s₂, h9, h10⟩ := updFunc_flag (f := fun f => { f with wasCalled := true }) h5 (fun v => rfl)
    rw [bind_of _ h9] at h
    replace h := bind_ok_unit.1 h
    obtain ⟨s₃, h11, h⟩ := h
    obtain rfl := checkCount_still _ _ _ _ _ _ _ h11
    replace h := bind_ok.1 h
    obtain ⟨as, s₄, h12, h⟩ := h
    cases h
    obtain ⟨q, hu'⟩ := args_used params _ _ _ _ h12 (hi.quiet h10)
    refine ⟨h10.trans q, ?_⟩
    intro id' hu
    simp [AExpr.reads, AExpr.calls] at hu
    rcases hu with hu | rfl | hu
    · exact hu' _ (.inl hu)
    · exact used_of_resolve h3 h4 trivial
    · exact hu' _ (.inr hu)
  | .un o e, s, a, s', h, hi => by
    simp only [validateExpr] at h
    replace h := bind_ok_unit.1 h
    obtain ⟨s₀, h0, h⟩ := h
    rw [operFits_ok] at h0
    obtain ⟨h0, rfl⟩ := h0
    replace h := bind_ok.1 h
    obtain ⟨r, s₁, h1, h⟩ := h
    obtain ⟨q, hu'⟩ := expr_used e _ _ _ h1 hi
    replace h := bind_ok_unit.1 h
    obtain ⟨s₂, h2, h⟩ := h
    replace h := bind_ok.1 h
    obtain ⟨ty, s₃, h3, h⟩ := h
    cases h
    obtain rfl := validateRestrictions_still _ _ _ _ _ _ h2
    obtain rfl := exprType_still _ _ _ _ _ h3
    exact ⟨q, fun id' hu => hu' id' (by simpa [AExpr.reads, AExpr.calls] using hu)⟩
  | .bin o l r, s, a, s', h, hi => by
    simp only [validateExpr] at h
    replace h := bind_ok_unit.1 h
    obtain ⟨s₀, h0, h⟩ := h
    rw [operFits_ok] at h0
    obtain ⟨h0, rfl⟩ := h0
    replace h := bind_ok.1 h
    obtain ⟨ra, s₁, h1, h⟩ := h
    obtain ⟨q1, u1⟩ := expr_used r _ _ _ h1 hi
    replace h := bind_ok.1 h
    obtain ⟨la, s₂, h2, h⟩ := h
    obtain ⟨q2, u2⟩ := expr_used l _ _ _ h2 (hi.quiet q1)
    replace h := bind_ok_unit.1 h
    obtain ⟨s₃, h3, h⟩ := h
    rw [sameTypes_ok] at h3
    obtain ⟨h3, rfl⟩ := h3
    replace h := bind_ok_unit.1 h
    obtain ⟨s₄, h4, h⟩ := h
    replace h := bind_ok.1 h
    obtain ⟨ty, s₅, h5, h⟩ := h
    cases h
    obtain rfl := validateRestrictions_still _ _ _ _ _ _ h4
    obtain rfl := exprType_still _ _ _ _ _ h5
    refine ⟨q1.trans q2, fun id' hu => ?_⟩
    simp [AExpr.reads, AExpr.calls] at hu
    rcases hu with (hu | hu) | (hu | hu)
    · exact u2 _ (.inl hu)
    · exact u1 _ (.inl hu)
    · exact u2 _ (.inr hu)
    · exact u1 _ (.inr hu)

theorem args_used {cfg : Cfg} {B E} : ∀ (args : Args) (ps : List Ty) (s : SS) (as : AArgs)
    (s' : SS), validateArgs cfg ps args s = .ok as s' → SInv s B E none →
      Quiet s s' ∧ ∀ id, as.reads id = true ∨ as.calls id = true → Used E id
  | .nil, [], s, as, s', h, _ => by
    simp only [validateArgs] at h
    cases h
    exact ⟨.refl _, fun id hu => by simp [AArgs.reads, AArgs.calls] at hu⟩
  | .nil, p :: ps, s, as, s', h, _ => by simp [validateArgs, Chk.ub] at h
  | .cons first e next, [], s, as, s', h, _ => by
    simp only [validateArgs] at h
    cases h
    exact ⟨.refl _, fun id hu => by simp [AArgs.reads, AArgs.calls] at hu⟩
  | .cons first e next, ty :: tys, s, as, s', h, hi => by
    simp only [validateArgs] at h
    replace h := bind_ok.1 h
    obtain ⟨a, s₁, h1, h⟩ := h
    obtain ⟨q1, u1⟩ := expr_used e _ _ _ h1 hi
    split at h
    · cases h
    · replace h := bind_ok.1 h
      obtain ⟨rest, s₂, h2, h⟩ := h
      cases h
      obtain ⟨q2, u2⟩ := args_used next tys _ _ _ h2 (hi.quiet q1)
      refine ⟨q1.trans q2, fun id' hu => ?_⟩
      simp [AArgs.reads, AArgs.calls] at hu
      rcases hu with (hu | hu) | (hu | hu)
      · exact u1 _ (.inl hu)
      · exact u2 _ (.inl hu)
      · exact u1 _ (.inr hu)
      · exact u2 _ (.inr hu)

end

theorem condition_used {cfg : Cfg} {B E e s a s'} (h : condition cfg e s = .ok a s') (hi : SInv s B E none) :
    Quiet s s' ∧ ∀ id, a.reads id = true ∨ a.calls id = true → Used E id := by
  unfold condition at h
  replace h := bind_ok.1 h
  obtain ⟨a', s₁, h1, h⟩ := h
  replace h := bind_ok_unit.1 h
  obtain ⟨s₂, h2, h⟩ := h
  cases h
  obtain ⟨q, u⟩ := expr_used e _ _ _ h1 hi
  exact ⟨q.trans (validateCond_sound h2).2, u⟩

theorem optExpr_used {cfg : Cfg} {B E e s o s'} (h : validateOptExpr cfg e s = .ok o s') (hi : SInv s B E none) :
    Quiet s s' ∧ ∀ a, o = some a → ∀ id, a.reads id = true ∨ a.calls id = true → Used E id := by
  by_cases he : e = .missing
  · subst he
    cases h
    exact ⟨.refl _, fun a h => by cases h⟩
  · have h' : (do pure (some (← validateExpr cfg e)) : Chk (Option AExpr)) s = .ok o s' := by
      cases e <;> first | exact absurd rfl he | exact h
    replace h' := bind_ok.1 h'
    obtain ⟨a, s₁, h1, h'⟩ := h'
    cases h'
    obtain ⟨q, u⟩ := expr_used e _ _ _ h1 hi
    exact ⟨q, fun a' h => by cases h; exact u⟩

/- ### Statements -/

/-- How the state goes on. -/
structure GoesOn (s s' : SS) (B : Option (Nat × Nat)) (E E' : Env) : Prop where
  inv : SInv s' B E' none
  frame : Frame s s'
  ext : E.Ext E'
  vis : ∃ added, E'.vis = added ++ E.vis

theorem GoesOn.grows {s s' B E E'} (h : GoesOn s s' B E E') : EnvGrows E E' := ⟨h.ext, h.inv.wf, h.vis⟩

theorem GoesOn.quiet {s s' B E} (hi : SInv s B E none) (hq : Quiet s s') : GoesOn s s' B E E :=
  ⟨hi.quiet hq, hq.frame, .refl E, [], rfl⟩

theorem GoesOn.trans {s s' s'' B E E' E''} (h : GoesOn s s' B E E') (h' : GoesOn s' s'' B E' E'') : GoesOn s s'' B E E'' := by
  have := h.grows.trans h'.grows
  exact ⟨h'.inv, h.frame.trans h'.frame, this.ext, this.vis⟩

def NodesScoped (cfg : Cfg) (t : Tree) : Prop :=
  ∀ before s a s' B E, validateNodes cfg before t s = .ok a s' → Sized t → SInv s B E none →
    ∃ E', GoesOn s s' B E E' ∧ ∀ ds, InDs E ds → Scoped ds a ∧ InDs E' (ds ++ outer a)

/-- What a statement does. -/
def StmtScoped (s s' : SS) (B : Option (Nat × Nat)) (E : Env) (r : Ann × ATree) : Prop :=
  ∃ E', GoesOn s s' B E E' ∧ ∀ ds, InDs E ds →
    (∀ id, names id r.1 → id ∈ ds) ∧ Scoped (ds ++ annDefs r.1) r.2 ∧ InDs E' (ds ++ lasting (outer r.2) r.1)

theorem block_scoped {cfg child s r s' B E} (hn : NodesScoped cfg child)
    (h : block (validateNodes cfg [] child) s = .ok r s') (hz : Sized child) (hi : SInv s B E none) :
    ∃ E₁, EnvGrows E E₁ ∧ GoesOn s s' B E ⟨E.vis, E₁.decls⟩ ∧ (∀ ds, InDs E ds → Scoped ds r ∧ InDs E₁ (ds ++ outer r)) ∧
      ∃ cur chain, blockScope s' = some (some cur) ∧ Walk s'.scopes (some cur) chain E₁.vis ∧
        (∀ i, s'.scope = some i → i ∉ chain) ∧ ∀ p ∈ E₁.vis, p.2 < E₁.decls.length := by
  obtain ⟨i, sc, s₂, hs, hsc, h1⟩ := block_inv h hi
  obtain ⟨w1, w2, w3, w4, _⟩ := withScope_inv hi
  obtain ⟨E₁, h2, h3⟩ := hn _ _ _ _ _ _ h1 hz (opened_inv w1 hs hsc)
  have hu := under_of_frame hs hsc h2.frame
  have heq := block_eq (makeChild_eq hi hs hsc) h1 h2.inv.blk.1 hu.cur
  rw [h] at heq
  cases heq
  obtain ⟨c1, c2⟩ := closed_inv w1 hu h2.inv
  have hg := EnvGrows.leave hi.wf h2.grows
  refine ⟨E₁, h2.grows, ⟨c1, w2.trans c2, hg.ext, hg.vis⟩, h3, ?_⟩
  obtain ⟨cur, chain, h5, h6, h7⟩ := blockScope_eq hu h2.inv
  refine ⟨cur, chain, h5, h6, ?_, h2.inv.ids⟩
  intro i hi
  cases hi
  exact h7

/-- A statement that declares nothing and has no block. -/
theorem StmtScoped.quiet {s s' B E a t} (hi : SInv s B E none) (hq : Quiet s s') (hu : ∀ id, names id a → Used E id)
    (hl : lasting (outer t) a = []) (ht : ∀ ds, Scoped ds t) : StmtScoped s s' B E (a, t) :=
  ⟨E, .quiet hi hq, fun ds hd => ⟨fun id h => (hu id h).mem hd, ht _, by rw [hl, List.append_nil]; exact hd⟩⟩

/-- A statement with a condition and a block. -/
theorem StmtScoped.block {s s' s₁ B E a t} (hi : SInv s B E none) (hq : Quiet s s₁) (hu : ∀ id, names id a → Used E id)
    (ha : annDefs a = []) (hl : lasting (outer t) a = []) {E₁} (hg : EnvGrows E E₁) (hb : GoesOn s₁ s' B E ⟨E.vis, E₁.decls⟩)
    (hs : ∀ ds, InDs E ds → Scoped ds t ∧ InDs E₁ (ds ++ outer t)) : StmtScoped s s' B E (a, t) := by
  refine ⟨_, (GoesOn.quiet hi hq).trans hb, fun ds hd => ⟨fun id h => (hu id h).mem hd, ?_, ?_⟩⟩
  · rw [ha, List.append_nil]
    exact (hs ds hd).1
  · rw [hl, List.append_nil]
    exact hd.leave hi.wf hg.ext

theorem names_expr {E : Env} {a : AExpr} (h : ∀ id, a.reads id = true ∨ a.calls id = true → Used E id) :
    ∀ id, names id (.expr a) → Used E id := by
  rintro id (⟨e, he, hu⟩ | h')
  · cases he; exact h id hu
  · cases h'

theorem names_none {E : Env} : ∀ id, names id .none → Used E id := by
  rintro id (⟨e, he, hu⟩ | h')
  · cases he
  · cases h'

theorem notVoid_still (a : AExpr) : Still (notVoidFuncAssign a) := by
  unfold notVoidFuncAssign
  split
  · exact .ite (.error _ _) (.pure _)
  · exact .pure _

theorem notRedundant_still (a : AExpr) (id : Nat) : Still (notRedundant a id) := by
  unfold notRedundant
  split
  · exact .ite (.error _ _) (.pure _)
  · exact .pure _

theorem validateVar_scoped {cfg s s' B E name isConst isImplicit isExported e a} (hi : SInv s B E none)
    (h : validateVar cfg name isConst isImplicit isExported e s = .ok a s') : StmtScoped s s' B E (a, .nil) := by
  unfold validateVar at h
  replace h := bind_ok.1 h
  obtain ⟨ae, s₁, h1, h⟩ := h
  obtain ⟨hq, hu⟩ := expr_used e _ _ _ h1 hi
  have hi₁ := hi.quiet hq
  replace h := bind_ok.1 h
  obtain ⟨id, s₂, h2, h⟩ := h
  unfold nodeToVar at h2
  replace h2 := bind_ok_unit.1 h2
  obtain ⟨s₃, h3, h2⟩ := h2
  obtain rfl := notVoid_still _ _ _ _ h3
  replace h2 := bind_ok.1 h2
  obtain ⟨ty, s₄, h4, h2⟩ := h2
  replace h4 := declaredType_sound hi₁ h4
  obtain ⟨rfl, h4, h5⟩ := h4
  replace h2 := bind_ok.1 h2
  obtain ⟨n, s₅, h6, h2⟩ := h2
  replace h6 := headTok_ok.1 h6
  obtain ⟨⟨ns, rfl⟩, rfl⟩ := h6
  replace h2 := bind_ok.1 h2
  obtain ⟨x, s₆, h7, h2⟩ := h2
  replace h7 := tokName_ok.1 h7
  obtain ⟨h7, rfl⟩ := h7
  replace h2 := bind_ok.1 h2
  obtain ⟨v, s₇, h8, h2⟩ := h2
  rw [makeVariable_ok] at h8
  obtain ⟨h8, rfl, rfl⟩ := h8
  replace h2 := bind_ok.1 h2
  obtain ⟨link, s₈, h9, h2⟩ := h2
  have := linkageName_ok h9
  subst this
  rw [bind_of _ (newSym_eq _ _)] at h2
  replace h2 := bind_ok_unit.1 h2
  obtain ⟨s₉, h10, h2⟩ := h2
  cases h2
  rw [mustAdd_ok] at h10
  have h11 := declare_sound hi₁ (d := .var ty (!isConst)) (pend' := some s₈.syms.length)
    (.var fun hne => absurd (by rw [hi₁.len]) hne) (.inr rfl) h10
  obtain ⟨hfree, hi₉, hf₉, hsame₉, hsyms₉, _⟩ := h11
  have hget := getElem?_append_new s₈.syms _ ▸ congrArg (fun l : List Symbol => l[s₈.syms.length]?) hsyms₉
  simp only at hget
  have hdget : (E.add x (.var ty (!isConst))).decls[s₈.syms.length]? = some (.var ty (!isConst)) := by
    rw [hi₁.len]; exact getElem?_append_new _ _
  obtain ⟨s₁₀, h12, h13, h14, h15, h16⟩ := define_var
    (f := fun v => { v with isDefined := true, constExpr := some ae.isConstExpr }) hi₉ hget rfl hdget rfl rfl rfl
  rw [bind_of _ h12] at h
  rw [bind_of _ (varAt_eq h16 rfl)] at h
  replace h := bind_ok_unit.1 h
  obtain ⟨s₁₁, h18, h⟩ := h
  rw [compatible_ok] at h18
  obtain ⟨h18, rfl⟩ := h18
  replace h := bind_ok_unit.1 h
  obtain ⟨s₁₂, h19, h⟩ := h
  cases h
  have hq' := warnTrivial_quiet h19
  have ha := EnvGrows.add hi.wf x (d := .var ty (!isConst)) (fun _ h => by cases h)
  refine ⟨_, ⟨h13.quiet hq', ((hq.frame.trans hf₉).trans h14).trans hq'.frame, ha.ext, ha.vis⟩, fun ds hd => ⟨?_, trivial, ?_⟩⟩
  · rintro id (⟨e, he, hu'⟩ | h')
    · cases he; exact (hu id hu').mem hd
    · cases h'
  · refine hd.add hi.wf (fun _ h => by cases h) (fun i hi => by simp [hi]) (fun _ => ?_)
    rw [← hi₁.len]
    simp [lasting]

theorem varDef_scoped {cfg s s' B E name isConst isImplicit isExported e tok tokEnd a} (hi : SInv s B E none)
    (h : validateVarDef cfg name isConst isImplicit isExported e tok tokEnd s = .ok a s') : StmtScoped s s' B E (a, .nil) := by
  unfold validateVarDef at h
  replace h := bind_ok.1 h
  obtain ⟨o, s₁, h1, h⟩ := h
  replace h1 := tokenToType_sound hi _ h1
  obtain ⟨rfl, h1⟩ := h1
  cases o with
  | none => exact validateVar_scoped hi h
  | some σ =>
    replace h := bind_ok_unit.1 h
    obtain ⟨s₂, h2, h⟩ := h
    cases h
    unfold validateTypeAlias at h2
    cases isConst with
    | false => exact absurd h2 failTok_ok
    | true =>
      simp only [Bool.not_true, Bool.false_eq_true, if_false] at h2
      by_cases ht : validateTypeAlias.isTypeExpr e = true
      · simp only [ht, Bool.not_true, Bool.false_eq_true, if_false] at h2
        replace h2 := bind_ok.1 h2
        obtain ⟨τ, s₁, h1, h⟩ := h2
        replace h1 := tokenToType_sound hi _ h1
        obtain ⟨rfl, h1⟩ := h1
        replace h := bind_ok.1 h
        obtain ⟨t, s₂, h2, h⟩ := h
        replace h2 := headTok_ok.1 h2
        obtain ⟨⟨ts, rfl⟩, rfl⟩ := h2
        replace h := bind_ok.1 h
        obtain ⟨x, s₃, h3, h⟩ := h
        replace h3 := tokName_ok.1 h3
        obtain ⟨h3, rfl⟩ := h3
        rw [bind_of _ (newSym_eq _ _), mustAdd_ok] at h
        have h4 := declare_sound hi (d := .alias τ) .alias (.inl rfl) h
        have ha := EnvGrows.add hi.wf x (d := .alias τ) (fun _ h => by cases h)
        refine ⟨_, ⟨h4.2.1, h4.2.2.1, ha.ext, ha.vis⟩, fun ds hd => ⟨?_, trivial, ?_⟩⟩
        · rintro id (⟨e, he, hu'⟩ | h')
          · cases he
          · cases h'
        · exact hd.add hi.wf (fun _ h => by cases h) (fun i hi => by simp [hi]) (fun h => h.elim)
      · rw [Bool.not_eq_true] at ht
        simp only [ht, Bool.not_false, if_true] at h2
        exact absurd h2 failTok_ok

theorem varAssign_scoped {cfg s s' B E e tok a} (hi : SInv s B E none) (h : validateVarAssign cfg e tok s = .ok a s') :
    StmtScoped s s' B E (a, .nil) := by
  unfold validateVarAssign at h
  replace h := bind_ok.1 h
  obtain ⟨t, s₁, h1, h⟩ := h
  replace h1 := headTok_ok.1 h1
  obtain ⟨⟨ts, rfl⟩, rfl⟩ := h1
  replace h := bind_ok.1 h
  obtain ⟨⟨id, v⟩, s₂, h2, h⟩ := h
  obtain ⟨rfl, x, sym, h3, h4, h5, h6, h7⟩ := scopeFindVar_sound hi h2
  simp only at h
  split at h
  · cases h
  · obtain ⟨s₃, h8, h9⟩ := updVar_flag (f := fun v => { v with wasReassigned := true }) h6 (fun v => rfl)
    rw [bind_of _ h8] at h
    replace h := bind_ok.1 h
    obtain ⟨ae, s₄, h10, h⟩ := h
    obtain ⟨hq, hu⟩ := expr_used e _ _ _ h10 (hi.quiet h9)
    replace h := bind_ok_unit.1 h
    obtain ⟨s₅, h11, h⟩ := h
    rw [compatible_ok] at h11
    obtain ⟨h11, rfl⟩ := h11
    replace h := bind_ok_unit.1 h
    obtain ⟨s₆, h12, h⟩ := h
    obtain rfl := notRedundant_still _ _ _ _ _ h12
    cases h
    refine .quiet hi (h9.trans hq) ?_ rfl (fun _ => trivial)
    rintro i (⟨e, he, hu'⟩ | h')
    · cases he; exact hu i hu'
    · simp only [Ann.assigns, beq_iff_eq] at h'
      subst h'
      exact used_of_resolve h4 h5 trivial

/- ### Functions -/

theorem paramDecls_scoped {isExt B pend} : ∀ (ps : List Param) (s : SS) (r : List (Ty × Nat)) (s' : SS) (E : Env),
    validateParams isExt ps s = .ok r s' → SInv s B E pend → ∃ E', SInv s' B E' pend ∧
      Frame s s' ∧ (∀ i, s.scope = some i → s'.scope = some i) ∧
      (∀ id < s.syms.length, s'.syms[id]? = s.syms[id]?) ∧ EnvGrows E E' ∧ r.length = ps.length ∧
      ∀ ds, InDs E ds → InDs E' (ds ++ r.map Prod.snd)
  | [], s, r, s', E, h, hi => by
    unfold validateParams at h
    cases h
    exact ⟨E, hi, .refl _, fun _ h => h, fun _ _ => rfl, .refl hi.wf, rfl, fun ds h => by simpa using h⟩
  | p :: ps, s, r, s', E, h, hi => by
    unfold validateParams at h
    replace h := bind_ok.1 h
    obtain ⟨o, s₁, h1, h⟩ := h
    replace h1 := tokenToType_sound hi _ h1
    obtain ⟨rfl, h1⟩ := h1
    cases o with
    | none => cases h
    | some ty =>
      simp only at h
      replace h := bind_ok.1 h
      obtain ⟨x, s₂, h2, h⟩ := h
      replace h2 := tokName_ok.1 h2
      obtain ⟨h2, rfl⟩ := h2
      replace h := bind_ok.1 h
      obtain ⟨v, s₃, h3, h⟩ := h
      rw [makeVariable_ok] at h3
      obtain ⟨h3, rfl, rfl⟩ := h3
      rw [bind_of _ (newSym_eq _ _)] at h
      replace h := bind_ok.1 h
      obtain ⟨b, s₄, h4, h⟩ := h
      cases b with
      | false => cases h
      | true =>
        simp only [if_true] at h
        replace h := bind_ok.1 h
        obtain ⟨rest, s₅, h5, h⟩ := h
        cases h
        unfold scopeAddVar at h4
        rw [bind_of _ (symAt_eq (push_get _ _))] at h4
        have hk : SymIs s₃.scopes s₃.scope pend (E.decls.length + 1) E.decls.length (some ty)
            (.var { type := ty, name := x, linkageName := x, isConst := true, isDefined := true, wasReassigned := isExt,
                    wasRead := isExt }) (.var ty false) := .var fun _ => rfl
        have hpush := push_inv (sym := { name := x, exprType := some ty, loc := some p.name, kind := _ }) hi hk (.inl rfl)
        rw [bind_of _ (lookup_eq hpush x), resolve_append hi] at h4
        cases hr : E.resolve x with
        | some id => rw [hr] at h4; cases h4
        | none =>
          rw [hr] at h4
          simp only at h4
          obtain ⟨h6, h7, h8, h9, h10, h11⟩ := declare_sound hi hk (.inl rfl) h4
          obtain ⟨E', g1, g2, g3, g4, g5, g6, g7⟩ := paramDecls_scoped ps _ _ _ _ h5 h7
          have ha := EnvGrows.add hi.wf x (d := .var ty false) (fun _ h => by cases h)
          refine ⟨E', g1, h8.trans g2, fun i hs => g3 i (h11 i hs), ?_, ha.trans g5, by simp [g6], ?_⟩
          · intro id hid
            rw [g4 id (by rw [h10, List.length_append]; omega), h10, List.getElem?_append_left hid]
          · intro ds hd
            have := g7 (ds ++ [s₃.syms.length]) (hd.add hi.wf (fun _ h => by cases h) (fun i hi => by simp [hi])
              (fun _ => by rw [← hi.len]; simp))
            simpa using this

/-- A function with its parameters and its body. -/
theorem body_scoped {cfg child s s₁ s₂ s₃ B E p ids r sym f}
    (hn : NodesScoped cfg child) (hi : SInv s B E none) (hk : sym.kind = .func f) (hf1 : f.numParams = p.numParams) (hf2 : f.paramTypes = [])
    (hnum : p.numParams = p.params.length)
    (h1 : mustAdd s.syms.length (s.push sym) = .ok () s₁) (h2 : validateFuncParams p s.syms.length s₁ = .ok ids s₂)
    (h3 : block (validateNodes cfg [] child) s₂ = .ok r s₃) (hz : Sized child) :
    ∃ τs E₂, SInv s₃ B ⟨(sym.name, E.decls.length) :: E.vis, E₂.decls⟩ none ∧ EnvGrows (E.add sym.name (.func τs f.returnType)) E₂ ∧
      Frame s s₃ ∧ ∀ ds, InDs E ds → Scoped (ds ++ s.syms.length :: ids) r := by
  rw [mustAdd_ok] at h1
  unfold validateFuncParams at h2
  split at h2
  · rename_i hz'
    cases h2
    obtain ⟨g1, g2, g3, g4, g5, g6⟩ := declare_sound hi (d := .func [] f.returnType) (pend' := none)
      (by rw [hk]; exact .func fun _ => ⟨hf2, by simp; omega⟩) (.inl rfl) h1
    obtain ⟨E₂, k1, k2, k3, _⟩ := block_scoped hn h3 hz g2
    refine ⟨[], E₂, k2.inv, k1, g3.trans k2.frame, ?_⟩
    intro ds hd
    exact (k3 _ (hd.add hi.wf (fun _ h => by cases h) (fun i hi => by simp [hi]) (fun _ => by rw [← hi.len]; simp))).1
  · rename_i hz'
    replace h2 := bind_ok_unit.1 h2
    obtain ⟨t₁, k1, h2⟩ := h2
    replace h2 := bind_ok.1 h2
    obtain ⟨ps, t₂, k2, h2⟩ := h2
    replace h2 := bind_ok_unit.1 h2
    obtain ⟨t, k3, h2⟩ := h2
    replace h2 := bind_ok_unit.1 h2
    obtain ⟨t₄, k4, h2⟩ := h2
    cases h2
    rw [hnum, List.take_length] at k2
    obtain ⟨g1, g2, g3, g4, g5, g6⟩ := declare_sound hi (d := .func (ps.map Prod.fst) f.returnType) (pend' := some s.syms.length)
      (by rw [hk]; exact .func fun hne => absurd (by rw [hi.len]) hne) (.inr rfl) h1
    obtain ⟨w1, w2, w3, w4, i, sc, hs, hsc⟩ := withScope_inv g2
    rw [makeChild_eq g2 hs hsc] at k1
    cases k1
    have o1 := opened_inv w1 hs hsc
    obtain ⟨E₁, q2, q3, q5, q6, q7, q8, q9⟩ := paramDecls_scoped _ _ _ _ _ k2 o1
    have hgs : s₁.syms[s.syms.length]? = some sym := by rw [g5]; exact getElem?_append_new _ _
    have hgo : (opened s₁.withScope i sc).syms[s.syms.length]? = some sym := by
      show s₁.withScope.syms[s.syms.length]? = some sym
      rw [w4]; exact hgs
    have hgt : t₂.syms[s.syms.length]? = some sym := by rw [q6 _ (get_lt hgo), hgo]
    have hgd : E₁.decls[s.syms.length]? = some (.func (ps.map Prod.fst) f.returnType) := by
      rw [q7.ext.same _ (by simp [Env.add, hi.len]), hi.len]
      exact getElem?_append_new _ _
    obtain ⟨t₃, hup, r1, r2, r3, r4⟩ := finish_func q2 hgt hk hgd (by rw [List.length_map, q8]; omega)
    rw [hup] at k3
    cases k3
    have hfr : Frame (opened s₁.withScope i sc) t := q3.trans r2
    have hu := under_of_frame hs hsc hfr
    have hblk : BlkAt t s₁.withScope.scopes.length (some i) := r1.blk.1
    have hsc' : t.scope = some s₁.withScope.scopes.length := by rw [r4]; exact q5 _ rfl
    rw [restoreParent_eq hblk] at k4
    cases k4
    have hre := reenter hsc' hblk hu.cur rfl
    obtain ⟨t', m1⟩ : ∃ t', validateNodes cfg [] child t = .ok r t' := by
      have h3' := h3
      unfold block at h3'
      rw [bind_of _ hre] at h3'
      replace h3' := bind_ok.1 h3'
      obtain ⟨r', t', m1, h3'⟩ := h3'
      replace h3' := bind_ok_unit.1 h3'
      obtain ⟨_, _, h3'⟩ := h3'
      replace h3' := bind_ok_unit.1 h3'
      obtain ⟨_, _, h3'⟩ := h3'
      replace h3' := bind_ok_unit.1 h3'
      obtain ⟨_, _, h3'⟩ := h3'
      cases h3'
      exact ⟨t', m1⟩
    obtain ⟨E₂, n1, n2⟩ := hn _ _ _ _ _ _ m1 hz r1
    have hfr' := hfr.trans n1.frame
    have hu' := under_of_frame hs hsc hfr'
    have heq := block_eq hre m1 n1.inv.blk.1 hu'.cur
    rw [h3] at heq
    cases heq
    obtain ⟨c1, c2⟩ := closed_inv w1 hu' n1.inv
    refine ⟨_, E₂, c1, q7.trans n1.grows, (g3.trans w2).trans c2, ?_⟩
    intro ds hd
    have := q9 (ds ++ [s.syms.length]) (hd.add hi.wf (fun _ h => by cases h) (fun i hi => by simp [hi])
      (fun _ => by rw [← hi.len]; simp))
    have := (n2 _ this).1
    simpa using this

theorem func_scoped {cfg s s' B E before p tok tokEnd child next r}
    (hn : NodesScoped cfg child) (hi : SInv s B E none) (hnum : p.numParams = p.params.length) (hz : Sized child)
    (h : validateStmt cfg before (.funcProto p) tok tokEnd child next (validateNodes cfg [] child) s = .ok r s') :
    StmtScoped s s' B E r := by
  unfold validateStmt at h
  simp only at h
  rw [bind_of _ (show Chk.get s = .ok s s from rfl),
    bind_of _ (show setDepth 0 s = .ok () { s with whileDepth := 0 } from rfl)] at h
  replace h := bind_ok.1 h
  obtain ⟨⟨id, ids⟩, s₁, h1, h⟩ := h
  unfold validateFuncDecl at h1
  have hi₀ : SInv { s with whileDepth := 0 } B E none := hi.of_eq rfl rfl rfl
  replace h1 := bind_ok_unit.1 h1
  obtain ⟨s₂, h2, h1⟩ := h1
  rw [notNested_ok hi₀.blk] at h2
  obtain ⟨h2, rfl⟩ := h2
  replace h1 := bind_ok.1 h1
  obtain ⟨ret, s₃, h3, h1⟩ := h1
  replace h3 := retType_sound hi₀ h3
  obtain ⟨rfl, h3⟩ := h3
  replace h1 := bind_ok.1 h1
  obtain ⟨x, s₄, h4, h1⟩ := h1
  replace h4 := tokName_ok.1 h4
  obtain ⟨h4, rfl⟩ := h4
  replace h1 := bind_ok.1 h1
  obtain ⟨link, s₅, h5, h1⟩ := h1
  have := linkageName_ok h5
  subst this
  rw [bind_of _ (newSym_eq _ _)] at h1
  replace h1 := bind_ok_unit.1 h1
  obtain ⟨s₆, h6, h1⟩ := h1
  cases h6
  replace h1 := bind_ok_unit.1 h1
  obtain ⟨s₇, h7, h1⟩ := h1
  replace h1 := bind_ok.1 h1
  obtain ⟨ids', s₈, h8, h1⟩ := h1
  cases h1
  replace h := bind_ok.1 h
  obtain ⟨body, s₉, h9, h⟩ := h
  replace h := bind_ok_unit.1 h
  obtain ⟨s₁₀, h10, h⟩ := h
  replace h := bind_ok_unit.1 h
  obtain ⟨s₁₁, h11, h⟩ := h
  cases h
  cases h11
  have hi₁ : SInv { s with whileDepth := 0, lastFunc := some s.currentFunc, currentFunc := s.syms.length } B E none :=
    hi.of_eq rfl rfl rfl
  obtain ⟨τs, E₂, g1, g2, g3, g4⟩ := body_scoped hn hi₁ rfl rfl rfl hnum h7 h8 h9 hz
  obtain ⟨sym, f, p1, p2, p3⟩ := post_ok h10
  have hfs : Frame s s₉ := by
    refine Frame.trans ?_ g3
    exact .of_eq rfl rfl rfl
  have hsc : s₁₀.scopes = s₉.scopes ∧ s₁₀.scope = s₉.scope ∧ s₁₀.syms = s₉.syms := by
    rcases p3 with ⟨_, rfl⟩ | ⟨_, _, l, _, rfl⟩ <;> exact ⟨rfl, rfl, rfl⟩
  have ha := EnvGrows.add hi.wf x (d := .func τs ret) (fun _ h => by cases h)
  refine ⟨⟨(x, E.decls.length) :: E.vis, E₂.decls⟩, ⟨?_, ?_, ?_, [_], rfl⟩, fun ds hd => ⟨?_, ?_, ?_⟩⟩
  · exact g1.of_eq hsc.1 hsc.2.1 hsc.2.2
  · exact hfs.trans (Frame.of_eq hsc.1 hsc.2.1 hsc.2.2)
  · have := ha.ext.trans g2.ext
    exact ⟨this.len, this.same⟩
  · rintro id (⟨e, he, hu'⟩ | h')
    · cases he
    · cases h'
  · exact g4 ds hd
  · have hadd : InDs (E.add x (.func τs ret)) (ds ++ [s.syms.length]) :=
      hd.add hi.wf (fun _ h => by cases h) (fun i hi => by simp [hi]) (fun _ => by rw [← hi.len]; simp)
    exact hadd.leave ha.wf g2.ext

theorem ns_scoped {cfg s s' B E before tok tokEnd child next r}
    (hn : NodesScoped cfg child) (hi : SInv s B E none) (hz : Sized child)
    (h : validateStmt cfg before .namespaces tok tokEnd child next (validateNodes cfg [] child) s = .ok r s') :
    StmtScoped s s' B E r := by
  unfold validateStmt at h
  simp only at h
  replace h := bind_ok.1 h
  obtain ⟨id, s₁, h1, h⟩ := h
  unfold declareNamespace at h1
  replace h1 := bind_ok.1 h1
  obtain ⟨t, s₂, h2, h1⟩ := h1
  replace h2 := headTok_ok.1 h2
  obtain ⟨⟨ts, htok⟩, rfl⟩ := h2
  replace h1 := bind_ok.1 h1
  obtain ⟨x, s₃, h3, h1⟩ := h1
  replace h3 := tokName_ok.1 h3
  obtain ⟨h3, rfl⟩ := h3
  rw [bind_of _ (newSym_eq _ _)] at h1
  replace h1 := bind_ok_unit.1 h1
  obtain ⟨s₄, h4, h1⟩ := h1
  cases h1
  rw [mustAdd_ok] at h4
  obtain ⟨g1, g2, g3, g4, g5, g6⟩ := declare_sound hi (d := .ns []) (pend' := none) .nsNone (.inl rfl) h4
  replace h := bind_ok.1 h
  obtain ⟨body, s₅, h5, h⟩ := h
  obtain ⟨E₁, k1, k2, k3, cur, chain, k4, k5, k6, k7⟩ := block_scoped hn h5 hz g2
  replace h := bind_ok_unit.1 h
  obtain ⟨s₆, h6, h⟩ := h
  cases h
  unfold closeNamespace at h6
  rw [k4] at h6
  simp only at h6
  have hg : s₁.syms[s₃.syms.length]? = some { name := x, loc := some t, kind := .ns none } := by
    rw [g5]; exact getElem?_append_new _ _
  obtain ⟨sym, m1, m2⟩ := k2.frame.syms _ _ hg
  rw [updSym_eq _ m1] at h6
  cases h6
  have hcore : ({ sym with kind := .ns (some cur) } : Symbol).core = sym.core := by
    rw [m2]; rfl
  have hset := set_inv (sym' := { sym with kind := .ns (some cur) }) (d := .ns E₁.vis) (pend' := none) k2.inv m1
    (.ns k5 k6 k7) (.inl rfl)
  have hfr := set_frame (sym' := { sym with kind := .ns (some cur) }) m1 hcore
  have ha := EnvGrows.add hi.wf x (d := .ns []) (fun _ h => by cases h; rfl)
  have hx := ha.trans k1
  rw [hi.len] at hset hfr
  refine ⟨⟨(x, E.decls.length) :: E.vis, E₁.decls.set E.decls.length (.ns E₁.vis)⟩, ⟨?_, ?_, ?_, [_], rfl⟩, fun ds hd => ⟨?_, ?_, ?_⟩⟩
  · rw [hi.len]; exact hset
  · rw [hi.len]; exact (g3.trans k2.frame).trans hfr
  · refine ⟨by simpa using hx.ext.len, fun i hi => ?_⟩
    show (E₁.decls.set _ _)[i]? = _
    rw [List.getElem?_set_ne (by omega)]
    exact hx.ext.same i hi
  · rintro id (⟨e, he, hu'⟩ | h')
    · cases he
    · cases h'
  · have hadd := hd.add (x := x) (d := .ns []) (ds' := ds) hi.wf (fun _ h => by cases h; rfl) (fun i hi => hi) (fun h => h.elim)
    have := (k3 ds hadd).1
    simpa [annDefs] using this
  · have hadd := hd.add (x := x) (d := .ns []) (ds' := ds) hi.wf (fun _ h => by cases h; rfl) (fun i hi => hi) (fun h => h.elim)
    exact (k3 ds hadd).2.ns k1

theorem import_still (cfg : Cfg) (tok : List Token) : Still (validateImport cfg tok) := by
  intro s a s' h
  unfold validateImport at h
  replace h := bind_ok.1 h
  obtain ⟨t, s₁, h1, h⟩ := h
  replace h1 := headTok_ok.1 h1
  obtain ⟨_, rfl⟩ := h1
  replace h := bind_ok.1 h
  obtain ⟨m, s₂, h2, h⟩ := h
  replace h2 := tokName_ok.1 h2
  obtain ⟨_, rfl⟩ := h2
  split at h
  · cases h
  · split at h
    · cases h
    · cases h; rfl

theorem stmt_scoped {cfg s s' B E before stmt tok tokEnd child next r}
    (hn : NodesScoped cfg child) (hi : SInv s B E none) (hp : ∀ p, stmt = .funcProto p → p.numParams = p.params.length)
    (hz : Sized child) (h : validateStmt cfg before stmt tok tokEnd child next (validateNodes cfg [] child) s = .ok r s') :
    StmtScoped s s' B E r := by
  cases stmt with
  | funcProto p => exact func_scoped hn hi (hp p rfl) hz h
  | namespaces => exact ns_scoped hn hi hz h
  | ret e =>
    unfold validateStmt at h
    simp only at h
    replace h := bind_ok.1 h
    obtain ⟨a, s₁, h1, h⟩ := h
    cases h
    unfold validateReturn at h1
    replace h1 := bind_ok_unit.1 h1
    obtain ⟨s₂, h2, h1⟩ := h1
    obtain rfl := sane_state h2
    replace h1 := bind_ok.1 h1
    obtain ⟨o, s₂, h2, h1⟩ := h1
    obtain ⟨hq, hu⟩ := optExpr_used h2 hi
    rw [bind_of _ (show Chk.get s₂ = .ok s₂ s₂ from rfl)] at h1
    replace h1 := bind_ok.1 h1
    obtain ⟨f, s₃, h3, h1⟩ := h1
    replace h3 := funcAt_ok h3
    obtain ⟨rfl, sym, h3, h4⟩ := h3
    replace h1 := bind_ok_unit.1 h1
    obtain ⟨s₄, h5, h1⟩ := h1
    rw [checkReturn_ok] at h5
    obtain ⟨h5, rfl⟩ := h5
    replace h1 := bind_ok_unit.1 h1
    obtain ⟨s₅, h6, h1⟩ := h1
    rw [noDead_ok] at h6
    obtain ⟨h6, rfl⟩ := h6
    cases h1
    cases o with
    | none => exact .quiet hi hq names_none rfl (fun _ => trivial)
    | some ae => exact .quiet hi hq (names_expr (hu ae rfl)) rfl (fun _ => trivial)
  | unreachable =>
    unfold validateStmt at h
    simp only at h
    replace h := bind_ok_unit.1 h
    obtain ⟨s₁, h1, h⟩ := h
    cases h
    rw [noDead_ok] at h1
    obtain ⟨h1, rfl⟩ := h1
    exact .quiet hi (.refl _) names_none rfl (fun _ => trivial)
  | varDef name isConst isImplicit isExported e =>
    unfold validateStmt at h
    simp only at h
    replace h := bind_ok.1 h
    obtain ⟨a, s₁, h1, h⟩ := h
    cases h
    exact varDef_scoped hi h1
  | varAssign e =>
    unfold validateStmt at h
    simp only at h
    replace h := bind_ok.1 h
    obtain ⟨a, s₁, h1, h⟩ := h
    cases h
    exact varAssign_scoped hi h1
  | expr e =>
    cases e with
    | call n args num =>
      unfold validateStmt at h
      simp only at h
      replace h := bind_ok.1 h
      obtain ⟨a, s₁, h1, h⟩ := h
      cases h
      obtain ⟨hq, hu⟩ := expr_used _ _ _ _ h1 hi
      refine .quiet hi hq (names_expr hu) rfl (fun _ => ?_)
      cases child <;> trivial
    | missing => unfold validateStmt at h; cases h
    | ident | const | un | bin => unfold validateStmt at h; exact absurd h failTok_ok
  | ifs e =>
    unfold validateStmt at h
    simp only at h
    replace h := bind_ok_unit.1 h
    obtain ⟨s₁, h1, h⟩ := h
    rw [needBlock_ok] at h1
    obtain ⟨h1, rfl⟩ := h1
    replace h := bind_ok.1 h
    obtain ⟨a, s₂, h2, h⟩ := h
    obtain ⟨hq, hu⟩ := condition_used h2 hi
    replace h := bind_ok.1 h
    obtain ⟨body, s₃, h3, h⟩ := h
    cases h
    obtain ⟨E₁, k1, k2, k3, _⟩ := block_scoped hn h3 hz (hi.quiet hq)
    exact .block hi hq (names_expr hu) rfl rfl k1 k2 k3
  | elifs e =>
    unfold validateStmt at h
    simp only at h
    replace h := bind_ok_unit.1 h
    obtain ⟨s₁, h1, h⟩ := h
    rw [needBlock_ok] at h1
    obtain ⟨h1, rfl⟩ := h1
    replace h := bind_ok_unit.1 h
    obtain ⟨s₁, h0, h⟩ := h
    rw [needIf_ok] at h0
    obtain ⟨h0, rfl⟩ := h0
    replace h := bind_ok.1 h
    obtain ⟨a, s₂, h2, h⟩ := h
    obtain ⟨hq, hu⟩ := condition_used h2 hi
    replace h := bind_ok.1 h
    obtain ⟨body, s₃, h3, h⟩ := h
    cases h
    obtain ⟨E₁, k1, k2, k3, _⟩ := block_scoped hn h3 hz (hi.quiet hq)
    exact .block hi hq (names_expr hu) rfl rfl k1 k2 k3
  | elses =>
    unfold validateStmt at h
    simp only at h
    replace h := bind_ok_unit.1 h
    obtain ⟨s₁, h0, h⟩ := h
    rw [needIf_ok] at h0
    obtain ⟨h0, rfl⟩ := h0
    replace h := bind_ok_unit.1 h
    obtain ⟨s₁, h1, h⟩ := h
    rw [needBlock_ok] at h1
    obtain ⟨h1, rfl⟩ := h1
    replace h := bind_ok.1 h
    obtain ⟨body, s₃, h3, h⟩ := h
    cases h
    obtain ⟨E₁, k1, k2, k3, _⟩ := block_scoped hn h3 hz hi
    exact .block hi (.refl _) names_none rfl rfl k1 k2 k3
  | whiles e =>
    unfold validateStmt at h
    simp only at h
    rw [bind_of _ (show Chk.get s = .ok s s from rfl),
      bind_of _ (show setDepth (s.whileDepth + 1) s = .ok () { s with whileDepth := (s.whileDepth + 1) % 2 ^ 32 } from rfl)] at h
    have hi' : SInv { s with whileDepth := (s.whileDepth + 1) % 2 ^ 32 } B E none := hi.of_eq rfl rfl rfl
    replace h := bind_ok_unit.1 h
    obtain ⟨s₁, h1, h⟩ := h
    rw [needBlock_ok] at h1
    obtain ⟨h1, rfl⟩ := h1
    replace h := bind_ok.1 h
    obtain ⟨a, s₂, h2, h⟩ := h
    obtain ⟨hq, hu⟩ := condition_used h2 hi'
    replace h := bind_ok.1 h
    obtain ⟨body, s₃, h3, h⟩ := h
    rw [bind_of _ (show Chk.get s₃ = .ok s₃ s₃ from rfl)] at h
    replace h := bind_ok_unit.1 h
    obtain ⟨s₄, h4, h⟩ := h
    cases h4
    cases h
    obtain ⟨E₁, k1, k2, k3, _⟩ := block_scoped hn h3 hz (hi'.quiet hq)
    obtain ⟨E', m1, m2⟩ := StmtScoped.block hi' hq (names_expr hu) rfl rfl k1 k2 k3
    refine ⟨E', ⟨m1.inv.of_eq rfl rfl rfl, ?_, m1.ext, m1.vis⟩, m2⟩
    exact ((Frame.of_eq rfl rfl rfl : Frame s { s with whileDepth := (s.whileDepth + 1) % 2 ^ 32 }).trans m1.frame).trans
        (.of_eq rfl rfl rfl)
  | breaks =>
    unfold validateStmt at h
    simp only at h
    replace h := bind_ok_unit.1 h
    obtain ⟨s₁, h1, h⟩ := h
    cases h
    rw [jump_ok] at h1
    obtain ⟨_, rfl⟩ := h1
    exact .quiet hi (.refl _) names_none rfl (fun _ => trivial)
  | continues =>
    unfold validateStmt at h
    simp only at h
    replace h := bind_ok_unit.1 h
    obtain ⟨s₁, h1, h⟩ := h
    cases h
    rw [jump_ok] at h1
    obtain ⟨_, rfl⟩ := h1
    exact .quiet hi (.refl _) names_none rfl (fun _ => trivial)
  | imports =>
    unfold validateStmt at h
    simp only at h
    replace h := bind_ok_unit.1 h
    obtain ⟨s₁, h1, h⟩ := h
    cases h
    obtain rfl := import_still _ _ _ _ _ h1
    exact .quiet hi (.refl _) names_none rfl (fun _ => trivial)
  | unknown => unfold validateStmt at h; cases h; exact .quiet hi (.refl _) names_none rfl (fun _ => trivial)
  | comment => unfold validateStmt at h; cases h; exact .quiet hi (.refl _) names_none rfl (fun _ => trivial)
  | noop => unfold validateStmt at h; cases h; exact .quiet hi (.refl _) names_none rfl (fun _ => trivial)

theorem nodes_scoped {cfg} : ∀ t, NodesScoped cfg t
  | .nil => by
    intro before s a s' B E h _ hi
    unfold validateNodes at h
    cases h
    exact ⟨E, .quiet hi (.refl _), fun ds hd => ⟨trivial, by simpa [outer] using hd⟩⟩
  | .node stmt tok tokEnd child next => by
    intro before s a s' B E h hz hi
    unfold validateNodes at h
    replace h := bind_ok_unit.1 h
    obtain ⟨s₁, h1, h⟩ := h
    obtain rfl := sane_state h1
    replace h := bind_ok.1 h
    obtain ⟨r, s₂, h2, h⟩ := h
    obtain ⟨E₁, g1, g2⟩ := stmt_scoped (nodes_scoped child) hi hz.1 hz.2.1 h2
    replace h := bind_ok.1 h
    obtain ⟨rest, s₃, h3, h⟩ := h
    cases h
    obtain ⟨E₂, k1, k2⟩ := nodes_scoped next _ _ _ _ _ _ h3 hz.2.2 g1.inv
    refine ⟨E₂, g1.trans k1, fun ds hd => ?_⟩
    obtain ⟨x1, x2, x3⟩ := g2 ds hd
    obtain ⟨y1, y2⟩ := k2 _ x3
    exact ⟨⟨x1, x2, y1⟩, by simpa [outer] using y2⟩

/-- A checked program names only what is declared before and can be seen. -/
theorem semantic_scoped {cfg : Cfg} {t : Tree} {a : ATree} {s : SS} (hp : Parsed t) (h : semantic cfg t = .ok a s) : Scoped [] a := by
  obtain ⟨s₀, s₁, h1, h2⟩ := semantic_nodes h
  obtain ⟨E, _, h3⟩ := nodes_scoped t _ _ _ _ _ _ h2 (parsed_sized hp) (setup_inv h1 ⟨cfg.strtod, fun _ => False, False, False⟩ true).inv
  refine (h3 [] ?_).1
  intro i d hr
  have : ∀ i, ¬ Reachable Env.start.decls Env.start.vis i := by
    intro i hi
    induction hi with
    | vis h => cases h
    | member _ _ _ ih => exact ih
  exact (this i hr).elim

end Skull
