import Verif.Proofs.LCode
import Verif.Proofs.LFrame
import Verif.Proofs.Checked
import Verif.Spec.Checked
import Verif.Spec.Declared
import Verif.Spec.Generates
/-
Generating code for checked expressions and statements does not fail.
-/
namespace Skull
open Spec

/-- The step goes on, with this result and state. -/
def Tot (m : LGen α) (s : LState) (Q : α → LState → Prop) : Prop := ∃ a s', m s = some (a, s') ∧ Q a s'

namespace Tot

theorem bind {m : LGen α} {f : α → LGen β} {s Q} (h : Tot m s fun a s' => Tot (f a) s' Q) : Tot (m >>= f) s Q := by
  obtain ⟨a, s1, h1, b, s2, h2, h3⟩ := h
  exact ⟨b, s2, LGen.bind_eq.2 ⟨a, s1, h1, h2⟩, h3⟩

theorem mono {m : LGen α} {s} {P Q : α → LState → Prop} (h : Tot m s P) (hpq : ∀ a s', P a s' → Q a s') : Tot m s Q := by
  obtain ⟨a, s1, h1, h2⟩ := h
  exact ⟨a, s1, h1, hpq _ _ h2⟩

theorem andThen {m : LGen α} {f : α → LGen β} {s P Q} (h : Tot m s P) (hf : ∀ a s', P a s' → Tot (f a) s' Q) : Tot (m >>= f) s Q :=
  bind (h.mono hf)

theorem pure {a : α} {s Q} (h : Q a s) : Tot (Pure.pure a : LGen α) s Q := ⟨a, s, rfl, h⟩
theorem get {s Q} (h : Q s s) : Tot LGen.get s Q := ⟨s, s, rfl, h⟩
theorem modify {f s Q} (h : Q () (f s)) : Tot (LGen.modify f) s Q := ⟨(), _, rfl, h⟩
theorem ofOption {o : Option α} {s a Q} (h : o = some a) (hq : Q a s) : Tot (LGen.ofOption o) s Q := by subst h; exact ⟨a, s, rfl, hq⟩
theorem positionAt {f b s Q} (h : Q () { s with curFn := f, curBlock := b }) : Tot (Skull.positionAt f b) s Q := ⟨(), _, rfl, h⟩

end Tot

/-- What has a place keeps one. -/
structure Later (s s' : LState) : Prop where
  refs : ∀ id, s.refs id ≠ none → s'.refs id ≠ none
  funcs : ∀ id, s.funcRef id ≠ none → s'.funcRef id ≠ none
  len : s.funcs.length ≤ s'.funcs.length
  bound : (∀ id r, s.funcRef id = some r → r < s.funcs.length) → ∀ id r, s'.funcRef id = some r → r < s'.funcs.length

/-- The same, and the generator is in the same function. -/
structure After (s s' : LState) : Prop extends Later s s' where
  cur : s'.currentFunc = s.currentFunc

/-- Functions have their places, the current one too. -/
structure Placed (s : LState) : Prop where
  bound : ∀ id r, s.funcRef id = some r → r < s.funcs.length
  cur : s.funcRef s.currentFunc ≠ none

/-- These variables and functions have their places. -/
def Ready (cfg : LCfg) (ds : List Nat) (s : LState) : Prop :=
  ∀ id ∈ ds, (cfg.var id ≠ none → s.refs id ≠ none) ∧ (cfg.func id ≠ none → s.funcRef id ≠ none)

theorem Later.refl (s : LState) : Later s s := ⟨fun _ h => h, fun _ h => h, Nat.le_refl _, fun h => h⟩
theorem Later.trans {s s' s''} (h : Later s s') (h' : Later s' s'') : Later s s'' :=
  ⟨fun i hi => h'.refs i (h.refs i hi), fun i hi => h'.funcs i (h.funcs i hi), Nat.le_trans h.len h'.len, fun hb => h'.bound (h.bound hb)⟩
theorem After.refl (s : LState) : After s s := ⟨.refl s, rfl⟩
theorem After.trans {s s' s''} (h : After s s') (h' : After s' s'') : After s s'' :=
  ⟨h.toLater.trans h'.toLater, h'.cur.trans h.cur⟩
theorem After.placed {s s'} (h : After s s') (hp : Placed s) : Placed s' :=
  ⟨h.bound hp.bound, by rw [h.cur]; exact h.funcs _ hp.cur⟩
theorem Later.ready {cfg ds s s'} (h : Later s s') (hr : Ready cfg ds s) : Ready cfg ds s' :=
  fun id hi => ⟨fun hv => h.refs _ ((hr id hi).1 hv), fun hv => h.funcs _ ((hr id hi).2 hv)⟩

theorem Ready.append {cfg ds ds' s} (h : Ready cfg ds s) (h' : Ready cfg ds' s) : Ready cfg (ds ++ ds') s := by
  intro id hi
  rcases List.mem_append.1 hi with hi | hi
  · exact h id hi
  · exact h' id hi

theorem Ready.sub {cfg ds ds' s} (h : Ready cfg ds s) (hd : ∀ id ∈ ds', id ∈ ds) : Ready cfg ds' s := fun id hi => h id (hd id hi)

theorem After.gen (s : LState) (is n) : After s (s.gen is n) :=
  ⟨⟨fun _ h => h, fun _ h => h, by simp [LState.gen], fun h => by simpa [LState.gen] using h⟩, rfl⟩

theorem After.at (s : LState) (f b) : After s { s with curFn := f, curBlock := b } :=
  ⟨⟨fun _ h => h, fun _ h => h, Nat.le_refl _, fun h => h⟩, rfl⟩

theorem After.loop (s : LState) (c e) : After s { s with whileCond := c, whileEnd := e } :=
  ⟨⟨fun _ h => h, fun _ h => h, Nat.le_refl _, fun h => h⟩, rfl⟩

theorem tot_emit {i s} : Tot (emit i) s fun _ s' => After s s' := ⟨(), _, emit_eq.2 rfl, .gen _ _ _⟩
theorem tot_newReg {s} : Tot newReg s fun _ s' => After s s' := ⟨_, _, newReg_eq.2 ⟨rfl, rfl⟩, .gen _ _ _⟩
theorem tot_position {f b s} : Tot (positionAt f b) s fun _ s' => After s s' := ⟨(), _, rfl, .at _ _ _⟩

theorem tot_appendBlock {f s} (h : f < s.funcs.length) : Tot (appendBlock f) s fun _ s' => After s s' := by
  unfold Tot appendBlock
  rw [List.getElem?_eq_getElem h]
  exact ⟨_, _, rfl, ⟨⟨fun _ h => h, fun _ h => h, by simp, fun h => by simpa using h⟩, rfl⟩⟩

theorem tot_currentRef {s} (h : Placed s) : Tot currentRef s fun f s' => s' = s ∧ f < s.funcs.length := by
  cases hr : s.funcRef s.currentFunc with
  | none => exact absurd hr h.cur
  | some f => exact .bind (.get (.ofOption hr ⟨rfl, h.bound _ _ hr⟩))

/- ### Expressions -/

theorem tot_buildBin {cfg op a b s} : Tot (buildBin cfg op a b) s fun _ s' => After s s' := by
  unfold buildBin
  cases cfg.fold op a b with
  | some v => exact .pure (.refl _)
  | none => exact tot_newReg.andThen fun _ _ h1 => tot_emit.andThen fun _ _ h2 => .pure (h1.trans h2)

theorem tot_buildBuiltin {f a b s} : Tot (buildBuiltin f a b) s fun _ s' => After s s' :=
  tot_newReg.andThen fun _ _ h1 => tot_emit.andThen fun _ _ h2 => .pure (h1.trans h2)

theorem tot_buildLoad {t p s} : Tot (buildLoad t p) s fun _ s' => After s s' :=
  tot_newReg.andThen fun _ _ h1 => tot_emit.andThen fun _ _ h2 => .pure (h1.trans h2)

/-- The expression gets code, and this is its type. -/
def ExprTot (ty : Option Ty) (m : LGen LExpr) (s : LState) : Prop :=
  Tot m s fun x s' => After s s' ∧ x.ty = ty

theorem tot_math {cfg iop fop ty a b s} (h : ty = .prim .int ∨ ty = .prim .float) : ExprTot (some ty) (mathL cfg iop fop (some ty) a b) s := by
  rcases h with rfl | rfl <;> exact tot_buildBin.andThen fun _ _ h => .pure ⟨h, rfl⟩

theorem tot_shift {cfg op a b s} : ExprTot (some (.prim .int)) (shiftL cfg op (some (.prim .int)) a b) s :=
  tot_buildBin.andThen fun _ _ h => .pure ⟨h, rfl⟩

theorem tot_pow {ty a b s} (h : ty = .prim .int ∨ ty = .prim .float) : ExprTot (some ty) (powL (some ty) a b) s := by
  rcases h with rfl | rfl <;> exact tot_buildBuiltin.andThen fun _ _ h => .pure ⟨h, rfl⟩

theorem tot_rel {cfg iop fop ty a b s} (h : ty = .prim .int ∨ ty = .prim .float) :
    ExprTot (some (.prim .bool)) (relL cfg iop fop (some ty) a b) s := by
  rcases h with rfl | rfl <;> exact tot_buildBin.andThen fun _ _ h => .pure ⟨h, rfl⟩

theorem tot_logic {cfg op a b s} : ExprTot (some (.prim .bool)) (logicL cfg op (some (.prim .bool)) a b) s :=
  tot_buildBin.andThen fun _ _ h => .pure ⟨h, rfl⟩

theorem tot_is {cfg p a b s} (h : p ≠ .void) : ExprTot (some (.prim .bool)) (isL cfg (some (.prim p)) a b) s := by
  cases p <;> first
    | exact absurd rfl h
    | exact tot_buildBin.andThen fun _ _ h => .pure ⟨h, rfl⟩
    | exact tot_buildBuiltin.andThen fun _ _ h => .pure ⟨h, rfl⟩

theorem tot_isnt {cfg p a b s} (h : p ≠ .void) : ExprTot (some (.prim .bool)) (isNotL cfg (some (.prim p)) a b) s :=
  Tot.andThen (tot_is h) fun _ _ h1 => tot_buildBin.andThen fun _ _ h2 => .pure ⟨h1.1.trans h2, h1.2⟩

theorem tot_binL {cfg o τ τ' ty a b s} (h : binType o τ = some ty) (hc : o = .is ∨ o = .isnt → ∃ p, τ' = some (.prim p) ∧ p ≠ .void)
    (he : ¬ (o = .is ∨ o = .isnt) → τ' = some τ) : ExprTot (some ty) (binL cfg o τ' a b) s := by
  by_cases ho : o = .is ∨ o = .isnt
  · obtain ⟨p, rfl, hp⟩ := hc ho
    rcases ho with rfl | rfl <;> cases h
    · exact tot_is hp
    · exact tot_isnt hp
  rw [he ho]
  unfold binType at h
  split at h <;> try cases h
  all_goals first
    | exact tot_math (.inl rfl)
    | exact tot_math (.inr rfl)
    | exact tot_pow (.inl rfl)
    | exact tot_pow (.inr rfl)
    | exact tot_shift
    | exact tot_rel (.inl rfl)
    | exact tot_rel (.inr rfl)
    | exact tot_logic
    | exact absurd (by simp) ho

theorem binType_prim {o τ ty} (h : binType o τ = some ty) : (o = .is ∨ o = .isnt) ∨ ∃ p, τ = .prim p := by
  unfold binType at h
  split at h <;> try cases h
  all_goals first
    | exact .inr ⟨_, rfl⟩
    | exact .inl (by simp)

theorem inner_comparedAs {t id ty c c'} : comparedAs (.un .ref (.ident t id ty c) (.ref ty) c') = ty.inner? := by
  cases ty <;> rfl

theorem comparedAs_of_prim {syms a p} (w : WtE syms a) (h : a.type = .prim p) : comparedAs a = some a.type := by
  cases w with
  | un h1 h2 =>
    unfold comparedAs
    split
    · rename_i h'; cases h'; simp [unType] at h1
    · rename_i h'; cases h'; simp [unType] at h1
    · rfl
  | ref h1 => cases h
  | _ => rfl

theorem comparedAs_un {o r ty c} (h : o ≠ .ref) : comparedAs (.un o r ty c) = some ty := by
  unfold comparedAs
  split
  · rename_i h'; cases h'; exact absurd rfl h
  · rename_i h'; cases h'; exact absurd rfl h
  · rfl

theorem unType_prim {o τ ty} (h : unType o τ = some ty) : (o = .unaryNeg ∨ o = .not) ∧ τ = ty ∧ ∃ p, τ = .prim p := by
  unfold unType at h
  split at h <;> cases h <;> exact ⟨by simp, rfl, _, rfl⟩

theorem tot_unL {cfg o τ ty e s} (h : unType o τ = some ty) (he : e.ty = some τ) : ExprTot (some ty) (unL cfg o e) s := by
  unfold unType at h
  split at h <;> cases h
  · unfold unL; simp only [he]; exact tot_math (.inl rfl)
  · unfold unL; simp only [he]; exact tot_math (.inr rfl)
  · exact tot_buildBin.andThen fun _ _ h => .pure ⟨h, rfl⟩

theorem var_of {cfg : LCfg} {id sym v} (h : cfg.syms[id]? = some sym) (hk : sym.kind = .var v) : cfg.var id = some v := by
  simp [LCfg.var, h, hk]

theorem func_of {cfg : LCfg} {id sym f} (h : cfg.syms[id]? = some sym) (hk : sym.kind = .func f) : cfg.func id = some (sym, f) := by
  simp [LCfg.func, h, hk]

theorem noFunc_of {cfg : LCfg} {id sym v} (h : cfg.syms[id]? = some sym) (hk : sym.kind = .var v) : cfg.func id = none := by
  simp [LCfg.func, h, hk]

theorem noVar_of {cfg : LCfg} {id sym f} (h : cfg.syms[id]? = some sym) (hk : sym.kind = .func f) : cfg.var id = none := by
  simp [LCfg.var, h, hk]

theorem ready_ref {cfg ds s id v} (hr : Ready cfg ds s) (hi : id ∈ ds) (hv : cfg.var id = some v) : ∃ p, s.refs id = some p := by
  have := (hr id hi).1 (by rw [hv]; simp)
  cases h : s.refs id with
  | none => exact absurd h this
  | some p => exact ⟨p, rfl⟩

mutual

theorem tot_expr {cfg : LCfg} {ds : List Nat} : ∀ (a : AExpr) (s : LState), WtE cfg.syms a → Compares a →
    (∀ id, a.reads id = true ∨ a.calls id = true → id ∈ ds) → Ready cfg ds s → ExprTot (comparedAs a) (genExprL cfg a) s
  | .ident t id ty c, s, w, hc, hd, hr => by
    cases w with
    | ident h1 h2 h3 h4 =>
      obtain ⟨p, hp⟩ := ready_ref hr (hd id (.inl (by simp [AExpr.reads]))) (var_of h1 h2)
      simp only [genExprL]
      refine .bind (.ofOption (var_of h1 h2) (.bind (.get (.bind (.ofOption hp ?_)))))
      split
      · exact tot_buildLoad.andThen fun _ _ h => .pure ⟨h, rfl⟩
      · exact .pure ⟨.refl _, rfl⟩
  | .const t v, s, w, hc, hd, hr => .pure ⟨.refl _, rfl⟩
  | .call t args id ty, s, w, hc, hd, hr => by
    cases w with
    | call h1 h2 h3 h4 =>
      simp only [genExprL]
      refine .bind (.ofOption (func_of h1 h2) ?_)
      unfold Compares at hc
      rw [h3]
      refine (tot_args args _ s h4 hc (fun id' h => hd id' ?_) hr).andThen fun as s1 h => ?_
      · simp only [AExpr.reads, AExpr.calls]
        rcases h with h | h <;> simp [h]
      · have hf := (h.toLater.ready hr id (hd id (.inr (by simp [AExpr.calls])))).2 (by rw [func_of h1 h2]; simp)
        cases hf' : s1.funcRef id with
        | none => exact absurd hf' hf
        | some r =>
          refine .bind (.ofOption (func_of h1 h2) (.bind (.get (.bind (.ofOption hf' ?_)))))
          exact tot_newReg.andThen fun _ _ g1 => tot_emit.andThen fun _ _ g2 => .pure ⟨h.trans (g1.trans g2), rfl⟩
  | .un o e ty c, s, w, hc, hd, hr => by
    unfold Compares at hc
    have hd' : ∀ id, e.reads id = true ∨ e.calls id = true → id ∈ ds := fun id h => hd id (by simpa [AExpr.reads, AExpr.calls] using h)
    cases w with
    | un h1 h2 =>
      obtain ⟨ho, _, p, hp⟩ := unType_prim h1
      simp only [genExprL]
      rw [if_neg (by rcases ho with rfl | rfl <;> simp)]
      refine Tot.andThen (tot_expr e s h2 hc hd' hr) fun x s1 h => ?_
      refine (tot_unL h1 (h.2.trans (comparedAs_of_prim h2 hp))).mono fun _ _ g => ⟨h.1.trans g.1, g.2.trans ?_⟩
      exact (comparedAs_un (by rcases ho with rfl | rfl <;> simp)).symm
    | @ref t id ty c h1 =>
      cases h1 with
      | ident h1 h2 h3 h4 =>
        obtain ⟨p, hp⟩ := ready_ref hr (hd' id (.inl (by simp [AExpr.reads]))) (var_of h1 h2)
        simp only [genExprL, true_or, if_true, addrL]
        exact .bind (.ofOption (var_of h1 h2) (.bind (.get (.bind (.ofOption hp (.pure ⟨.refl _, by rw [inner_comparedAs]⟩))))))
    | @deref t id ty c h1 =>
      generalize hx : Ty.ref ty = ty' at h1
      cases h1 with
      | @ident _ _ _ v h1 h2 h3 h4 =>
        obtain ⟨p, hp⟩ := ready_ref hr (hd' id (.inl (by simp [AExpr.reads]))) (var_of h1 h2)
        have hin : v.type.inner? = some ty := by rw [← hx]; rfl
        simp only [genExprL, or_true, if_true, addrL, reduceCtorEq, if_false]
        refine .bind (.ofOption (var_of h1 h2) (.bind (.get (.bind (.ofOption hp (.bind (.ofOption hin ?_)))))))
        exact tot_buildLoad.andThen fun _ _ g1 => tot_buildLoad.andThen fun _ _ g2 => .pure ⟨g1.trans g2, rfl⟩
  | .bin o l r ty c, s, w, hc, hd, hr => by
    unfold Compares at hc
    cases w with
    | bin h1 h2 h3 h4 h5 =>
      simp only [genExprL]
      refine Tot.andThen (tot_expr l s h1 hc.2.1 (fun id h => hd id ?_) hr) fun x s1 g1 => ?_
      · simp only [AExpr.reads, AExpr.calls]
        rcases h with h | h <;> simp [h]
      refine Tot.andThen (tot_expr r s1 h2 hc.2.2 (fun id h => hd id ?_) (g1.1.toLater.ready hr)) fun y s2 g2 => ?_
      · simp only [AExpr.reads, AExpr.calls]
        rcases h with h | h <;> simp [h]
      rw [g2.2]
      refine (tot_binL h4 hc.1 fun ho => ?_).mono fun _ _ g => ⟨g1.1.trans (g2.1.trans g.1), g.2⟩
      rcases binType_prim h4 with h | ⟨p, hp⟩
      · exact absurd h ho
      · exact comparedAs_of_prim h2 hp

theorem tot_args {cfg : LCfg} {ds : List Nat} : ∀ (args : AArgs) (tys : List Ty) (s : LState), WtA cfg.syms tys args → ComparesArgs args →
    (∀ id, args.reads id = true ∨ args.calls id = true → id ∈ ds) → Ready cfg ds s →
    Tot (genArgsL cfg tys.length args) s fun _ s' => After s s'
  | .nil, tys, s, w, hc, hd, hr => by cases w; exact .pure (.refl _)
  | .unchecked _, tys, s, w, hc, hd, hr => by cases w; exact .pure (.refl _)
  | .cons t e next, tys, s, w, hc, hd, hr => by
    unfold ComparesArgs at hc
    cases w with
    | cons h1 h2 h3 =>
      simp only [List.length_cons, genArgsL]
      refine Tot.andThen (tot_expr e s h1 hc.1 (fun id h => hd id ?_) hr) fun x s1 g1 => ?_
      · simp only [AArgs.reads, AArgs.calls]
        rcases h with h | h <;> simp [h]
      refine (tot_args next _ s1 h3 hc.2 (fun id h => hd id ?_) (g1.1.toLater.ready hr)).andThen fun y s2 g2 => ?_
      · simp only [AArgs.reads, AArgs.calls]
        rcases h with h | h <;> simp [h]
      exact .pure (g1.1.trans g2)

end

end Skull
