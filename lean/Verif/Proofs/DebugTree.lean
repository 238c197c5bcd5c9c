import Verif.Proofs.DebugStmt
/-
Where the generator with debug information puts locations: trees and modules.
-/
namespace Skull.DInfo
open Spec

variable {N : Prop} {cfg : LCfg}

theorem Does.lassoc {dm : DGen γ} {m : LGen α} {f : α → LGen β} {g : β → LGen γ} {s : DState} {R : γ → DState → Prop}
    (h : Does dm ((m >>= f) >>= g) s R) : Does dm (m >>= fun a => f a >>= g) s R := by
  have : ((m >>= f) >>= g) s.l = (m >>= fun a => f a >>= g) s.l := by
    show LGen.bind (LGen.bind m f) g s.l = LGen.bind m _ s.l
    unfold LGen.bind
    cases m s.l <;> rfl
  unfold Does at h ⊢
  rw [this] at h
  exact h

/-- A condition and what comes behind it. -/
theorem does_branch_then {s : DState} {e : AExpr} {b c : Nat} {D : List Nat} {dg : DGen β} {g : LGen β} {R : β → DState → Prop} (hd : cfg.debug = true) (hf : FoldConst cfg)
    (hi : Ready N cfg s) (hN : N → bareName e = false) (h : ∀ s', Ready N cfg s' → Keeps D s s' → Does dg g s' R) :
    Does (branchD cfg e b c >>= fun _ => dg) (genExprL cfg e >>= fun x => emit (.condBr x.val b c) >>= fun _ => g) s R := by
  refine .lassoc (f := fun x : LExpr => emit (.condBr x.val b c)) (g := fun _ => g) ?_
  exact .bind (does_branch (D := D) hd hf hi hN) fun _ s' _ ⟨h1, h2⟩ => h s' h1 h2

/-- The builder goes to another block of the function. -/
theorem Ready.at {s : DState} {f b : Nat} (hi : Ready N cfg s) (hf : f = s.l.curFn) (hb : ∃ code, blockOf s.l.funcs f b = some code) :
    Ready N cfg { s with l := { s.l with curFn := f, curBlock := b } } := by
  subst hf
  exact ⟨⟨hi.locs.steps (.same rfl rfl) rfl rfl, hi.params, hi.below, hi.here, hb⟩, hi.globs, hi.ref⟩

theorem keeps_at {D : List Nat} {s : DState} {f b : Nat} (hf : f = s.l.curFn) : Keeps D s { s with l := { s.l with curFn := f, curBlock := b } } :=
  ⟨rfl, hf, rfl, .refl, fun _ _ => rfl⟩

theorem Ready.append {s : DState} {f b : Nat} {l : LState} (hi : Ready N cfg s) (h : Appended f b s.l l) : Ready N cfg { s with l := l } := by
  have e := h.rest
  have st := steps_appended h
  refine ⟨⟨hi.locs.steps st rfl rfl, ?_, ?_, ?_, ?_⟩, ?_, ?_⟩
  · intro i j hj; dsimp only at hj; rw [e] at hj; exact hi.params i j hj
  · intro i j hj; dsimp only at hj ⊢; rw [e] at hj ⊢; exact hi.below i j hj
  · show s.scope.fn = l.curFn; rw [h.curFn]; exact hi.here
  · show ∃ code, blockOf l.funcs l.curFn l.curBlock = some code; rw [h.curFn, h.curBlock]; exact st.grow.has hi.block
  · show s.globals.map (·.1) = List.range l.globals.length; rw [h.globals]; exact hi.globs
  · show l.funcRef l.currentFunc = some l.curFn; rw [e]; exact hi.ref

theorem keeps_append {D : List Nat} {s : DState} {f b : Nat} {l : LState} (h : Appended f b s.l l) : Keeps D s { s with l := l } := by
  refine ⟨rfl, h.curFn, h.currentFunc, (steps_appended h).grow, fun _ _ => ?_⟩
  show l.funcRef _ = _
  rw [h.rest]

theorem Ready.emit {s : DState} {i : LInstr} (hi : Ready N cfg s) (hc : ∀ r g a, i ≠ .call r g a) :
    Ready N cfg { s with l := s.l.gen [i] s.l.nextReg } :=
  (within_gen (Nat.le_refl _)).ready (hi.toInv.gen (noCall_one hc) (Nat.le_refl _)) hi

theorem keeps_emit {D : List Nat} {s : DState} {i : LInstr} : Keeps D s { s with l := s.l.gen [i] s.l.nextReg } := (within_gen (Nat.le_refl _)).keeps

/- ### Blocks -/

theorem does_scoped {s : DState} {tok : List Token} {D : List Nat} {dm : DGen (Option (Option Ty))} {m : LGen (Option (Option Ty))} (hd : cfg.debug = true) (hi : Ready N cfg s)
    (ht : tok ≠ []) (hb : ∀ s1 : DState, Ready N cfg s1 → s1.l = s.l → Does dm m s1 (fun _ s' => Ready N cfg s' ∧ Keeps D s1 s')) :
    Does (scopedD cfg tok dm) m s (fun _ s' => Ready N cfg s' ∧ Keeps D s s') := by
  cases tok with
  | nil => exact (ht rfl).elim
  | cons t ts =>
    unfold scopedD
    rw [hd, if_pos rfl]
    refine .extra (a := t.pos) (s' := s) rfl rfl ?_
    refine .extra (dm := DGen.get) (a := s) (s' := s) rfl rfl ?_
    refine .extra (s' := { s with scope := .block t.pos.line t.pos.col s.scope }) rfl rfl ?_
    have h1 : Ready N cfg { s with scope := .block t.pos.line t.pos.col s.scope } :=
      ⟨⟨hi.locs.steps .refl rfl rfl, hi.params, hi.below, hi.here, hi.block⟩, hi.globs, hi.ref⟩
    have h2 := hb _ h1 rfl
    have h3 : Does (dm >>= fun r => DGen.modify (fun s' => { s' with scope := s.scope }) >>= fun _ => pure r) (m >>= fun r => pure r)
        { s with scope := .block t.pos.line t.pos.col s.scope } (fun _ s' => Ready N cfg s' ∧ Keeps D s s') := by
      refine .bind h2 fun r s' _ ⟨h3, h4⟩ => ?_
      refine .extra (s' := { s' with scope := s.scope }) rfl rfl (.pure ⟨⟨⟨h3.locs.steps .refl rfl rfl, h3.params, h3.below, ?_, h3.block⟩, h3.globs, h3.ref⟩, ?_⟩)
      · show s.scope.fn = s'.l.curFn
        rw [h4.curFn]
        exact hi.here
      · exact ⟨rfl, h4.curFn, h4.currentFunc, h4.grow, h4.refs⟩
    have e : (m >>= fun r => pure r) = m := by
      funext l
      show LGen.bind m _ l = _
      unfold LGen.bind
      cases m l <;> rfl
    rw [e] at h3
    exact h3

theorem does_codeBlock {s : DState} {tok : List Token} {D : List Nat} {target : Nat} {dm : DGen (Option (Option Ty))} {m : LGen (Option (Option Ty))} (hd : cfg.debug = true)
    (hi : Ready N cfg s) (ht : tok ≠ []) (hb : ∀ s1 : DState, Ready N cfg s1 → s1.l = s.l → Does dm m s1 (fun _ s' => Ready N cfg s' ∧ Keeps D s1 s')) :
    Does (codeBlockD cfg tok dm target) (codeBlockL m target) s (fun _ s' => Ready N cfg s' ∧ Keeps D s s') := by
  unfold codeBlockD codeBlockL
  refine .bind (does_scoped hd hi ht hb) fun r s1 _ ⟨h1, h2⟩ => ?_
  cases r with
  | none =>
    refine .lift fun _ l h => ?_
    cases emit_eq.1 h
    exact ⟨h1.emit (by simp), h2.trans keeps_emit⟩
  | some _ => exact .pure ⟨h1, h2⟩

theorem does_while {s : DState} {e : AExpr} {tok : List Token} {D : List Nat} {dm : DGen (Option (Option Ty))} {m : LGen (Option (Option Ty))} (hd : cfg.debug = true)
    (hf : FoldConst cfg) (hi : Ready N cfg s) (ht : tok ≠ []) (hN : N → bareName e = false)
    (hb : ∀ s1 : DState, Ready N cfg s1 → s1.l.currentFunc = s.l.currentFunc → Does dm m s1 (fun _ s' => Ready N cfg s' ∧ Keeps D s1 s')) :
    Does (whileD cfg e tok dm) (whileL cfg e m) s (fun _ s' => Ready N cfg s' ∧ Keeps D s s') := by
  unfold whileD whileL
  refine .step fun f l h => ?_
  unfold currentRef at h
  rw [LGen.bind_get] at h
  obtain ⟨hr, rfl⟩ := LGen.ofOption_eq.1 h
  have hcur : f = s.l.curFn := Option.some.inj (hr.symm.trans hi.ref)
  refine .step fun cond l1 h1 => ?_
  have a1 := appendBlock_eq h1
  have r1 := hi.append a1
  have k1 : Keeps D s { s with l := l1 } := keeps_append a1
  refine .step fun loop l2 h2 => ?_
  have a2 := appendBlock_eq h2
  have r2 := r1.append a2
  have k2 := k1.trans (keeps_append (s := { s with l := l1 }) a2)
  refine .step fun fin l3 h3 => ?_
  have a3 := appendBlock_eq h3
  have r3 := r2.append a3
  have k3 := k2.trans (keeps_append (s := { s with l := l2 }) a3)
  refine .step fun _ l4 h4 => ?_
  have e4 := LGen.modify_eq.1 h4
  refine .step fun _ l5 h5 => ?_
  have e5 := emit_eq.1 h5
  have r4 : Ready N cfg { s with l := l4 } := by
    rw [e4]
    exact ⟨⟨r3.locs.steps (.same rfl rfl) rfl rfl, r3.params, r3.below, r3.here, r3.block⟩, r3.globs, r3.ref⟩
  have k4 : Keeps D s { s with l := l4 } := by rw [e4]; exact k3.trans ⟨rfl, rfl, rfl, .refl, fun _ _ => rfl⟩
  have r5 : Ready N cfg { s with l := l5 } := by rw [e5]; exact r4.emit (by simp)
  have k5 : Keeps D s { s with l := l5 } := by
    rw [e5]
    exact k4.trans keeps_emit
  have g35 : Gw l3.funcs l5.funcs := by
    rw [e5]
    have : l4.funcs = l3.funcs := by rw [e4]
    dsimp only
    rw [← this]
    exact gw_gen _ _ _
  have hcond : ∃ code, blockOf l5.funcs f cond = some code := g35.has ((steps_appended a3).grow.has ((steps_appended a2).grow.has ⟨_, a1.empty⟩))
  have hloop : ∃ code, blockOf l5.funcs f loop = some code := g35.has ((steps_appended a3).grow.has ⟨_, a2.empty⟩)
  have hfin : ∃ code, blockOf l5.funcs f fin = some code := g35.has ⟨_, a3.empty⟩
  have c5 : f = l5.curFn := hcur.trans k5.curFn.symm
  refine .step fun _ l6 h6 => ?_
  have e6 := LGen.modify_eq.1 h6
  have r6 : Ready N cfg { s with l := l6 } := by rw [e6]; exact r5.at c5 hcond
  have k6 : Keeps D s { s with l := l6 } := by rw [e6]; exact k5.trans (keeps_at (s := { s with l := l5 }) c5)
  have f6 : l6.funcs = l5.funcs := by rw [e6]
  rw [← f6] at hloop hfin
  refine does_branch_then (D := D) hd hf r6 hN fun s7 r7 k7 => ?_
  have k07 := k6.trans k7
  have c7 : f = s7.l.curFn := hcur.trans k07.curFn.symm
  refine .step fun _ l8 h8 => ?_
  have e8 := LGen.modify_eq.1 h8
  have r8 : Ready N cfg { s7 with l := l8 } := by rw [e8]; exact r7.at c7 (k7.grow.has hloop)
  have k8 : Keeps D s { s7 with l := l8 } := by rw [e8]; exact k07.trans (keeps_at c7)
  have f8 : l8.funcs = s7.l.funcs := by rw [e8]
  refine .bind (does_codeBlock (D := D) hd r8 ht fun s1 q1 q2 => hb s1 q1 (by rw [q2]; exact k8.currentFunc)) fun _ s9 _ ⟨r9, k9⟩ => ?_
  have k09 := k8.trans k9
  have c9 : f = s9.l.curFn := hcur.trans k09.curFn.symm
  have hfin9 : ∃ code, blockOf s9.l.funcs f fin = some code := by
    refine k9.grow.has ?_
    show ∃ code, blockOf l8.funcs f fin = some code
    rw [f8]
    exact k7.grow.has hfin
  refine .step fun _ l10 h10 => ?_
  have e10 := LGen.modify_eq.1 h10
  have r10 : Ready N cfg { s9 with l := l10 } := by rw [e10]; exact r9.at c9 hfin9
  have k10 : Keeps D s { s9 with l := l10 } := by rw [e10]; exact k09.trans (keeps_at c9)
  refine .lift fun _ l11 h11 => ?_
  cases LGen.modify_eq.1 h11
  exact ⟨⟨⟨r10.locs.steps (.same rfl rfl) rfl rfl, r10.params, r10.below, r10.here, r10.block⟩, r10.globs, r10.ref⟩,
    k10.trans ⟨rfl, rfl, rfl, .refl, fun _ _ => rfl⟩⟩

/- ### Statements -/

theorem toks_sub {ann : Ann} {tok : List Token} {e : AExpr} (h : (∃ id, ann = .varDef id e) ∨ (∃ id, ann = .varAssign id e) ∨ ann = .expr e) :
    ∀ t ∈ tokensE e, t ∈ statementToks ann tok := by
  rcases h with ⟨_, rfl⟩ | ⟨_, rfl⟩ | rfl <;> exact fun t ht => List.mem_append_right _ ht

theorem does_simple {s : DState} {ann : Ann} {stmt : Stmt} {tok : List Token} {D : List Nat} (hd : cfg.debug = true) (hf : FoldConst cfg) (hi : Ready N cfg s)
    (ht : stmt ≠ .unknown → tok ≠ []) (ha : s.ann = ann) (hk : s.tok = tok) :
    Does (simpleD cfg ann stmt tok) (simpleL cfg ann stmt) s (fun _ s' => Ready N cfg s' ∧ Keeps D s s') := by
  have plain : ∀ {e : AExpr} {x : LExpr} {s1 : DState}, genExprL cfg e s.l = some (x, s1.l) → Plain x.val ∧ ∀ r, x.val = .reg r → r < s1.l.nextReg := by
    intro e x s1 h
    obtain ⟨is, n, hc, hl⟩ := genExprL_code e h
    exact ⟨plain_value (R := s.l.env) hf (fun id i => hi.params id i) hc, by rw [hl]; exact value_below (R := s.l.env) hf (fun id r => hi.below id r) hc⟩
  have rest : ∀ {m : LGen (Option (Option Ty))}, (∀ a l, m s.l = some (a, l) → l = s.l ∨ ∃ i, l = s.l.gen [i] s.l.nextReg ∧ ∀ r g a, i ≠ .call r g a) →
      Does (DGen.lift m) m s (fun _ s' => Ready N cfg s' ∧ Keeps D s s') := by
    intro m h
    refine .lift fun a l hl => ?_
    rcases h a l hl with rfl | ⟨i, rfl, hi'⟩
    · exact ⟨hi, .refl⟩
    · exact ⟨hi.emit hi', keeps_emit⟩
  subst ha hk
  cases stmt with
  | varDef nm c i x e0 =>
    simp only [simpleD, simpleL]
    cases ha : s.ann with
    | varDef id e =>
      dsimp only
      refine .bind (does_expr hd e hi.toInv (toks_sub (.inl ⟨id, ha⟩))) fun x s1 hx ⟨h1, h2⟩ => ?_
      have r1 := h2.ready h1 hi
      refine .bind (does_setupVar (D := D) hd r1 (plain hx).1 (plain hx).2 ⟨e, .inl (h2.ann.trans ha)⟩) fun _ s2 _ ⟨h3, h4⟩ => ?_
      exact .pure ⟨h3, h2.keeps.trans h4⟩
    | none => exact .pure ⟨hi, .refl⟩
    | _ => exact .ub
  | varAssign e0 =>
    simp only [simpleD, simpleL]
    cases ha : s.ann with
    | varAssign id e =>
      dsimp only
      refine .bind (does_expr hd e hi.toInv (toks_sub (.inr (.inl ⟨id, ha⟩)))) fun x s1 hx ⟨h1, h2⟩ => ?_
      have r1 := h2.ready h1 hi
      refine .bind (does_assign hd r1.toInv (plain hx).1 (plain hx).2 ⟨e, .inr (h2.ann.trans ha)⟩) fun _ s2 _ ⟨h3, h4, _⟩ => ?_
      refine .pure ⟨⟨h3, ?_, ?_⟩, h2.keeps.trans ⟨h4.scope, h4.curFn, h4.currentFunc, h4.grow, fun i _ => by rw [h4.funcRef]⟩⟩
      · have := r1.globs
        unfold Globs at this ⊢
        rw [h4.globals, h4.lglobals, this]
      · rw [h4.funcRef, h4.currentFunc, h4.curFn]
        exact r1.ref
    | _ => exact .ub
  | ret e0 =>
    simp only [simpleD, simpleL]
    cases ha : s.ann with
    | none =>
      dsimp only
      refine .bind (does_emitAt hd hi.toInv (ht (by simp)) (by simp) rfl) fun _ s1 _ ⟨h1, h2⟩ => ?_
      exact .pure ⟨h2.ready h1 hi, h2.keeps⟩
    | expr e =>
      dsimp only
      refine .bind (does_expr hd e hi.toInv (toks_sub (.inr (.inr ha)))) fun x s1 hx ⟨h1, h2⟩ => ?_
      refine .bind (does_emitAt hd h1 (by rw [h2.tok]; exact ht (by simp)) (by simp) h2.tok.symm) fun _ s2 _ ⟨h3, h4⟩ => ?_
      exact .pure ⟨h4.ready h3 (h2.ready h1 hi), h2.keeps.trans h4.keeps⟩
    | _ => exact .ub
  | expr e0 =>
    simp only [simpleD, simpleL]
    cases ha : s.ann with
    | expr e =>
      cases e with
      | call t args id ty =>
        dsimp only
        refine .bind (does_expr hd _ hi.toInv (toks_sub (.inr (.inr ha)))) fun x s1 hx ⟨h1, h2⟩ => ?_
        exact .pure ⟨h2.ready h1 hi, h2.keeps⟩
      | _ => exact .ub
    | _ => exact .ub
  | noop =>
    simp only [simpleD, simpleL]
    refine .bind (does_noop hd hi.toInv (ht (by simp)) rfl) fun _ s1 _ ⟨h1, h2⟩ => ?_
    exact .pure ⟨h2.ready h1 hi, h2.keeps⟩
  | unreachable =>
    refine rest fun a l h => ?_
    simp only [simpleL] at h
    rw [bind_emit] at h
    obtain ⟨_, rfl⟩ := LGen.pure_eq.1 h
    exact .inr ⟨_, rfl, by simp⟩
  | breaks =>
    refine rest fun a l h => ?_
    simp only [simpleL] at h
    rw [LGen.bind_get, bind_emit] at h
    obtain ⟨_, rfl⟩ := LGen.pure_eq.1 h
    exact .inr ⟨_, rfl, by simp⟩
  | continues =>
    refine rest fun a l h => ?_
    simp only [simpleL] at h
    rw [LGen.bind_get, bind_emit] at h
    obtain ⟨_, rfl⟩ := LGen.pure_eq.1 h
    exact .inr ⟨_, rfl, by simp⟩
  | imports =>
    refine rest fun a l h => ?_
    simp only [simpleL] at h
    obtain ⟨_, rfl⟩ := LGen.pure_eq.1 h
    exact .inl rfl
  | comment =>
    refine rest fun a l h => ?_
    simp only [simpleL] at h
    obtain ⟨_, rfl⟩ := LGen.pure_eq.1 h
    exact .inl rfl
  | _ =>
    refine rest fun a l h => ?_
    simp only [simpleL] at h
    exact (LGen.ub_eq.1 h).elim

/- ### Trees -/

/-- What is known of the chain of `if`s the generator is in. -/
def AtMode (N : Prop) (s : DState) : LMode → Prop
  | .stmts => True
  | .afterIf e f entry _ fin => f = s.l.curFn ∧ (∃ code, blockOf s.l.funcs f entry = some code) ∧ (∃ code, blockOf s.l.funcs f fin = some code) ∧ (N → bareName e = false)

theorem does_closeIf {s : DState} {mode : LMode} {D : List Nat} (hd : cfg.debug = true) (hf : FoldConst cfg) (hi : Ready N cfg s) (hm : AtMode N s mode) :
    Does (closeIfD cfg mode) (closeIf cfg mode) s (fun _ s' => Ready N cfg s' ∧ Keeps D s s') := by
  cases mode with
  | stmts => exact .pure ⟨hi, .refl⟩
  | afterIf e f entry b fin =>
    obtain ⟨hc, he, hfin, hN⟩ := hm
    unfold closeIfD closeIf
    refine .step fun _ l1 h1 => ?_
    have e1 := LGen.modify_eq.1 h1
    have r1 : Ready N cfg { s with l := l1 } := by rw [e1]; exact hi.at hc he
    have k1 : Keeps D s { s with l := l1 } := by rw [e1]; exact keeps_at hc
    refine does_branch_then (D := D) hd hf r1 hN fun s2 r2 k2 => ?_
    refine .lift fun _ l3 h3 => ?_
    cases LGen.modify_eq.1 h3
    have k02 := k1.trans k2
    have c2 : f = s2.l.curFn := hc.trans k02.curFn.symm
    exact ⟨r2.at c2 (k02.grow.has hfin), k02.trans (keeps_at c2)⟩

theorem does_nextIf {s : DState} {e : AExpr} {f entry b : Nat} {D : List Nat} (hd : cfg.debug = true) (hf : FoldConst cfg) (hi : Ready N cfg s) (hc : f = s.l.curFn)
    (he : ∃ code, blockOf s.l.funcs f entry = some code) (hN : N → bareName e = false) :
    Does (nextIfD cfg e f entry b) (nextIf cfg e f entry b) s (fun c s' => Ready N cfg s' ∧ Keeps D s s' ∧ ∃ code, blockOf s'.l.funcs f c = some code) := by
  unfold nextIfD nextIf
  refine .step fun _ l1 h1 => ?_
  have e1 := LGen.modify_eq.1 h1
  have r1 : Ready N cfg { s with l := l1 } := by rw [e1]; exact hi.at hc he
  have k1 : Keeps D s { s with l := l1 } := by rw [e1]; exact keeps_at hc
  refine .step fun c l2 h2 => ?_
  have a2 := appendBlock_eq h2
  have r2 := r1.append a2
  have k2 := k1.trans (keeps_append (s := { s with l := l1 }) a2)
  refine does_branch_then (D := D) hd hf r2 hN fun s3 r3 k3 => ?_
  exact .pure ⟨r3, k2.trans k3, k3.grow.has ⟨_, a2.empty⟩⟩

theorem tree_after {e : AExpr} {f entry b fin : Nat} {ann : Ann} {stmt : Stmt} {tok : List Token} {child next : ATree}
    (h : stmt ≠ .comment ∧ stmt ≠ .elses ∧ ∀ c, stmt ≠ .elifs c) :
    genTreeD cfg (.afterIf e f entry b fin) (.node ann stmt tok child next) =
      closeIfD cfg (.afterIf e f entry b fin) >>= fun _ => genTreeD cfg .stmts (.node ann stmt tok child next) := by
  obtain ⟨h1, h2, h3⟩ := h
  cases stmt with
  | comment => exact (h1 rfl).elim
  | elses => exact (h2 rfl).elim
  | elifs c => exact (h3 c rfl).elim
  | _ => rfl

theorem tree_afterL {e : AExpr} {f entry b fin : Nat} {ann : Ann} {stmt : Stmt} {tok : List Token} {child next : ATree}
    (h : stmt ≠ .comment ∧ stmt ≠ .elses ∧ ∀ c, stmt ≠ .elifs c) :
    genTreeL cfg (.afterIf e f entry b fin) (.node ann stmt tok child next) =
      closeIf cfg (.afterIf e f entry b fin) >>= fun _ => genTreeL cfg .stmts (.node ann stmt tok child next) := by
  obtain ⟨h1, h2, h3⟩ := h
  cases stmt with
  | comment => exact (h1 rfl).elim
  | elses => exact (h2 rfl).elim
  | elifs c => exact (h3 c rfl).elim
  | _ => rfl

/-- A statement that is not a block, and what follows. -/
theorem does_plain {s : DState} {ann : Ann} {stmt : Stmt} {tok : List Token} {D : List Nat} {dg : DGen (Option (Option Ty))} {g : LGen (Option (Option Ty))} (hd : cfg.debug = true)
    (hf : FoldConst cfg) (hi : Ready N cfg s) (ht : stmt ≠ .unknown → tok ≠ [])
    (hn : ∀ s1, Ready N cfg s1 → Keeps D s s1 → Does dg g s1 (fun _ s' => Ready N cfg s' ∧ Keeps D s s')) :
    Does (forStmt ann tok >>= fun _ => simpleD cfg ann stmt tok >>= fun r => match r with | some ty => pure (some ty) | none => dg)
      (simpleL cfg ann stmt >>= fun r => match r with | some ty => pure (some ty) | none => g) s (fun _ s' => Ready N cfg s' ∧ Keeps D s s') := by
  refine .extra (s' := { s with ann := ann, tok := tok }) rfl rfl ?_
  refine .bind (does_simple (D := D) hd hf hi.forStmt ht rfl rfl) fun r s1 _ ⟨h1, h2⟩ => ?_
  have k := forStmt_keeps.trans h2
  cases r with
  | some ty => exact .pure ⟨h1, k⟩
  | none => exact hn s1 h1 k

theorem does_tree (hd : cfg.debug = true) (hf : FoldConst cfg) : ∀ (t : ATree) (mode : LMode) {s : DState}, Ready N cfg s → AtMode N s mode →
    s.l.currentFunc ∉ t.defs → t.defs.Nodup → Tokened t → (N → NoNameConds t) →
    Does (genTreeD cfg mode t) (genTreeL cfg mode t) s (fun _ s' => Ready N cfg s' ∧ Keeps t.defs s s')
  | .nil, mode, s, hi, hm, _, _, _, _ => by
    simp only [genTreeD, genTreeL]
    refine .bind (does_closeIf (D := ATree.nil.defs) hd hf hi hm) fun _ s1 _ ⟨h1, h2⟩ => ?_
    exact .pure ⟨h1, h2⟩
  | .unchecked u, mode, s, hi, hm, _, _, _, _ => by
    simp only [genTreeD, genTreeL]
    exact .ub
  | .node ann stmt tok child next, mode, s, hi, hm, hcf, hnd, htk, hN => by
    rw [defs_node] at hcf hnd ⊢
    obtain ⟨n1, n2, n3, n4⟩ := nodup_parts hnd
    obtain ⟨t1, _, t2, t3⟩ := htk
    have hNn : N → NoNameConds next := fun h => (hN h).2.2
    have hNc : N → NoNameConds child := fun h => (hN h).2.1
    have cfc : s.l.currentFunc ∉ child.defs := fun h => hcf (by simp [h])
    have cfn : s.l.currentFunc ∉ next.defs := fun h => hcf (by simp [h])
    -- what follows, and what is in the block
    have after : ∀ mode (s1 : DState), Ready N cfg s1 → AtMode N s1 mode → Keeps (ann.defs ++ (child.defs ++ next.defs)) s s1 →
        Does (genTreeD cfg mode next) (genTreeL cfg mode next) s1 (fun _ s' => Ready N cfg s' ∧ Keeps (ann.defs ++ (child.defs ++ next.defs)) s s') := by
      intro mode s1 r1 m1 k1
      refine (does_tree hd hf next mode r1 m1 (by rw [k1.currentFunc]; exact cfn) n2 t3 hNn).mono fun _ s' _ ⟨h1, h2⟩ => ⟨h1, k1.trans (h2.mono (by simp +contextual))⟩
    have inside : ∀ s1 : DState, Ready N cfg s1 → s1.l.currentFunc = s.l.currentFunc →
        Does (genTreeD cfg .stmts child) (genTreeL cfg .stmts child) s1 (fun _ s' => Ready N cfg s' ∧ Keeps (ann.defs ++ (child.defs ++ next.defs)) s1 s') := by
      intro s1 r1 c1
      exact (does_tree hd hf child .stmts r1 trivial (by rw [c1]; exact cfc) n1 t2 hNc).mono fun _ s' _ ⟨h1, h2⟩ => ⟨h1, h2.mono (by simp +contextual)⟩
    have key : ∀ s : DState, Ready N cfg s → s.l.currentFunc ∉ ann.defs ++ (child.defs ++ next.defs) →
        (∀ mode (s1 : DState), Ready N cfg s1 → AtMode N s1 mode → Keeps (ann.defs ++ (child.defs ++ next.defs)) s s1 →
          Does (genTreeD cfg mode next) (genTreeL cfg mode next) s1 (fun _ s' => Ready N cfg s' ∧ Keeps (ann.defs ++ (child.defs ++ next.defs)) s s')) →
        (∀ s1 : DState, Ready N cfg s1 → s1.l.currentFunc = s.l.currentFunc →
          Does (genTreeD cfg .stmts child) (genTreeL cfg .stmts child) s1 (fun _ s' => Ready N cfg s' ∧ Keeps (ann.defs ++ (child.defs ++ next.defs)) s1 s')) →
        Does (genTreeD cfg .stmts (.node ann stmt tok child next)) (genTreeL cfg .stmts (.node ann stmt tok child next)) s
          (fun _ s' => Ready N cfg s' ∧ Keeps (ann.defs ++ (child.defs ++ next.defs)) s s') := by
      intro s hi hcf after inside
      have plain := does_plain (N := N) (cfg := cfg) (s := s) (ann := ann) (stmt := stmt) (tok := tok) (D := ann.defs ++ (child.defs ++ next.defs))
        (dg := genTreeD cfg .stmts next) (g := genTreeL cfg .stmts next) hd hf hi t1 (fun s1 r1 k1 => after .stmts s1 r1 trivial k1)
      cases stmt with
      | ifs c =>
        have t1 := t1 (by simp)
        cases ann with
        | expr e =>
          show Does (DGen.lift currentRef >>= _) (currentRef >>= _) s _
          refine .step fun f l h => ?_
          unfold currentRef at h
          rw [LGen.bind_get] at h
          obtain ⟨hr, rfl⟩ := LGen.ofOption_eq.1 h
          have hcur : f = s.l.curFn := Option.some.inj (hr.symm.trans hi.ref)
          refine .liftGet ?_
          refine .step fun fin l1 h1 => ?_
          have a1 := appendBlock_eq h1
          have r1 := hi.append a1
          have k1 : Keeps ((Ann.expr e).defs ++ (child.defs ++ next.defs)) s { s with l := l1 } := keeps_append a1
          refine .step fun b l2 h2 => ?_
          have a2 := appendBlock_eq h2
          have r2 := r1.append a2
          have k2 := k1.trans (keeps_append (s := { s with l := l1 }) a2)
          refine .step fun _ l3 h3 => ?_
          have e3 := LGen.modify_eq.1 h3
          have c2 : f = l2.curFn := hcur.trans k2.curFn.symm
          have r3 : Ready N cfg { s with l := l3 } := by rw [e3]; exact r2.at c2 ⟨_, a2.empty⟩
          have k3 : Keeps ((Ann.expr e).defs ++ (child.defs ++ next.defs)) s { s with l := l3 } := by rw [e3]; exact k2.trans (keeps_at (s := { s with l := l2 }) c2)
          refine .bind (does_codeBlock hd r3 t1 fun s1 q1 q2 => inside s1 q1 (by rw [q2]; exact k3.currentFunc)) fun _ s4 _ ⟨r4, k4⟩ => ?_
          have k04 := k3.trans k4
          refine after _ s4 r4 ⟨hcur.trans k04.curFn.symm, ?_, ?_, fun h => (hN h).1 e rfl ⟨c, .inl rfl⟩⟩ k04
          · rw [hcur]; exact k04.grow.has hi.block
          · refine k4.grow.has ?_
            show ∃ code, blockOf l3.funcs f fin = some code
            rw [e3]
            exact (steps_appended a2).grow.has ⟨_, a1.empty⟩
        | _ => exact .ub
      | whiles c =>
        have t1 := t1 (by simp)
        cases ann with
        | expr e =>
          show Does (whileD cfg e tok (genTreeD cfg .stmts child) >>= fun _ => genTreeD cfg .stmts next) (whileL cfg e (genTreeL cfg .stmts child) >>= fun _ => genTreeL cfg .stmts next) s _
          refine .bind (does_while hd hf hi t1 (fun h => (hN h).1 e rfl ⟨c, .inr (.inr rfl)⟩) inside) fun _ s1 _ ⟨r1, k1⟩ => ?_
          exact after .stmts s1 r1 trivial k1
        | _ => exact .ub
      | funcProto p =>
        cases ann with
        | func id ps =>
          show Does (functionD cfg id ps (genTreeD cfg .stmts child) >>= fun _ => genTreeD cfg .stmts next) (functionL cfg id ps (genTreeL cfg .stmts child) >>= fun _ => genTreeL cfg .stmts next) s _
          have hin : ∀ i ∈ id :: child.defs, i ∈ (Ann.func id ps).defs ++ (child.defs ++ next.defs) := by
            intro i h
            rcases List.mem_cons.1 h with rfl | h <;> simp_all [Ann.defs]
          refine .bind (does_function (D := child.defs) hd hi (fun h => hcf (hin _ h)) fun s1 r1 c1 => ?_) fun _ s1 _ ⟨r1, k1⟩ => ?_
          · refine does_tree hd hf child .stmts r1 trivial ?_ n1 t2 hNc
            rw [c1]
            exact fun h => n3 id h (by simp [Ann.defs])
          · exact after .stmts s1 r1 trivial (k1.mono hin)
        | _ => exact .ub
      | namespaces =>
        have t1 := t1 (by simp)
        show Does (scopedD cfg tok (genTreeD cfg .stmts child) >>= fun _ => genTreeD cfg .stmts next) (genTreeL cfg .stmts child >>= fun _ => genTreeL cfg .stmts next) s _
        refine .bind (does_scoped hd hi t1 fun s1 q1 q2 => inside s1 q1 (by rw [q2])) fun _ s1 _ ⟨r1, k1⟩ => ?_
        exact after .stmts s1 r1 trivial k1
      | _ => exact plain
    cases mode with
    | stmts => exact key s hi hcf after inside
    | afterIf e f entry b fin =>
      by_cases hs : stmt ≠ .comment ∧ stmt ≠ .elses ∧ ∀ c, stmt ≠ .elifs c
      · rw [tree_after hs, tree_afterL hs]
        refine .bind (does_closeIf (D := ann.defs ++ (child.defs ++ next.defs)) hd hf hi hm) fun _ s1 _ ⟨r1, k1⟩ => ?_
        refine (key s1 r1 (by rw [k1.currentFunc]; exact hcf) ?_ ?_).mono fun _ s' _ ⟨h1, h2⟩ => ⟨h1, k1.trans h2⟩
        · intro mode s2 r2 m2 k2
          exact (does_tree hd hf next mode r2 m2 (by rw [k2.currentFunc, k1.currentFunc]; exact cfn) n2 t3 hNn).mono
            fun _ s' _ ⟨h1, h2⟩ => ⟨h1, k2.trans (h2.mono (by simp +contextual))⟩
        · intro s2 r2 c2
          exact inside s2 r2 (c2.trans k1.currentFunc)
      · obtain ⟨hc, he, hfin, hNe⟩ := hm
        cases stmt with
        | comment => exact after _ s hi ⟨hc, he, hfin, hNe⟩ .refl
        | elifs c =>
          have t1 := t1 (by simp)
          cases ann with
          | expr e' =>
            show Does (nextIfD cfg e f entry b >>= _) (nextIf cfg e f entry b >>= _) s _
            refine .bind (does_nextIf (D := (Ann.expr e').defs ++ (child.defs ++ next.defs)) hd hf hi hc he hNe) fun fls s1 _ ⟨r1, k1, hfls⟩ => ?_
            refine .step fun b' l2 h2 => ?_
            have a2 := appendBlock_eq h2
            have r2 := r1.append a2
            have k2 := k1.trans (keeps_append a2)
            refine .step fun _ l3 h3 => ?_
            have e3 := LGen.modify_eq.1 h3
            have c2 : f = l2.curFn := hc.trans k2.curFn.symm
            have r3 : Ready N cfg { s1 with l := l3 } := by rw [e3]; exact r2.at c2 ⟨_, a2.empty⟩
            have k3 : Keeps ((Ann.expr e').defs ++ (child.defs ++ next.defs)) s { s1 with l := l3 } := by rw [e3]; exact k2.trans (keeps_at (s := { s1 with l := l2 }) c2)
            refine .bind (does_codeBlock hd r3 t1 fun s1 q1 q2 => inside s1 q1 (by rw [q2]; exact k3.currentFunc)) fun _ s4 _ ⟨r4, k4⟩ => ?_
            have k04 := k3.trans k4
            refine after _ s4 r4 ⟨hc.trans k04.curFn.symm, ?_, k04.grow.has hfin, fun h => (hN h).1 e' rfl ⟨c, .inr (.inl rfl)⟩⟩ k04
            refine k4.grow.has ?_
            show ∃ code, blockOf l3.funcs f fls = some code
            rw [e3]
            exact (steps_appended a2).grow.has hfls
          | _ => exact .ub
        | elses =>
          have t1 := t1 (by simp)
          show Does (nextIfD cfg e f entry b >>= _) (nextIf cfg e f entry b >>= _) s _
          refine .bind (does_nextIf (D := ann.defs ++ (child.defs ++ next.defs)) hd hf hi hc he hNe) fun fls s1 _ ⟨r1, k1, hfls⟩ => ?_
          refine .step fun _ l3 h3 => ?_
          have e3 := LGen.modify_eq.1 h3
          have c1 : f = s1.l.curFn := hc.trans k1.curFn.symm
          have r3 : Ready N cfg { s1 with l := l3 } := by rw [e3]; exact r1.at c1 hfls
          have k3 : Keeps (ann.defs ++ (child.defs ++ next.defs)) s { s1 with l := l3 } := by rw [e3]; exact k1.trans (keeps_at c1)
          refine .bind (does_codeBlock hd r3 t1 fun s1 q1 q2 => inside s1 q1 (by rw [q2]; exact k3.currentFunc)) fun _ s4 _ ⟨r4, k4⟩ => ?_
          have k04 := k3.trans k4
          have c4 : f = s4.l.curFn := hc.trans k04.curFn.symm
          refine .step fun _ l5 h5 => ?_
          have e5 := LGen.modify_eq.1 h5
          have r5 : Ready N cfg { s4 with l := l5 } := by rw [e5]; exact r4.at c4 (k04.grow.has hfin)
          exact after _ _ r5 trivial (by rw [e5]; exact k04.trans (keeps_at c4))
        | _ => exact (hs (by simp)).elim

/- ### Modules -/

theorem ready_setup {name : List Char} : Ready N cfg { l := setupL name } := by
  refine ⟨⟨⟨?_, ?_, ?_, ?_, ?_, ?_⟩, ?_, ?_, rfl, ⟨[], rfl⟩⟩, rfl, rfl⟩
  · intro d hd; cases hd
  · rintro r g a ⟨f, b, code, h1, h2⟩
    have : code = [] := by
      match f, b with
      | 0, 0 => exact (Option.some.inj h1).symm
      | 0, b + 1 => cases h1
      | f + 1, b => cases h1
    subst this
    cases h2
  · intro d hd; cases hd
  · intro d hd; cases hd
  · intro d hd; cases hd
  · intro _ d hd; cases hd
  · intro id i h; cases h
  · intro id i h; cases h

/-- The generator for modules. -/
theorem does_module {t : ATree} {name : List Char} (hd : cfg.debug = true) (hf : FoldConst cfg) (h0 : 0 ∉ t.defs) (hnd : t.defs.Nodup) (htk : Tokened t) (hne : t ≠ .nil)
    (hN : N → NoNameConds t) : Does (genModuleD cfg t) (genModuleL cfg t) { l := setupL name } (fun _ s' => Ready N cfg s') := by
  unfold genModuleD genModuleL
  refine .bind (does_tree hd hf t .stmts ready_setup trivial h0 hnd htk hN) fun r s1 hm ⟨r1, k1⟩ => ?_
  cases r with
  | some ty => exact .pure r1
  | none =>
    cases t with
    | nil => exact (hne rfl).elim
    | unchecked u => simp only [genTreeL] at hm; exact (LGen.ub_eq.1 hm).elim
    | node ann stmt tok child next =>
      refine .extra (s' := { s1 with ann := .none, tok := tok }) rfl rfl ?_
      have ht : tok ≠ [] := by
        refine htk.1 ?_
        rintro rfl
        have : (simpleL cfg ann .unknown >>= fun r => match r with | some ty => pure (some ty) | none => genTreeL cfg .stmts next) (setupL name) = some (none, s1.l) := hm
        obtain ⟨_, _, h, _⟩ := LGen.bind_eq.1 this
        simp only [simpleL] at h
        exact (LGen.ub_eq.1 h).elim
      have r2 : Ready N cfg { s1 with ann := .none, tok := tok } := r1.forStmt
      exact (does_emitAt hd r2.toInv ht (by simp) rfl).mono fun _ s' _ ⟨h1, h2⟩ => h2.ready h1 r2

theorem codegenD_eq {t : ATree} {name : List Char} (hd : cfg.debug = true) (hf : FoldConst cfg) (h0 : 0 ∉ t.defs) (hnd : t.defs.Nodup) (htk : Tokened t) (hne : t ≠ .nil) :
    (codegenD cfg name t).map (·.l) = codegenL cfg name t := by
  have h := does_module (N := False) (name := name) hd hf h0 hnd htk hne (fun h => h.elim)
  unfold Does at h
  unfold codegenD codegenL
  cases hm : genModuleL cfg t (setupL name) with
  | none => rw [hm] at h; simp only at h; rw [h]; rfl
  | some r =>
    rw [hm] at h
    obtain ⟨s', h1, h2, _⟩ := h
    rw [h1]
    exact congrArg some h2

theorem codegenD_ready {t : ATree} {name : List Char} {s : DState} (hd : cfg.debug = true) (hf : FoldConst cfg) (h0 : 0 ∉ t.defs) (hnd : t.defs.Nodup) (htk : Tokened t)
    (hne : t ≠ .nil) (hN : N → NoNameConds t) (h : codegenD cfg name t = some s) : Ready N cfg s := by
  have hm := does_module (N := N) (name := name) hd hf h0 hnd htk hne hN
  unfold Does at hm
  unfold codegenD at h
  cases hg : genModuleL cfg t (setupL name) with
  | none => rw [hg] at hm; simp only at hm; rw [hm] at h; cases h
  | some r =>
    rw [hg] at hm
    obtain ⟨s', h1, _, h3⟩ := hm
    rw [h1] at h
    cases h
    exact h3

/-- A register among the operands of an instruction of a verified module is set in the function. -/
theorem args_defined {M : List LFunc} {G : List LGlobal} {f r : Nat} {P : Nat → LTy → Prop} : ∀ {vs : List LVal} {tys : List Ty}, ArgsAre M G f P vs tys → .reg r ∈ vs → ∃ τ, P r τ
  | _, _, .nil, h => nomatch h
  | _, _, .cons h1 h2, h => by
    rcases List.mem_cons.1 h with e | h
    · subst e; exact ⟨_, h1⟩
    · exact args_defined h2 h

theorem operand_defined {M : List LFunc} {G : List LGlobal} {f r : Nat} {P : Nat → LTy → Prop} {i : LInstr} (h : InstrIs M G f P i) (hr : .reg r ∈ operandsOf i) : ∃ τ, P r τ := by
  cases i with
  | bin _ op a b =>
    obtain ⟨τ, _, h1, h2⟩ := h
    simp only [operandsOf, List.mem_cons, List.not_mem_nil, or_false] at hr
    rcases hr with e | e <;> subst e
    · exact ⟨_, h1⟩
    · exact ⟨_, h2⟩
  | load _ ty p =>
    simp only [operandsOf, List.mem_cons, List.not_mem_nil, or_false] at hr
    subst hr
    exact ⟨_, h.2⟩
  | store v p =>
    obtain ⟨⟨τ, _, h1⟩, h2⟩ := h
    simp only [operandsOf, List.mem_cons, List.not_mem_nil, or_false] at hr
    rcases hr with e | e <;> subst e
    · exact ⟨_, h1⟩
    · exact ⟨_, h2⟩
  | alloca => cases hr
  | call _ g args =>
    obtain ⟨x, _, h1⟩ := h
    exact args_defined h1 hr
  | builtin _ g a b =>
    obtain ⟨h1, h2⟩ := h
    simp only [operandsOf, List.mem_cons, List.not_mem_nil, or_false] at hr
    rcases hr with e | e <;> subst e
    · exact ⟨_, h1⟩
    · exact ⟨_, h2⟩
  | br => cases hr
  | condBr c t e =>
    simp only [operandsOf, List.mem_cons, List.not_mem_nil, or_false] at hr
    subst hr
    exact ⟨_, h.1⟩
  | ret v =>
    obtain ⟨x, _, _, h1⟩ := h
    simp only [operandsOf, List.mem_cons, List.not_mem_nil, or_false] at hr
    subst hr
    exact ⟨_, h1⟩
  | retVoid => cases hr
  | unreachable => cases hr

theorem Ready.verified {s : DState} (h : Ready N cfg s) (hv : Verified s.l.funcs s.l.globals) : DebugVerified s.l.funcs s := by
  refine ⟨fun d hd => ?_, fun f b code hb r g args hi => h.locs.calls r g args ⟨f, b, code, hb, hi⟩, h.locs.vars, h.globs⟩
  have := h.locs.fits d hd
  unfold Fits at this
  split at this
  · rename_i r hr
    rw [hr]
    obtain ⟨b, code, i, h1, h2, h3⟩ := this
    have ht := hv.types _ b code h1 i h2
    rcases h3 with h3 | ⟨g, args, rfl⟩
    · exact operand_defined ht h3
    · obtain ⟨x, h4, _⟩ := ht
      exact ⟨lty x.ret, b, code, _, h1, h2, by simp only [resultOf, h4, Option.map_some]⟩
  · rename_i f b i hr
    rw [hr]
    exact this

theorem linkNodes_ne : ∀ (ns : List Node) (acc : Tree), (ns ≠ [] ∨ acc ≠ .nil) → linkNodes ns acc ≠ .nil
  | [], acc, h => h.resolve_left (fun h => h rfl)
  | n :: ns, acc, _ => linkNodes_ne ns _ (.inr (by simp))

theorem parsed_ne {t : Tree} (h : Parsed t) : t ≠ .nil := by
  obtain ⟨toks, s, h⟩ := h
  have tree_ne : ∀ c : PCtx, c.tree ≠ .nil := by
    intro c
    unfold PCtx.tree
    split
    · simp
    · rename_i ns hns
      exact linkNodes_ne _ _ (.inl hns)
  have key : ∀ n lvl p t' s', parseTree n lvl p = .ok (some t') s' → t' ≠ .nil := by
    intro n lvl p t' s' h
    cases n with
    | zero => unfold parseTree at h; cases h
    | succ f =>
      unfold parseTree at h
      split at h
      · cases h
      · cases h
      · split at h
        · cases h
        · split at h
          · cases h
          · cases h
            exact tree_ne _
  unfold parseAstTree at h
  split at h
  · cases h
  · cases h
  · cases h
  · rename_i t' s' hp
    split at h
    · cases h
    · cases h
      have := key _ _ _ _ _ hp
      cases t' with
      | nil => exact (this rfl).elim
      | node =>
        unfold Tree.setHead
        intro e
        split at e
        · rename_i h; cases h
        · split at e <;> cases e

theorem nodes_ne {cfg : Cfg} {t : Tree} (h : t ≠ .nil) (before : List Stmt) : Gives (validateNodes cfg before t) (· ≠ .nil) := by
  cases t with
  | nil => exact (h rfl).elim
  | node stmt tok tokEnd child next =>
    unfold validateNodes
    exact .andThen fun _ => .andThen fun _ => .andThen fun _ => .pure (by simp)

theorem semantic_ne {cfg : Cfg} {t : Tree} {a : ATree} {s : SS} (hp : Parsed t) (h : semantic cfg t = .ok a s) : a ≠ .nil := by
  unfold semantic at h
  split at h
  · cases h
  · rename_i s₀ _
    unfold validateAstTree at h
    obtain ⟨a', s₁, h1, h⟩ := bind_ok.1 h
    have : a' = a := by
      obtain ⟨s₂, _, h⟩ := bind_ok_unit.1 h
      obtain ⟨s₃, _, h⟩ := bind_ok_unit.1 h
      split at h
      · cases h; rfl
      · obtain ⟨b, s₄, _, h⟩ := bind_ok.1 h
        split at h
        · cases h
        · cases h; rfl
    subst this
    exact nodes_ne (parsed_ne hp) [] _ _ _ h1

end Skull.DInfo
