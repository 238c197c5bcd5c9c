import Verif.Proofs.DebugInfo
import Verif.Proofs.LGrow
/-
Where the generator with debug information puts locations: statements and functions.
-/
namespace Skull.DInfo
open Spec

variable {N : Prop} {cfg : LCfg}

theorem Does.get {df : DState → DGen β} {f : LState → LGen β} {s : DState} {R : β → DState → Prop}
    (h : Does (df s) (f s.l) s R) : Does (DGen.get >>= df) (LGen.get >>= f) s R := h

theorem Does.liftGet {df : LState → DGen β} {f : LState → LGen β} {s : DState} {R : β → DState → Prop}
    (h : Does (df s.l) (f s.l) s R) : Does (DGen.lift LGen.get >>= df) (LGen.get >>= f) s R := h

/-- What a statement leaves; `D` are the functions that it may define. -/
structure Keeps (D : List Nat) (s s' : DState) : Prop where
  scope : s'.scope = s.scope
  curFn : s'.l.curFn = s.l.curFn
  currentFunc : s'.l.currentFunc = s.l.currentFunc
  grow : Gw s.l.funcs s'.l.funcs
  refs : ∀ id, id ∉ D → s'.l.funcRef id = s.l.funcRef id

theorem Keeps.refl {D : List Nat} {s : DState} : Keeps D s s := ⟨rfl, rfl, rfl, .refl, fun _ _ => rfl⟩

theorem Keeps.trans {D : List Nat} {s s' s'' : DState} (h : Keeps D s s') (h' : Keeps D s' s'') : Keeps D s s'' :=
  ⟨h'.scope.trans h.scope, h'.curFn.trans h.curFn, h'.currentFunc.trans h.currentFunc, h.grow.trans h'.grow,
    fun id hi => (h'.refs id hi).trans (h.refs id hi)⟩

theorem Keeps.mono {D D' : List Nat} {s s' : DState} (h : Keeps D s s') (hd : ∀ id ∈ D, id ∈ D') : Keeps D' s s' :=
  { h with refs := fun id hi => h.refs id fun hc => hi (hd id hc) }

/-- The described globals are the globals. -/
def Globs (s : DState) : Prop := s.globals.map (·.1) = List.range s.l.globals.length

/-- Before and behind statements. -/
structure Ready (N : Prop) (cfg : LCfg) (s : DState) : Prop extends Inv N cfg s where
  globs : Globs s
  ref : s.l.funcRef s.l.currentFunc = some s.l.curFn

theorem Within.keeps {D : List Nat} {s s' : DState} (h : Within s s') : Keeps D s s' := by
  obtain ⟨is, n, e, _⟩ := h.gen
  exact ⟨h.scope, by rw [e]; rfl, by rw [e]; rfl, by rw [e]; exact gw_gen _ _ _, fun _ _ => by rw [e]; rfl⟩

theorem Within.globs {s s' : DState} (h : Within s s') (hg : Globs s) : Globs s' := by
  obtain ⟨is, n, e, _⟩ := h.gen
  unfold Globs at hg ⊢
  rw [h.globals, e]
  exact hg

theorem Within.ready {s s' : DState} (h : Within s s') (hi : Inv N cfg s') (hr : Ready N cfg s) : Ready N cfg s' := by
  refine ⟨hi, h.globs hr.globs, ?_⟩
  obtain ⟨is, n, e, _⟩ := h.gen
  rw [e]
  exact hr.ref

/- ### Conditions -/

theorem exprTok_mem : ∀ (e : AExpr), exprTok e ∈ tokensE e
  | .ident .. => by simp [exprTok, tokensE]
  | .const .. => by simp [exprTok, tokensE]
  | .call .. => by simp [exprTok, tokensE]
  | .un _ r _ _ => by simp only [exprTok, tokensE]; exact exprTok_mem r
  | .bin _ l _ _ _ => by simp only [exprTok, tokensE]; exact List.mem_append_left _ (exprTok_mem l)

/-- A location for the value of a condition, and the jump. -/
theorem does_jump {s : DState} {v : LVal} {t : Token} {b c : Nat} (hd : cfg.debug = true) (hi : Inv N cfg s) (hp : Plain v)
    (hv : ∀ r, v = .reg r → r < s.l.nextReg) (ht : t ∈ statementToks s.ann s.tok)
    (ho : N → ∀ r, v = .reg r → ∀ d ∈ s.locs, d.instr = .reg r → d.ann = s.ann ∧ d.tok = s.tok) :
    Does (do locVal cfg v t.pos; DGen.lift (emit (.condBr v b c))) (emit (.condBr v b c)) s (fun _ s' => Inv N cfg s' ∧ Within s s') := by
  have hc : NoCall [.condBr v b c] := noCall_one (by simp)
  by_cases h : ∃ r, v = .reg r
  · obtain ⟨r, rfl⟩ := h
    have e : locVal cfg (.reg r) t.pos s = some ((), { s with locs := ⟨.reg r, t.pos, s.scope, s.ann, s.tok⟩ :: s.locs }) := by
      unfold locVal
      rw [hd]
      rfl
    refine .extra e rfl (.lift fun a l ha => ?_)
    cases emit_eq.1 ha
    obtain ⟨code, hb⟩ := hi.block
    have hst := steps_gen (l := s.l) hc (Nat.le_refl s.l.nextReg)
    refine ⟨⟨?_, hi.params, hi.below, hi.here, hasBlock_gen hi.block⟩, ⟨⟨_, _, rfl, Nat.le_refl _⟩, rfl, rfl, rfl, rfl, rfl, ?_⟩⟩
    · refine hi.locs.cons hst.grow hst.le rfl rfl ?_ (.inl ⟨t, ht, rfl⟩) (fun r g a hh => .inl (hst.calls r g a hh)) ?_ ?_
      · refine ⟨s.l.curBlock, code ++ [.condBr (.reg r) b c], .condBr (.reg r) b c, ?_, List.mem_append_right _ (List.mem_singleton.2 rfl), .inl ?_⟩
        · rw [hi.here]; exact blockOf_gen_cur hb
        · exact List.mem_singleton.2 rfl
      · intro r' hr
        cases hr
        exact hv r rfl
      · intro hN d' hd' he
        exact ho hN r rfl d' hd' he
    · intro d hd'
      rcases List.mem_cons.1 hd' with rfl | hd'
      · exact .inr ⟨rfl, rfl⟩
      · exact .inl hd'
  · have hk : v.isConstant = true := by
      cases v with
      | param i => exact (hp i rfl).elim
      | reg r => exact (h ⟨r, rfl⟩).elim
      | _ => rfl
    have e : locVal cfg v t.pos s = some ((), s) := by
      unfold locVal
      rw [hk, hd]
      rfl
    refine .extra e rfl (.lift fun a l ha => ?_)
    cases emit_eq.1 ha
    exact ⟨hi.gen hc (Nat.le_refl _), within_gen (Nat.le_refl _)⟩

/-- The statement changes. -/
theorem Inv.forStmt {s : DState} {ann : Ann} {tok : List Token} (hi : Inv N cfg s) : Inv N cfg { s with ann := ann, tok := tok } :=
  ⟨hi.locs.steps .refl rfl rfl, hi.params, hi.below, hi.here, hi.block⟩

theorem Ready.forStmt {s : DState} {ann : Ann} {tok : List Token} (hi : Ready N cfg s) : Ready N cfg { s with ann := ann, tok := tok } :=
  ⟨hi.toInv.forStmt, hi.globs, hi.ref⟩

theorem forStmt_keeps {D : List Nat} {s : DState} {ann : Ann} {tok : List Token} : Keeps D s { s with ann := ann, tok := tok } :=
  ⟨rfl, rfl, rfl, .refl, fun _ _ => rfl⟩

theorem does_branch {s : DState} {e : AExpr} {b c : Nat} {D : List Nat} (hd : cfg.debug = true) (hf : FoldConst cfg) (hi : Ready N cfg s) (hN : N → bareName e = false) :
    Does (branchD cfg e b c) (genExprL cfg e >>= fun x => emit (.condBr x.val b c)) s (fun _ s' => Ready N cfg s' ∧ Keeps D s s') := by
  unfold branchD
  refine .extra (s' := { s with ann := .expr e, tok := [] }) rfl rfl ?_
  have hi0 : Ready N cfg { s with ann := .expr e, tok := [] } := hi.forStmt
  refine .bind (does_expr hd e hi0.toInv fun t h => by simpa [statementToks] using h) fun x s1 hx h1 => ?_
  obtain ⟨is, n, hc, hl⟩ := genExprL_code e hx
  have h1r := h1.2.ready h1.1 hi0
  refine (does_jump hd h1.1 (plain_value (R := s.l.env) hf (fun id i => hi.params id i) hc) ?_ ?_ ?_).mono fun _ s' _ h2 =>
    ⟨h2.2.ready h2.1 h1r, (forStmt_keeps.trans h1.2.keeps).trans h2.2.keeps⟩
  · rw [hl]
    exact value_below (R := s.l.env) hf (fun id r => hi.below id r) hc
  · rw [h1.2.ann, h1.2.tok]
    simpa [statementToks] using exprTok_mem e
  · intro hn r hr d hd' he
    rcases h1.2.new d hd' with hd' | ⟨ha, hb⟩
    · have h2 := (fresh_value hf hc (hN hn) r hr).1
      have h3 := hi.locs.old d hd' r he
      exact absurd h2 (Nat.not_le.2 h3)
    · rw [ha, hb, h1.2.ann, h1.2.tok]
      exact ⟨rfl, rfl⟩

/- ### Instructions with a location -/

theorem does_located {m : LGen Unit} {s : DState} {p : DPos} (hd : cfg.debug = true) (hi : Inv N cfg s)
    (h : ∀ a l, m s.l = some (a, l) → ∃ is n, l = s.l.gen is n ∧ NoCall is ∧ is ≠ [] ∧ s.l.nextReg ≤ n ∧
      ∀ i sc, FromStatement ⟨i, p, sc, s.ann, s.tok⟩ ∨ (FromVariable cfg.syms ⟨i, p, sc, s.ann, s.tok⟩ ∧ ∃ js v q, is = js ++ [.store v q])) :
    Does (do DGen.lift m; locLast cfg p) m s (fun _ s' => Inv N cfg s' ∧ Within s s') := by
  refine Does.also (Q := fun a s' => ∃ l, m s.l = some (a, l) ∧ s' = { s with l := l }) (.lift fun a l h => ⟨l, h, rfl⟩) ?_
  rintro _ _ _ ⟨l, hm, rfl⟩
  obtain ⟨is, n, rfl, hc, hne, hn, hsrc⟩ := h _ l hm
  obtain ⟨code, hb⟩ := hi.block
  refine ⟨{ s with l := s.l.gen is n, locs := ⟨.at s.l.curFn s.l.curBlock ((code ++ is).length - 1), p, s.scope, s.ann, s.tok⟩ :: s.locs }, ?_, rfl,
    ⟨?_, hi.params, fun id r hr => Nat.lt_of_lt_of_le (hi.below id r hr) hn, hi.here, hasBlock_gen hi.block⟩, ⟨⟨_, _, rfl, hn⟩, rfl, rfl, rfl, rfl, rfl, ?_⟩⟩
  · unfold locLast
    rw [hd, if_pos rfl]
    have e : ((s.l.gen is n).funcs[(s.l.gen is n).curFn]?).bind (fun f => f.blocks[(s.l.gen is n).curBlock]?) = some (code ++ is) := blockOf_gen_cur hb
    show DGen.bind DGen.get _ _ = _
    unfold DGen.bind DGen.get
    simp only
    rw [e]
    rfl
  · exact hi.locs.last hc hne hn hb rfl rfl rfl hi.here fun i => hsrc i _
  · intro d hd'
    rcases List.mem_cons.1 hd' with rfl | hd'
    · exact .inr ⟨rfl, rfl⟩
    · exact .inl hd'

theorem fromStatement_head {i : DInstr} {t : Token} {ts : List Token} {sc : DScope} {ann : Ann} {tok : List Token} (h : tok = t :: ts) :
    FromStatement ⟨i, t.pos, sc, ann, tok⟩ := ⟨t, by subst h; exact List.mem_append_left _ (List.mem_singleton.2 rfl), rfl⟩

/-- An instruction with the location of the node. -/
theorem does_emitAt {s : DState} {i : LInstr} (hd : cfg.debug = true) (hi : Inv N cfg s) (ht : s.tok ≠ []) (hc : ∀ r g a, i ≠ .call r g a) {tok : List Token}
    (htk : tok = s.tok) : Does (emitAt cfg i tok) (emit i) s (fun _ s' => Inv N cfg s' ∧ Within s s') := by
  subst htk
  cases hk : s.tok with
  | nil => exact (ht hk).elim
  | cons t ts =>
    have e : emitAt cfg i (t :: ts) = (do DGen.lift (emit i); locLast cfg t.pos) := by
      unfold emitAt
      rw [hd]
      rfl
    rw [e]
    refine does_located hd hi ?_
    intro a l h
    exact ⟨[i], s.l.nextReg, emit_eq.1 h, noCall_one hc, by simp, Nat.le_refl _, fun j sc => .inl (fromStatement_head hk)⟩

theorem does_noop {s : DState} (hd : cfg.debug = true) (hi : Inv N cfg s) (ht : s.tok ≠ []) {tok : List Token}
    (htk : tok = s.tok) : Does (noopD cfg tok) (noopL cfg) s (fun _ s' => Inv N cfg s' ∧ Within s s') := by
  subst htk
  cases hk : s.tok with
  | nil => exact (ht hk).elim
  | cons t ts =>
    have e : noopD cfg (t :: ts) = (do DGen.lift (noopL cfg); locLast cfg t.pos) := by
      unfold noopD
      rw [hd]
      rfl
    rw [e]
    refine does_located hd hi ?_
    intro a l h
    unfold noopL at h
    rw [if_pos hd] at h
    rw [bind_newReg, bind_emit] at h
    have := emit_eq.1 h
    simp only [LState.gen_gen, LState.gen_nextReg, List.nil_append] at this
    exact ⟨_, _, this, noCall_append (is := [_]) (noCall_one (by simp)) (noCall_one (by simp)), by simp, Nat.le_succ _, fun j sc => .inl (fromStatement_head hk)⟩

/- ### Variables -/

/-- Between the parts of a statement that gives a value to a variable. -/
structure Sets (s s' : DState) : Prop where
  scope : s'.scope = s.scope
  ann : s'.ann = s.ann
  globals : s'.globals = s.globals
  vars : s'.vars = s.vars
  lglobals : s'.l.globals = s.l.globals
  curFn : s'.l.curFn = s.l.curFn
  currentFunc : s'.l.currentFunc = s.l.currentFunc
  funcRef : s'.l.funcRef = s.l.funcRef
  grow : Gw s.l.funcs s'.l.funcs
  isGlobal : s'.l.isGlobal = s.l.isGlobal

theorem fromVariable {i : DInstr} {sc : DScope} {ann : Ann} {tok : List Token} {id : Nat} (h : ∃ e, ann = .varDef id e ∨ ann = .varAssign id e) :
    FromVariable cfg.syms ⟨i, symPos cfg id, sc, ann, tok⟩ := by
  obtain ⟨e, h⟩ := h
  refine ⟨id, e, h, ?_⟩
  unfold symPos
  cases cfg.syms[id]? <;> rfl

theorem does_assign {s : DState} {id : Nat} {v : LVal} (hd : cfg.debug = true) (hi : Inv N cfg s) (hp : Plain v) (hv : ∀ r, v = .reg r → r < s.l.nextReg)
    (ha : ∃ e, s.ann = .varDef id e ∨ s.ann = .varAssign id e) :
    Does (assignD cfg id v) (assignL cfg id v) s (fun _ s' => Inv N cfg s' ∧ Sets s s' ∧
      (s.l.isGlobal id = true → v.isConstant = false → s'.l.refs = s.l.refs)) := by
  unfold assignD assignL
  refine .step fun var l h => ?_
  obtain ⟨_, rfl⟩ := LGen.ofOption_eq.1 h
  refine .liftGet ?_
  dsimp only
  split
  · rename_i hc
    refine .lift fun a l h => ?_
    cases LGen.modify_eq.1 h
    refine ⟨⟨hi.locs.steps (.same rfl rfl) rfl rfl, ?_, ?_, hi.here, hi.block⟩, ⟨rfl, rfl, rfl, rfl, rfl, rfl, rfl, rfl, .refl, rfl⟩, ?_⟩
    · intro i j hj
      dsimp only at hj
      split at hj
      · cases hj; exact hp j rfl
      · exact hi.params i j hj
    · intro i j hj
      dsimp only at hj
      split at hj
      · cases hj; exact hv j rfl
      · exact hi.below i j hj
    · intro hg hk
      rw [hg, hk] at hc
      simp at hc
  · refine .step fun p l h => ?_
    obtain ⟨_, rfl⟩ := LGen.ofOption_eq.1 h
    refine (does_located hd hi (m := emit (.store v p)) ?_).mono ?_
    · intro a l h
      exact ⟨_, s.l.nextReg, emit_eq.1 h, noCall_one (by simp), by simp, Nat.le_refl _, fun i sc => .inr ⟨fromVariable ha, [], v, p, rfl⟩⟩
    · intro a s' _ h2
      obtain ⟨is, n, e, _⟩ := h2.2.gen
      refine ⟨h2.1, ⟨h2.2.scope, h2.2.ann, h2.2.globals, h2.2.vars, ?_, ?_, ?_, ?_, ?_, ?_⟩, ?_⟩ <;> rw [e]
      · rfl
      · rfl
      · rfl
      · rfl
      · exact gw_gen _ _ _
      · rfl
      · intros; rfl

theorem does_setupVar {s : DState} {id : Nat} {v : LVal} {D : List Nat} (hd : cfg.debug = true) (hi : Ready N cfg s) (hp : Plain v) (hv : ∀ r, v = .reg r → r < s.l.nextReg)
    (ha : ∃ e, s.ann = .varDef id e ∨ s.ann = .varAssign id e) :
    Does (setupVarD cfg id v) (setupVarL cfg id v) s (fun _ s' => Ready N cfg s' ∧ Keeps D s s') := by
  unfold setupVarD setupVarL
  refine .step fun var l h => ?_
  obtain ⟨_, rfl⟩ := LGen.ofOption_eq.1 h
  refine .liftGet ?_
  dsimp only
  split
  · -- a global
    refine .also (Q := fun _ s' => Inv N cfg s' ∧ s'.scope = s.scope ∧ s'.globals = s.globals ∧ s'.l.globals.length = s.l.globals.length + 1 ∧
      s'.l.curFn = s.l.curFn ∧ s'.l.currentFunc = s.l.currentFunc ∧ s'.l.funcRef = s.l.funcRef ∧ Gw s.l.funcs s'.l.funcs ∧
      s'.l.isGlobal id = true ∧ s'.l.refs id = some (.global s.l.globals.length)) ?_ ?_
    · unfold globalVarD globalVarL
      refine .step fun a l h => ?_
      cases LGen.modify_eq.1 h
      have h0 : ∀ w, Inv N cfg { s with l := { s.l with
          isGlobal := fun i => if i = id then true else s.l.isGlobal i
          refs := fun i => if i = id then some (.global s.l.globals.length) else s.l.refs i
          globals := s.l.globals ++ [⟨var.linkageName, var.type, !var.isExported, w⟩] } } := by
        intro w
        refine ⟨hi.locs.steps (.same rfl rfl) rfl rfl, ?_, ?_, hi.here, hi.block⟩
        · intro i j hj
          dsimp only at hj
          split at hj
          · cases hj
          · exact hi.params i j hj
        · intro i j hj
          dsimp only at hj
          split at hj
          · cases hj
          · exact hi.below i j hj
      dsimp only
      split
      · exact .pure ⟨h0 _, rfl, rfl, by simp, rfl, rfl, rfl, .refl, by simp, by simp⟩
      · rename_i hk
        refine (does_assign hd (h0 _) hp hv ha).mono fun _ s' _ ⟨h1, h2, h3⟩ => ?_
        refine ⟨h1, h2.scope, h2.globals, by rw [h2.lglobals]; simp, h2.curFn, h2.currentFunc, h2.funcRef, h2.grow, ?_, ?_⟩
        · rw [h2.isGlobal]; simp
        · rw [h3 (by simp) (Bool.eq_false_iff.2 hk)]; simp
    · rintro _ s' _ ⟨h1, h2, h3, h4, h5, h6, h7, h8, h9, h10⟩
      refine ⟨{ s' with globals := s'.globals ++ [(s.l.globals.length, (symPos cfg id).line)] }, ?_, rfl, ⟨⟨h1.locs.steps .refl rfl rfl, h1.params, h1.below, h1.here, h1.block⟩, ?_, ?_⟩,
        h2, h5, h6, h8, fun i _ => by dsimp only; rw [h7]⟩
      · unfold describe
        rw [hd, if_pos rfl]
        show DGen.bind DGen.get _ _ = _
        unfold DGen.bind DGen.get
        simp only [h9, h10, if_true]
        rfl
      · show (s'.globals ++ [(s.l.globals.length, (symPos cfg id).line)]).map (fun x => x.1) = List.range s'.l.globals.length
        rw [h4, h3, List.map_append, hi.globs, List.range_succ]
        rfl
      · show s'.l.funcRef s'.l.currentFunc = some s'.l.curFn
        rw [h7, h6, h5]
        exact hi.ref
  · -- a local variable
    refine .also (Q := fun _ s' => Inv N cfg s' ∧ s'.scope = s.scope ∧ s'.globals = s.globals ∧ s'.l.globals = s.l.globals ∧
      s'.l.curFn = s.l.curFn ∧ s'.l.currentFunc = s.l.currentFunc ∧ s'.l.funcRef = s.l.funcRef ∧ Gw s.l.funcs s'.l.funcs ∧
      s'.l.isGlobal id = false) ?_ ?_
    · unfold localVarD localVarL
      refine .step fun a l h => ?_
      cases LGen.modify_eq.1 h
      refine .liftGet ?_
      have h0 : Inv N cfg { s with l := { s.l with isGlobal := fun i => if i = id then false else s.l.isGlobal i } } :=
        ⟨hi.locs.steps (.same rfl rfl) rfl rfl, hi.params, hi.below, hi.here, hi.block⟩
      dsimp only
      split
      · refine (does_assign hd h0 hp hv ha).mono fun _ s' _ ⟨h1, h2, _⟩ => ?_
        exact ⟨h1, h2.scope, h2.globals, h2.lglobals, h2.curFn, h2.currentFunc, h2.funcRef, h2.grow, by rw [h2.isGlobal]; simp⟩
      · refine .step fun r l h => ?_
        obtain ⟨rfl, rfl⟩ := newReg_eq.1 h
        refine .step fun _ l h => ?_
        cases emit_eq.1 h
        refine .step fun _ l h => ?_
        cases LGen.modify_eq.1 h
        simp only [LState.gen_gen, LState.gen_nextReg, List.nil_append]
        have h1 := h0.gen (is := [.alloca s.l.nextReg var.type]) (n := s.l.nextReg + 1) (noCall_one (by simp)) (Nat.le_succ _)
        refine (does_assign hd (s := { s with l := { ({ s.l with isGlobal := fun i => if i = id then false else s.l.isGlobal i } : LState).gen [.alloca s.l.nextReg var.type] (s.l.nextReg + 1) with
            refs := fun i => if i = id then some (.reg s.l.nextReg) else s.l.refs i } }) ⟨h1.locs.steps (.same rfl rfl) rfl rfl, ?_, ?_, h1.here, h1.block⟩ hp
            (fun r hr => Nat.lt_succ_of_lt (hv r hr)) ha).mono fun _ s' _ ⟨h1, h2, _⟩ => ?_
        · intro i j hj
          dsimp only at hj
          split at hj
          · cases hj
          · exact hi.params i j hj
        · intro i j hj
          dsimp only at hj
          split at hj
          · cases hj; exact Nat.lt_succ_self _
          · exact Nat.lt_succ_of_lt (hi.below i j hj)
        · refine ⟨h1, h2.scope, h2.globals, h2.lglobals, h2.curFn, h2.currentFunc, h2.funcRef, ?_, by rw [h2.isGlobal]; simp⟩
          exact (gw_gen ({ s.l with isGlobal := fun i => if i = id then false else s.l.isGlobal i } : LState) [.alloca s.l.nextReg var.type] (s.l.nextReg + 1)).trans h2.grow
    · rintro _ s' _ ⟨h1, h2, h3, h4, h5, h6, h7, h8, h9⟩
      refine ⟨{ s' with vars := s'.vars ++ [⟨s'.l.curFn, s'.scope, (symPos cfg id).line⟩] }, ?_, rfl, ⟨⟨?_, h1.params, h1.below, h1.here, h1.block⟩, ?_, ?_⟩,
        h2, h5, h6, h8, fun i _ => by dsimp only; rw [h7]⟩
      · unfold describe
        rw [hd, if_pos rfl]
        show DGen.bind DGen.get _ _ = _
        unfold DGen.bind DGen.get
        simp only [h9, if_true]
        rfl
      · refine ⟨h1.locs.fits, h1.locs.calls, h1.locs.src, ?_, h1.locs.old, h1.locs.once⟩
        intro w hw
        rcases List.mem_append.1 hw with hw | hw
        · exact h1.locs.vars w hw
        · cases List.mem_singleton.1 hw
          exact h1.here
      · show s'.globals.map (·.1) = List.range s'.l.globals.length
        rw [h4, h3]
        exact hi.globs
      · show s'.l.funcRef s'.l.currentFunc = some s'.l.curFn
        rw [h7, h6, h5]
        exact hi.ref

/- ### Functions -/

theorem here_addFunc {M : List LFunc} {x : LFunc} (hx : x.blocks = []) {i : LInstr} (h : Here (M ++ [x]) i) : Here M i := by
  obtain ⟨f, b, code, h1, h2⟩ := h
  refine ⟨f, b, code, ?_, h2⟩
  unfold blockOf at h1 ⊢
  by_cases hf : f < M.length
  · rwa [List.getElem?_append_left hf] at h1
  · rw [List.getElem?_append_right (by omega)] at h1
    cases hk : f - M.length with
    | zero => rw [hk] at h1; simp [hx] at h1
    | succ n => rw [hk] at h1; simp at h1

theorem steps_addFunc {sym : Symbol} {f : Func} {id ref : Nat} {l l' : LState} (h : addFuncL sym f id l = some (ref, l')) :
    Steps l l' ∧ ref = l.funcs.length ∧ l'.curFn = l.curFn ∧ l'.curBlock = l.curBlock ∧ l'.currentFunc = l.currentFunc ∧ l'.globals = l.globals ∧
      l'.nextReg = l.nextReg ∧ l'.refs = l.refs ∧ ∀ i, l'.funcRef i = if i = id then some ref else l.funcRef i := by
  unfold addFuncL at h
  cases h
  refine ⟨⟨fun f b code hc => ⟨[], by rw [List.append_nil]; exact blockOf_append _ _ hc⟩, fun r g a hc => here_addFunc rfl hc, Nat.le_refl _⟩, ?_⟩
  exact ⟨rfl, rfl, rfl, rfl, rfl, rfl, rfl, fun _ => rfl⟩

/-- What storing the parameters does. -/
theorem spill_facts : ∀ {ps : List Nat} {l l' : LState} {u : Unit}, spillParams cfg ps l = some (u, l') → RefsBelow l →
    Steps l l' ∧ RefsBelow l' ∧ l'.curFn = l.curFn ∧ l'.curBlock = l.curBlock ∧ l'.currentFunc = l.currentFunc ∧ l'.globals = l.globals ∧
      l'.funcRef = l.funcRef ∧ ∀ id, (∃ r, l'.refs id = some (.reg r)) ∨ (l'.refs id = l.refs id ∧ id ∉ ps)
  | [], l, l', u, h, hb => by
    obtain ⟨_, rfl⟩ := LGen.pure_eq.1 h
    exact ⟨.refl, hb, rfl, rfl, rfl, rfl, rfl, fun id => .inr ⟨rfl, by simp⟩⟩
  | p :: ps, l, l', u, h, hb => by
    unfold spillParams at h
    obtain ⟨_, l1, h1, h⟩ := LGen.bind_eq.1 h
    obtain ⟨v, old, _, _, rfl⟩ := spillParam_eq h1
    have hs : Steps l { l.gen [.alloca l.nextReg v.type, .store old (.reg l.nextReg)] (l.nextReg + 1) with
        refs := fun i => if i = p then some (.reg l.nextReg) else l.refs i
        spilled := fun i => if i = p then true else l.spilled i } :=
      (steps_gen (noCall_append (is := [_]) (noCall_one (by simp)) (noCall_one (by simp))) (Nat.le_succ _)).trans (.same rfl rfl)
    obtain ⟨a1, a2, a3, a4, a5, a6, a7, a8⟩ := spill_facts h (by
      intro id r hr
      dsimp only at hr ⊢
      split at hr
      · cases hr; exact Nat.lt_succ_self _
      · exact Nat.lt_succ_of_lt (hb id r hr))
    refine ⟨hs.trans a1, a2, a3, a4, a5, a6, a7, fun id => ?_⟩
    rcases a8 id with h8 | ⟨h8, h9⟩
    · exact .inl h8
    · by_cases hp : id = p
      · subst hp
        exact .inl ⟨l.nextReg, by rw [h8]; simp⟩
      · refine .inr ⟨by rw [h8]; simp [hp], ?_⟩
        simp [hp, h9]

/-- A function: `body` is called in its first block, and `D` are the symbols it defines. -/
theorem does_function {s : DState} {id : Nat} {params D : List Nat} {dm : DGen (Option (Option Ty))} {m : LGen (Option (Option Ty))} (hd : cfg.debug = true)
    (hi : Ready N cfg s) (hcf : s.l.currentFunc ∉ id :: D)
    (hb : ∀ s1 : DState, Ready N cfg s1 → s1.l.currentFunc = id → Does dm m s1 (fun _ s' => Ready N cfg s' ∧ Keeps D s1 s')) :
    Does (functionD cfg id params dm) (functionL cfg id params m) s (fun _ s' => Ready N cfg s' ∧ Keeps (id :: D) s s') := by
  have hne : s.l.currentFunc ≠ id := fun h => hcf (h ▸ List.mem_cons_self ..)
  unfold functionD functionL
  refine .step fun a l h => ?_
  obtain ⟨_, rfl⟩ := LGen.ofOption_eq.1 h
  obtain ⟨sym, f⟩ := a
  dsimp only
  refine .step fun ref l1 h1 => ?_
  obtain ⟨b1, b2, b3, b4, b5, b6, b7, b8, b9⟩ := steps_addFunc h1
  have r1 : Ready N cfg { s with l := l1 } := by
    refine ⟨⟨hi.locs.steps b1 rfl rfl, ?_, ?_, ?_, ?_⟩, ?_, ?_⟩
    · intro i j hj; dsimp only at hj; rw [b8] at hj; exact hi.params i j hj
    · intro i j hj; dsimp only at hj ⊢; rw [b8] at hj; rw [b7]; exact hi.below i j hj
    · show s.scope.fn = l1.curFn; rw [b3]; exact hi.here
    · show ∃ code, blockOf l1.funcs l1.curFn l1.curBlock = some code; rw [b3, b4]; exact b1.grow.has hi.block
    · show s.globals.map (·.1) = List.range l1.globals.length; rw [b6]; exact hi.globs
    · show l1.funcRef l1.currentFunc = some l1.curFn
      rw [b9, b5, b3]; dsimp only; rw [if_neg hne]; exact hi.ref
  split
  · refine .pure ⟨r1, rfl, b3, b5, b1.grow, fun i hx => ?_⟩
    show l1.funcRef i = _
    have h2 : i ≠ id := fun h => hx (h ▸ List.mem_cons_self ..)
    rw [b9, if_neg h2]
  · refine .step fun _ l2 h2 => ?_
    have e2 := LGen.modify_eq.1 h2
    refine .get ?_
    refine .step fun entry l3 h3 => ?_
    have ap := appendBlock_eq h3
    refine .step fun _ l4 h4 => ?_
    have e4 := LGen.modify_eq.1 h4
    refine .step fun _ l5 h5 => ?_
    have e5 := LGen.modify_eq.1 h5
    refine .extra (s' := { s with l := l5, scope := .func ref }) rfl rfl ?_
    refine .extra (s' := { s with l := l5, scope := .func ref, vars := s.vars ++ List.replicate (params.take f.numParams).length ⟨ref, .func ref, (symPos cfg id).line⟩ })
      (by unfold describeParams; rw [hd]; rfl) rfl ?_
    refine .step fun _ l6 h6 => ?_
    unfold debugParams at h6
    rw [hd, if_pos rfl] at h6
    have f2 : Steps l1 l2 := .same (by rw [e2]) (by rw [e2])
    have f3 : Steps l2 l3 := steps_appended ap
    have f5 : Steps l3 l5 := .same (by rw [e5, e4]) (by rw [e5, e4])
    have g5 : l5.refs = l2.refs := by rw [e5, e4, ap.rest]
    have n5 : l5.nextReg = l1.nextReg := by rw [e5, e4, ap.rest, e2]
    have below5 : RefsBelow l5 := by
      intro i j hj
      rw [g5, e2] at hj
      rw [n5]
      dsimp only at hj
      split at hj
      · cases hj
      · exact r1.below i j hj
    obtain ⟨a1, a2, a3, a4, a5, a6, a7, a8⟩ := spill_facts h6 below5
    have c5 : l5.curFn = ref := by rw [e5, e4]
    have k5 : l5.curBlock = entry := by rw [e5, e4]
    have cf5 : l5.currentFunc = id := by rw [e5]
    have fr5 : l5.funcRef = l1.funcRef := by rw [e5, e4, ap.rest, e2]
    have gl5 : l5.globals = l1.globals := by rw [e5, e4, ap.rest, e2]
    have st : Steps s.l l6 := ((b1.trans f2).trans (f3.trans f5)).trans a1
    have r6 : Ready N cfg { s with l := l6, scope := .func ref, vars := s.vars ++ List.replicate (params.take f.numParams).length ⟨ref, .func ref, (symPos cfg id).line⟩ } := by
      have lo : Locs N cfg { s with l := l6, scope := .func ref } := hi.locs.steps st rfl rfl
      refine ⟨⟨⟨lo.fits, lo.calls, lo.src, ?_, lo.old, lo.once⟩, ?_, a2, ?_, ?_⟩, ?_, ?_⟩
      · intro w hw
        rcases List.mem_append.1 hw with hw | hw
        · exact lo.vars w hw
        · cases (List.mem_replicate.1 hw).2
          rfl
      · intro i j hj
        rcases a8 i with ⟨r, h8⟩ | ⟨h8, h9⟩
        · rw [h8] at hj; cases hj
        · rw [h8, g5, e2] at hj
          dsimp only at hj
          rw [if_neg h9] at hj
          exact r1.params i j hj
      · show ref = l6.curFn
        rw [a3, c5]
      · show ∃ code, blockOf l6.funcs l6.curFn l6.curBlock = some code
        rw [a3, a4, c5, k5]
        exact (f5.trans a1).grow.has ⟨_, ap.empty⟩
      · show s.globals.map (·.1) = List.range l6.globals.length
        rw [a6, gl5, b6]
        exact hi.globs
      · show l6.funcRef l6.currentFunc = some l6.curFn
        rw [a7, a5, a3, c5, cf5, fr5, b9]
        simp
    refine .bind (hb _ r6 (a5.trans cf5)) fun returned s7 _ ⟨r7, k7⟩ => ?_
    refine .step fun _ l8 h8 => ?_
    have e8 := LGen.modify_eq.1 h8
    refine .extra (s' := { s7 with l := l8, scope := s.scope }) rfl rfl ?_
    have fin : ∀ l9 : LState, Steps l8 l9 → l9.refs = l8.refs → l9.nextReg = l8.nextReg → l9.funcRef = l8.funcRef → l9.currentFunc = l8.currentFunc → l9.globals = l8.globals →
        Ready N cfg { s7 with scope := s.scope, l := { l9 with curFn := l2.curFn, curBlock := l2.curBlock } } ∧
          Keeps (id :: D) s { s7 with scope := s.scope, l := { l9 with curFn := l2.curFn, curBlock := l2.curBlock } } := by
      intro l9 q1 q2 q2' q3 q4 q5
      have st' : Steps s7.l l9 := (Steps.same (by rw [e8]) (by rw [e8])).trans q1
      have gw : Gw s.l.funcs l9.funcs := (st.grow.trans k7.grow).trans st'.grow
      have x1 : l2.curFn = s.l.curFn := by rw [e2]; exact b3
      have x2 : l2.curBlock = s.l.curBlock := by rw [e2]; exact b4
      have x3 : l9.currentFunc = s.l.currentFunc := by rw [q4, e8, e2]; exact b5
      have x4 : ∀ i, i ∉ id :: D → l9.funcRef i = s.l.funcRef i := by
        intro i hx
        have h1 : i ∉ D := fun h => hx (List.mem_cons_of_mem _ h)
        have h2 : i ≠ id := fun h => hx (h ▸ List.mem_cons_self ..)
        rw [q3, e8]
        show s7.l.funcRef i = _
        rw [k7.refs i h1]
        show l6.funcRef i = _
        rw [a7, fr5, b9, if_neg h2]
      refine ⟨⟨⟨r7.locs.steps (st'.trans (.same rfl rfl)) rfl rfl, ?_, ?_, ?_, ?_⟩, ?_, ?_⟩, rfl, x1, x3, gw, x4⟩
      · intro i j hj
        dsimp only at hj
        rw [q2, e8] at hj
        exact r7.params i j hj
      · intro i j hj
        dsimp only at hj ⊢
        rw [q2, e8] at hj
        rw [q2', e8]
        exact r7.below i j hj
      · show s.scope.fn = l2.curFn
        rw [x1]
        exact hi.here
      · show ∃ code, blockOf l9.funcs l2.curFn l2.curBlock = some code
        rw [x1, x2]
        exact gw.has hi.block
      · show s7.globals.map (·.1) = List.range l9.globals.length
        rw [q5, e8]
        exact r7.globs
      · show l9.funcRef l9.currentFunc = some l2.curFn
        rw [x3, x1, x4 _ hcf]
        exact hi.ref
    split
    · refine .step fun _ l9 h9 => ?_
      have e9 := emit_eq.1 h9
      dsimp only at e9
      refine .lift fun _ l10 h10 => ?_
      cases LGen.modify_eq.1 h10
      exact fin l9 (by rw [e9]; exact steps_gen (noCall_one (by simp)) (Nat.le_refl _)) (by rw [e9]; rfl) (by rw [e9]; rfl) (by rw [e9]; rfl) (by rw [e9]; rfl) (by rw [e9]; rfl)
    · refine .lift fun _ l10 h10 => ?_
      cases LGen.modify_eq.1 h10
      exact fin l8 .refl rfl rfl rfl rfl rfl

end Skull.DInfo
