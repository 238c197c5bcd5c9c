import Verif.Proofs.LGrow
/-
The code of a tree is laid out as `Laid` says.
-/
namespace Skull
open Spec

/-- The code at the beginning of a function, and where its parameters are behind it. -/
def ParamCode (cfg : LCfg) (R : LEnv) (k : LMark) (ps : List Nat) (is : List LInstr) (k' : LMark) : Prop :=
  (∀ p ∈ ps, R.isGlobal p = false) ∧
    (cfg.debug = false ∧ is = [] ∧ k' = k ∧ (∀ (i p : Nat), ps[i]? = some p → R.refs p = some (.param i) ∧ R.spilled p = false) ∨
      cfg.debug = true ∧ k'.glob = k.glob ∧ EntryCode cfg R 0 k.reg ps is k'.reg)

theorem EntryCode.straight {cfg R i n ps is m} (h : EntryCode cfg R i n ps is m) : Straight n is m := by
  induction h with
  | nil => exact .nil
  | cons _ _ _ _ ih => exact Straight.append (.append (is := [_]) (.one rfl rfl) .store) ih

theorem EntryCode.known {cfg R i n ps is m} (h : EntryCode cfg R i n ps is m) : ∀ p ∈ ps, ∃ q, R.refs p = some q := by
  induction h with
  | nil => simp
  | cons _ h2 _ _ ih =>
    intro p hp
    rcases List.mem_cons.1 hp with rfl | hp
    · exact ⟨_, h2⟩
    · exact ih p hp

theorem ParamCode.straight {cfg R k ps is k'} (h : ParamCode cfg R k ps is k') : Straight k.reg is k'.reg ∧ k.glob ≤ k'.glob := by
  obtain ⟨_, ⟨_, rfl, rfl, _⟩ | ⟨_, h1, h2⟩⟩ := h
  · exact ⟨.nil, Nat.le_refl _⟩
  · exact ⟨h2.straight, by omega⟩

/-- What the code without jumps is. -/
def piecesL (cfg : LCfg) (R : LEnv) (G : List LGlobal) (M : List LFunc) : Pieces LMark where
  cond k e is v k' := ∃ x n, ECode cfg R k.reg e is x n ∧ v = x.val ∧ k' = ⟨n, k.glob⟩
  stmt f k ann st is k' := SCode cfg R G f k ann st is k'
  stop f k ann st is k' := StopCode cfg R f k ann st is k'
  func id ps f' k is k' := ∃ sym fn x, cfg.func id = some (sym, fn) ∧ fn.isExternal = false ∧ R.funcRef id = some f' ∧ f' ≠ 0 ∧ M[f']? = some x ∧
    x.params = fn.paramTypes ∧ x.ret = fn.returnType ∧
    ParamCode cfg R k (ps.take fn.numParams) is k'
  isExternal id := ∃ sym fn f' x, cfg.func id = some (sym, fn) ∧ fn.isExternal = true ∧ R.funcRef id = some f' ∧ M[f']? = some x ∧
    x.name = sym.linkageName ∧ x.blocks = []
  isVoid id := ∃ sym fn, cfg.func id = some (sym, fn) ∧ fn.returnType = .prim .void

/-- The module, and what is known in the end, go on from this state. -/
structure LExt (s : LState) (M : List LFunc) (R : LEnv) (G : List LGlobal) : Prop where
  code : ∀ f b code, blockOf s.funcs f b = some code → ∃ rest, blockOf M f b = some (code ++ rest)
  env : s.env.Le R
  globals : ∀ (i : Nat) g, s.globals[i]? = some g → G[i]? = some g
  heads : Heads s.funcs M

theorem LExt.back {s s' M R G T ds} (h : LExt s' M R G) (hg : LGrow T ds s s') : LExt s M R G := by
  refine ⟨?_, hg.env.trans h.env, ?_, hg.heads.trans h.heads⟩
  · intro f b code hc
    obtain ⟨r, h1⟩ := hg.grow _ _ _ hc
    obtain ⟨r', h2⟩ := h.code _ _ _ h1
    exact ⟨r ++ r', by rw [h2, List.append_assoc]⟩
  · intro i g hi
    obtain ⟨gs, hgs⟩ := hg.globals
    apply h.globals
    rw [hgs, List.getElem?_append_left (List.getElem?_eq_some_iff.1 hi).1, hi]

/-- Where the next instruction goes. -/
def LState.place (s : LState) : Place := ⟨s.curBlock, ((blockOf s.funcs s.curFn s.curBlock).getD []).length⟩

theorem place_start {s : LState} {f b} (h : blockOf s.funcs f b = some []) : (s.at f b).place = start b := by
  show (⟨b, ((blockOf s.funcs f b).getD []).length⟩ : Place) = ⟨b, 0⟩
  rw [h]
  rfl

theorem place_same {s s' : LState} (h1 : s'.curFn = s.curFn) (h2 : s'.curBlock = s.curBlock)
    (h3 : blockOf s'.funcs s.curFn s.curBlock = blockOf s.funcs s.curFn s.curBlock) : s'.place = s.place := by
  unfold LState.place
  rw [h1, h2, h3]

theorem place_funcs {s s' : LState} {is n} (h1 : s'.curFn = s.curFn) (h2 : s'.curBlock = s.curBlock) (hf : s'.funcs = (s.gen is n).funcs)
    (hb : HasBlock s) : s'.place = s.place.skip is := by
  obtain ⟨code, hb⟩ := hb
  unfold LState.place Place.skip
  rw [hf, h1, h2, blockOf_gen_cur hb, hb]
  simp

theorem place_gen {s : LState} {is n} (hb : HasBlock s) : (s.gen is n).place = s.place.skip is := place_funcs rfl rfl rfl hb

theorem codeAt_funcs {s s' : LState} {is n M R G} (hb : HasBlock s) (hf : s'.funcs = (s.gen is n).funcs) (he : LExt s' M R G) :
    CodeAt M s.curFn s.place is := by
  obtain ⟨code, hb⟩ := hb
  have h1 : blockOf s'.funcs s.curFn s.curBlock = some (code ++ is) := by rw [hf]; exact blockOf_gen_cur hb
  obtain ⟨rest, h2⟩ := he.code _ _ _ h1
  exact ⟨code, rest, h2, by simp [LState.place, hb]⟩

theorem codeAt_gen {s : LState} {is n M R G} (hb : HasBlock s) (he : LExt (s.gen is n) M R G) : CodeAt M s.curFn s.place is :=
  codeAt_funcs hb rfl he

theorem Appended.mark {f b s s'} (h : Appended f b s s') : s'.mark = s.mark := by unfold LState.mark; rw [h.nextReg, h.globals]

theorem mark_jump (s : LState) (r t) : (s.jump r t).mark = s.mark := by cases r <;> rfl
theorem env_jump (s : LState) (r t) : (s.jump r t).env = s.env := by cases r <;> rfl
theorem curFn_jump (s : LState) (r t) : (s.jump r t).curFn = s.curFn := by cases r <;> rfl
theorem loop_jump (s : LState) (r t) : (s.jump r t).whileCond = s.whileCond ∧ (s.jump r t).whileEnd = s.whileEnd := by cases r <;> exact ⟨rfl, rfl⟩

theorem codeAt_jump {s : LState} {r t M R G f} (hb : HasBlock s) (hf : f = s.curFn) (he : LExt (s.jump r t) M R G) (hr : r.isSome = false) :
    CodeAt M f s.place [.br (some t)] := by
  cases r with
  | none => rw [hf]; exact codeAt_gen hb he
  | some _ => cases hr

/- ### Loops -/

theorem simpleL_loop {cfg ann stmt s u s'} (h : simpleL cfg ann stmt s = some (u, s')) :
    s'.whileCond = s.whileCond ∧ s'.whileEnd = s.whileEnd := by
  have assign : ∀ {id v s u s'}, assignL cfg id v s = some (u, s') → s'.whileCond = s.whileCond ∧ s'.whileEnd = s.whileEnd := by
    intro id v s u s' h
    unfold assignL at h
    obtain ⟨a, h1, h⟩ := LGen.bind_ofOption.1 h
    rw [LGen.bind_get] at h
    split at h
    · cases LGen.modify_eq.1 h; exact ⟨rfl, rfl⟩
    · obtain ⟨p, h2, h⟩ := LGen.bind_ofOption.1 h
      cases emit_eq.1 h; exact ⟨rfl, rfl⟩
  have setup : ∀ {id v s u s'}, setupVarL cfg id v s = some (u, s') → s'.whileCond = s.whileCond ∧ s'.whileEnd = s.whileEnd := by
    intro id v s u s' h
    unfold setupVarL at h
    obtain ⟨a, h1, h⟩ := LGen.bind_ofOption.1 h
    rw [LGen.bind_get] at h
    split at h
    · unfold globalVarL at h
      rw [LGen.bind_modify] at h
      split at h
      · obtain ⟨_, rfl⟩ := LGen.pure_eq.1 h; exact ⟨rfl, rfl⟩
      · have h' := assign h; exact h'
    · unfold localVarL at h
      rw [LGen.bind_modify, LGen.bind_get] at h
      split at h
      · have h' := assign h; exact h'
      · rw [bind_newReg, bind_emit, LGen.bind_modify] at h
        have h' := assign h; exact h'
  have expr : ∀ {e s x s'}, genExprL cfg e s = some (x, s') → s'.whileCond = s.whileCond ∧ s'.whileEnd = s.whileEnd := by
    intro e s x s' h
    obtain ⟨is, n, _, rfl⟩ := genExprL_code e h
    exact ⟨rfl, rfl⟩
  cases stmt with
  | varDef =>
    cases ann with
    | varDef id e =>
      obtain ⟨x, s1, h1, h⟩ := LGen.bind_eq.1 h
      obtain ⟨_, s2, h2, h⟩ := LGen.bind_eq.1 h
      obtain ⟨_, rfl⟩ := LGen.pure_eq.1 h
      have a := expr h1; have b := setup h2
      exact ⟨b.1.trans a.1, b.2.trans a.2⟩
    | none => obtain ⟨_, rfl⟩ := LGen.pure_eq.1 h; exact ⟨rfl, rfl⟩
    | _ => exact (LGen.ub_eq (s := s).1 h).elim
  | varAssign =>
    cases ann with
    | varAssign =>
      obtain ⟨x, s1, h1, h⟩ := LGen.bind_eq.1 h
      obtain ⟨_, s2, h2, h⟩ := LGen.bind_eq.1 h
      obtain ⟨_, rfl⟩ := LGen.pure_eq.1 h
      have a := expr h1; have b := assign h2
      exact ⟨b.1.trans a.1, b.2.trans a.2⟩
    | _ => exact (LGen.ub_eq (s := s).1 h).elim
  | expr =>
    cases ann with
    | expr e =>
      cases e with
      | call =>
        obtain ⟨x, s1, h1, h⟩ := LGen.bind_eq.1 h
        obtain ⟨_, rfl⟩ := LGen.pure_eq.1 h
        exact expr h1
      | _ => exact (LGen.ub_eq (s := s).1 h).elim
    | _ => exact (LGen.ub_eq (s := s).1 h).elim
  | noop =>
    obtain ⟨_, s1, h1, h⟩ := LGen.bind_eq.1 h
    obtain ⟨_, rfl⟩ := LGen.pure_eq.1 h
    unfold noopL at h1
    split at h1
    · rw [bind_newReg, bind_emit] at h1
      cases emit_eq.1 h1
      exact ⟨rfl, rfl⟩
    · obtain ⟨_, rfl⟩ := LGen.pure_eq.1 h1; exact ⟨rfl, rfl⟩
  | imports | comment => obtain ⟨_, rfl⟩ := LGen.pure_eq.1 h; exact ⟨rfl, rfl⟩
  | ret =>
    cases ann with
    | none => obtain ⟨_, rfl⟩ := LGen.pure_eq.1 (show _ = _ from h); exact ⟨rfl, rfl⟩
    | expr =>
      obtain ⟨x, s1, h1, h⟩ := LGen.bind_eq.1 h
      rw [bind_emit] at h
      obtain ⟨_, rfl⟩ := LGen.pure_eq.1 h
      have a := expr h1; exact a
    | _ => exact (LGen.ub_eq (s := s).1 h).elim
  | unreachable =>
    obtain ⟨_, s1, h1, h⟩ := LGen.bind_eq.1 h
    obtain ⟨_, rfl⟩ := LGen.pure_eq.1 h
    cases emit_eq.1 h1
    exact ⟨rfl, rfl⟩
  | breaks => obtain ⟨_, rfl⟩ := breakL_code h; exact ⟨rfl, rfl⟩
  | continues => obtain ⟨_, rfl⟩ := continueL_code h; exact ⟨rfl, rfl⟩
  | _ => exact (LGen.ub_eq (s := s).1 h).elim

theorem gen_loop {cfg mode t s r s'} (h : GenRun cfg mode t s r s') : hasLoop t = false → s'.whileCond = s.whileCond ∧ s'.whileEnd = s.whileEnd := by
  have leave : ∀ (s : LState) f r old, (s.leave f r old).whileCond = s.whileCond ∧ (s.leave f r old).whileEnd = s.whileEnd := by
    intro s f r old
    unfold LState.leave
    split <;> exact ⟨rfl, rfl⟩
  induction h with
  | nil => intro _; exact ⟨rfl, rfl⟩
  | plain _ h1 _ ih =>
    intro hl
    simp only [hasLoop, Bool.or_eq_false_iff] at hl
    have a := simpleL_loop h1; have b := ih hl.2
    exact ⟨b.1.trans a.1, b.2.trans a.2⟩
  | stop _ h1 => intro _; exact simpleL_loop h1
  | breaks => intro _; exact ⟨rfl, rfl⟩
  | continues => intro _; exact ⟨rfl, rfl⟩
  | whiles => intro hl; simp [hasLoop] at hl
  | @ifs cond x tok child next s f fin b s₁ s₂ r s₃ r' s' hf0 a1 a2 _ _ ihc ihn =>
    intro hl
    simp only [hasLoop, Bool.or_eq_false_iff] at hl
    have a := ihc hl.1.2; have b := ihn hl.2; have c := loop_jump s₃ r fin
    exact ⟨b.1.trans (c.1.trans (a.1.trans (a2.whileCond.trans a1.whileCond))), b.2.trans (c.2.trans (a.2.trans (a2.whileEnd.trans a1.whileEnd)))⟩
  | @elifs cond cond' x tok child next s f entry b b' c fin s₁ s₂ is v n r s₃ r' s' a1 hc a2 _ _ ihc ihn =>
    intro hl
    simp only [hasLoop, Bool.or_eq_false_iff] at hl
    have a := ihc hl.1.2; have b := ihn hl.2; have c := loop_jump s₃ r fin
    exact ⟨b.1.trans (c.1.trans (a.1.trans (a2.whileCond.trans a1.whileCond))), b.2.trans (c.2.trans (a.2.trans (a2.whileEnd.trans a1.whileEnd)))⟩
  | @elses cond ann tok child next s f entry b c fin s₁ is v n r s₂ r' s' a1 hc _ _ ihc ihn =>
    intro hl
    simp only [hasLoop, Bool.or_eq_false_iff] at hl
    have a := ihc hl.1.2; have b := ihn hl.2; have c := loop_jump s₂ r fin
    exact ⟨b.1.trans (c.1.trans (a.1.trans a1.whileCond)), b.2.trans (c.2.trans (a.2.trans a1.whileEnd))⟩
  | comment _ ih =>
    intro hl
    simp only [hasLoop, Bool.or_eq_false_iff] at hl
    exact ih hl.2
  | endIf _ _ _ ih => intro hl; exact ih hl
  | external _ _ _ ih =>
    intro hl
    simp only [hasLoop, Bool.or_eq_false_iff] at hl
    exact ih hl.2
  | @func id ps x tok child next s sym f u s₀ r s₁ r' s' hfn _ h0 _ _ ihc ihn =>
    intro hl
    simp only [hasLoop, Bool.or_eq_false_iff] at hl
    have a := ihc hl.1.2; have b := ihn hl.2; have c := leave s₁ f r s
    obtain ⟨_, st, _⟩ := debug_step h0
    exact ⟨b.1.trans (c.1.trans (a.1.trans st.whileCond)), b.2.trans (c.2.trans (a.2.trans st.whileEnd))⟩
  | ns _ _ ihc ihn =>
    intro hl
    simp only [hasLoop, Bool.or_eq_false_iff] at hl
    have a := ihc hl.1.2; have b := ihn hl.2
    exact ⟨b.1.trans a.1, b.2.trans a.2⟩

/- ### The layout -/

/-- The innermost loop is the one the state knows. -/
def LoopOk (ok : Bool) (loop : Option (Nat × Nat)) (s : LState) : Prop :=
  ok = true → ∃ c fin, loop = some (c, fin) ∧ s.whileCond = some c ∧ s.whileEnd = some fin

theorem LoopOk.later {ok loop s s' ok'} (h : LoopOk ok loop s) (hs : ok' = true → s'.whileCond = s.whileCond ∧ s'.whileEnd = s.whileEnd)
    (ho : ok' = true → ok = true) : LoopOk ok' loop s' := by
  intro h1
  obtain ⟨c, fin, h2, h3, h4⟩ := h (ho h1)
  exact ⟨c, fin, h2, (hs h1).1.trans h3, (hs h1).2.trans h4⟩

theorem LoopOk.no {loop s} : LoopOk false loop s := fun h => nomatch h

/-- Where the code of a tree is, by the state it is generated from. -/
def LaidFrom (cfg : LCfg) (R : LEnv) (G : List LGlobal) (M : List LFunc) (loop : Option (Nat × Nat)) (s s' : LState) (t : ATree)
    (r : Option (Option Ty)) : LMode → Prop
  | .stmts => Laid (piecesL cfg R G M) M s.curFn loop .stmts s.place s.mark t r.isSome s'.place s'.mark
  | .afterIf cond f entry b fin => blockOf s.funcs f fin = some [] → fin ≠ entry →
      Laid (piecesL cfg R G M) M f loop (.afterIf cond b fin) (s.at f entry).place s.mark t r.isSome s'.place s'.mark

theorem cond_piece {cfg R G M s e is x n} {E : LEnv} (h : ECode cfg E (LState.nextReg s) e is x n) (hE : E.Le R) {k : LMark} (hk : k = s.mark) :
    (piecesL cfg R G M).cond k e is x.val ⟨n, k.glob⟩ := by
  subst hk
  exact ⟨x, n, h.mono hE, rfl, rfl⟩

theorem ne_of_has {s : LState} {f b c} (h1 : Has s f b) (h2 : blockOf s.funcs f c = none) : b ≠ c := by
  rintro rfl
  obtain ⟨_, h1⟩ := h1
  rw [h1] at h2
  cases h2

theorem LExt.jump_back {s r t M R G} (h : LExt (LState.jump s r t) M R G) : LExt s M R G := by
  cases r with
  | none => exact h.back (.gen (Nat.le_refl _) (ds := []))
  | some _ => exact h

theorem LExt.gen_back {s : LState} {is n M R G} (h : LExt (s.gen is n) M R G) (hn : s.nextReg ≤ n) : LExt s M R G := h.back (.gen hn (ds := []))

theorem LExt.at_back {s : LState} {f b M R G} (h : LExt (s.at f b) M R G) : LExt s M R G := ⟨h.code, h.env, h.globals, h.heads⟩
theorem LExt.setLoop_back {s : LState} {l M R G} (h : LExt (s.setLoop l) M R G) : LExt s M R G := ⟨h.code, h.env, h.globals, h.heads⟩

theorem idxOf_nodup : ∀ {l : List Nat} {i p : Nat}, l.Nodup → l[i]? = some p → l.idxOf p = i
  | [], i, p, _, h => by simp at h
  | a :: l, 0, p, _, h => by simp at h; simp [h]
  | a :: l, i + 1, p, hn, h => by
    have h1 : l[i]? = some p := by simpa using h
    have hne : a ≠ p := by
      rintro rfl
      exact (List.nodup_cons.1 hn).1 (List.mem_of_getElem? h1)
    have h2 : (a == p) = false := by simp [hne]
    rw [List.idxOf_cons, h2, idxOf_nodup (List.nodup_cons.1 hn).2 h1]
    rfl

theorem gen_laid {cfg mode t s r s'} (h : GenRun cfg mode t s r s') : t.defs.Nodup → Fresh t.defs s → AssignsOk cfg t → StateOk s →
    ModeOk s mode → ∀ {M R G}, LExt s' M R G → ∀ {loop ok}, JumpsOk ok t → LoopOk ok loop s → LaidFrom cfg R G M loop s s' t r mode := by
  induction h with
  | nil => intro _ _ _ _ _ M R G _ loop ok _ _; exact .nil
  | @plain ann stmt tok child next s s₁ r s' hp h1 hrun ih =>
    intro hn hf ha hs _ M R G he loop ok hj hl
    rw [defs_node] at hn hf
    obtain ⟨_, n2, _, n4⟩ := nodup_parts hn
    obtain ⟨_, is, hcode, hst⟩ := simpleL_code hp hs.main (fun id hid => (hf id (by simp [hid])).1) ha.1 h1
    have h2 := hst.frame hs.block
    have hf2 : Fresh next.defs s₁ := (hf.sub (by simp +contextual)).later h2.toLGrow (fun i hi h => n4 i hi (by simp [h]))
    have e1 := he.back (gen_frame hrun n2 hf2 ha.2.2 (h2.stateOk hs) trivial).toLGrow
    have hj' : JumpsOk (ok && !hasLoop child) next := by
      cases stmt <;> first | exact hj.2.2 | cases hp
    have g := ih n2 hf2 ha.2.2 (h2.stateOk hs) trivial he hj'
      (hl.later (fun _ => simpleL_loop h1) (by simp +contextual))
    have g : Laid (piecesL cfg R G M) M s₁.curFn loop .stmts s₁.place s₁.mark next r.isSome s'.place s'.mark := g
    rw [hst.curFn, place_funcs hst.curFn hst.curBlock hst.funcs hs.block] at g
    exact .plain hp (hcode.mono e1.env e1.globals) (codeAt_funcs hs.block hst.funcs e1) g
  | @stop ann stmt tok child next s ty s' hp h1 =>
    intro _ _ _ hs _ M R G he loop ok _ _
    obtain ⟨_, is, hcode, hst⟩ := stopL_code hp h1
    show Laid _ _ _ _ _ _ _ _ _ s'.place _
    rw [place_funcs hst.curFn hst.curBlock hst.funcs hs.block]
    exact .stop hp (hcode.mono he.env) (codeAt_funcs hs.block hst.funcs he)
  | @breaks ann tok child next s =>
    intro _ _ _ hs _ M R G he loop ok hj hl
    obtain ⟨c, fin, rfl, h1, h2⟩ := hl (hj.1 (.inl rfl))
    show Laid _ _ _ _ _ _ _ _ _ (s.gen _ _).place _
    rw [place_gen hs.block]
    rw [h2] at he ⊢
    exact .breaks (codeAt_gen hs.block he)
  | @continues ann tok child next s =>
    intro _ _ _ hs _ M R G he loop ok hj hl
    obtain ⟨c, fin, rfl, h1, h2⟩ := hl (hj.1 (.inr rfl))
    show Laid _ _ _ _ _ _ _ _ _ (s.gen _ _).place _
    rw [place_gen hs.block]
    rw [h1] at he ⊢
    exact .continues (codeAt_gen hs.block he)
  | @whiles cond x tok child next s f a b c s₁ s₂ s₃ s₄ is v n r s₅ r' s' hf0 a1 a2 a3 e4 hc hrc hrn ihc ihn =>
    intro hn hf ha hs _ M R G he loop ok hj hl
    rw [defs_node] at hn hf
    obtain ⟨n1, n2, _, n4⟩ := nodup_parts hn
    have hcur : f = s.curFn := Option.some.inj (hf0.symm.trans hs.cur)
    have f0 : LFrame (Here s) [] s s := .refl hs.block
    have f1 := f0.append a1 hcur
    have f2 := f1.append a2 hcur
    have f3 := f2.append a3 hcur
    have f4 := (f3.setLoop (some (a, c))).emit [.br (some a)] (n := s₃.nextReg) (Nat.le_refl _)
    have f5 := f4.move (b := a) hcur ((((a1.has.append a2).append a3).setLoop _).gen _ _) (.inr (f0.newIn a1))
    rw [← e4] at f5
    have f6 := f5.emit (is ++ [.condBr v.val b c]) hc.straight.le
    have hb4 : Has s₄ f b := by rw [e4]; exact ((a2.has.append a3).setLoop (some (a, c))).gen [.br (some a)] s₃.nextReg
    have hc4 : Has s₄ f c := by rw [e4]; exact (a3.has.setLoop (some (a, c))).gen [.br (some a)] s₃.nextReg
    have hc5 : Has ((s₄.gen (is ++ [.condBr v.val b c]) n).at f b) f c := by
      apply Has.at; exact hc4.gen _ _
    have f7 := f6.move (b := b) hcur (hb4.gen _ _) (.inr (f1.newIn a2))
    have hfc : Fresh child.defs ((s₄.gen (is ++ [.condBr v.val b c]) n).at f b) := (hf.sub (by simp +contextual)).later f7.toLGrow (by simp)
    have g1 := gen_frame hrc n1 hfc ha.2.1 (f7.stateOk hs) trivial
    have f8 := (f7.sub g1).jump r a
    have f9 := (f8.move (b := c) hcur ((hc5.grow g1.toLGrow).jump _ _) (.inr (f2.newIn a3))).setLoop none
    have hfn : Fresh next.defs (((s₅.jump r a).at f c).setLoop none) := (hf.sub (by simp +contextual)).later f9.toLGrow (fun i hi h => n4 i hi h)
    have g2 := gen_frame hrn n2 hfn ha.2.2 (f9.stateOk hs) trivial
    have x5 := (he.back g2.toLGrow).setLoop_back.at_back
    have x4 := (x5.jump_back.back g1.toLGrow).at_back
    have x3 := x4.gen_back hc.straight.le
    have hab : Has s₁ f a := a1.has
    have hsa : Has s f s.curBlock := by rw [hcur]; exact hs.block
    have nab : a ≠ b := ne_of_has a1.has a2.new
    have nbc : b ≠ c := ne_of_has a2.has a3.new
    have nac : a ≠ c := ne_of_has (a1.has.append a2) a3.new
    have nsa : a ≠ s.curBlock := (ne_of_has hsa a1.new).symm
    have nsb : b ≠ s.curBlock := (ne_of_has (hsa.append a1) a2.new).symm
    have nsc : c ≠ s.curBlock := (ne_of_has ((hsa.append a1).append a2) a3.new).symm
    have hcb : s₃.curBlock = s.curBlock := a3.curBlock.trans (a2.curBlock.trans a1.curBlock)
    have hcf : s₃.curFn = s.curFn := f3.fn
    have hg1 : ∀ (q : Nat) code, q ≠ s.curBlock → blockOf s₃.funcs f q = some code → blockOf s₄.funcs f q = some code := by
      intro q code hq hb
      rw [e4]
      show blockOf ((s₃.setLoop (some (a, c))).gen [.br (some a)] s₃.nextReg).funcs f q = some code
      rw [blockOf_gen_same]
      · exact hb
      · rintro ⟨_, h⟩
        exact hq (h.trans hcb)
    have hs4f : s₄.curFn = f := by rw [e4]; rfl
    have hs4b : s₄.curBlock = a := by rw [e4]; rfl
    have b4a : blockOf s₄.funcs f a = some [] := hg1 a [] nsa (a3.keeps (a2.keeps a1.empty))
    have b4b : blockOf s₄.funcs f b = some [] := hg1 b [] nsb (a3.keeps a2.empty)
    have b4c : blockOf s₄.funcs f c = some [] := hg1 c [] nsc a3.empty
    have hg2 : ∀ q, q ≠ a → blockOf s₄.funcs f q = some [] → blockOf ((s₄.gen (is ++ [.condBr v.val b c]) n).at f b).funcs f q = some [] := by
      intro q hq hb
      show blockOf (s₄.gen (is ++ [.condBr v.val b c]) n).funcs f q = some []
      rw [blockOf_gen_same]
      · exact hb
      · rintro ⟨_, h⟩
        exact hq (h.trans hs4b)
    have m3 : s₃.mark = s.mark := a3.mark.trans (a2.mark.trans a1.mark)
    have m4 : s₄.mark = s.mark := by rw [e4]; exact m3
    have p3 : (s₃.setLoop (some (a, c))).place = s.place := by
      refine place_same hcf hcb ?_
      obtain ⟨code, hcode⟩ := hs.block
      rw [hcode]
      exact a3.keeps (a2.keeps (a1.keeps hcode))
    have p4 : s₄.place = start a := by
      have : s₄ = s₄.at f a := by rw [e4]; rfl
      rw [this]
      exact place_start b4a
    have c1 : CodeAt M f s.place [.br (some a)] := by
      have h1 : LExt ((s₃.setLoop (some (a, c))).gen [.br (some a)] s₃.nextReg) M R G := by rw [e4] at x3; exact x3.at_back
      have h2 := codeAt_gen (s := s₃.setLoop (some (a, c))) f3.cur h1
      rw [p3] at h2
      rw [hcur, ← hcf]
      exact h2
    have c2 : CodeAt M f (start a) (is ++ [.condBr v.val b c]) := by
      have h2 := codeAt_gen f5.cur x4
      rw [p4, hs4f] at h2
      exact h2
    have l1 := ihc n1 hfc ha.2.1 (f7.stateOk hs) trivial x5.jump_back (loop := some (a, c)) (ok := true) hj.2.1
      (fun _ => ⟨a, c, rfl, by rw [e4]; rfl, by rw [e4]; rfl⟩)
    have l1 : Laid (piecesL cfg R G M) M f (some (a, c)) .stmts ((s₄.gen (is ++ [.condBr v.val b c]) n).at f b).place ⟨n, s₄.mark.glob⟩ child
      r.isSome s₅.place s₅.mark := l1
    have p5 : ((s₄.gen (is ++ [.condBr v.val b c]) n).at f b).place = start b := place_start (hg2 b nab.symm b4b)
    rw [p5, m4] at l1
    have b5c : blockOf (s₅.jump r a).funcs f c = some [] :=
      (g1.jump r a).same f c [] (hg2 c nac.symm b4c) (by rintro ⟨_, h⟩; exact nbc h.symm)
    have l2 := ihn n2 hfn ha.2.2 (f9.stateOk hs) trivial he (loop := loop) (ok := false) hj.2.2 .no
    have l2 : Laid (piecesL cfg R G M) M f loop .stmts ((s₅.jump r a).at f c).place (s₅.jump r a).mark next r'.isSome s'.place s'.mark := l2
    rw [place_start b5c, mark_jump] at l2
    have hend : r.isSome = false → CodeAt M f s₅.place [.br (some a)] :=
      fun hr => codeAt_jump g1.cur g1.fn.symm x5 hr
    show Laid _ _ _ _ _ _ _ _ _ _ _
    rw [← hcur]
    exact .whiles rfl c1 (cond_piece hc x3.env m4.symm) c2 l1 hend l2
  | @ifs cond x tok child next s f fin b s₁ s₂ r s₃ r' s' hf0 a1 a2 hrc hrn ihc ihn =>
    intro hn hf ha hs _ M R G he loop ok hj hl
    rw [defs_node] at hn hf
    obtain ⟨n1, n2, _, n4⟩ := nodup_parts hn
    have hcur : f = s.curFn := Option.some.inj (hf0.symm.trans hs.cur)
    have f0 : LFrame (Here s) [] s s := .refl hs.block
    have f1 := f0.append a1 hcur
    have f2 := (f1.append a2 hcur).move (b := b) hcur a2.has (.inr (f1.newIn a2))
    have hfc : Fresh child.defs (s₂.at f b) := (hf.sub (by simp +contextual)).later f2.toLGrow (by simp)
    have g1 := gen_frame hrc n1 hfc ha.2.1 (f2.stateOk hs) trivial
    have f3 := (f2.sub g1).jump r fin
    have hfn : Fresh next.defs (s₃.jump r fin) := (hf.sub (by simp +contextual)).later f3.toLGrow (fun i hi h => n4 i hi h)
    have hm : ModeOk (s₃.jump r fin) (.afterIf cond f s.curBlock b fin) :=
      ⟨hcur.trans f3.fn.symm, by rw [hcur]; exact Has.grow (s := s) hs.block f3.toLGrow,
        ((a1.has.append a2).grow (s := s₂.at f b) g1.toLGrow).jump _ _⟩
    have g2 := gen_frame hrn n2 hfn ha.2.2 (f3.stateOk hs) hm
    have x3 := he.back g2.toLGrow
    have hsa : Has s f s.curBlock := by rw [hcur]; exact hs.block
    have nsf : fin ≠ s.curBlock := (ne_of_has hsa a1.new).symm
    have nsb : s.curBlock ≠ b := ne_of_has (hsa.append a1) a2.new
    have nfb : fin ≠ b := ne_of_has a1.has a2.new
    have keep : ∀ (q : Nat) code, q ≠ b → blockOf s₂.funcs f q = some code → blockOf (s₃.jump r fin).funcs f q = some code :=
      fun q code hq hb => (g1.jump r fin).same f q code hb (by rintro ⟨_, h⟩; exact hq h)
    have bfin : blockOf (s₃.jump r fin).funcs f fin = some [] := keep fin [] nfb (a2.keeps a1.empty)
    have m2 : s₂.mark = s.mark := a2.mark.trans a1.mark
    have l1 := ihc n1 hfc ha.2.1 (f2.stateOk hs) trivial x3.jump_back (loop := loop) (ok := ok) hj.2.1
      (hl.later (fun _ => ⟨a2.whileCond.trans a1.whileCond, a2.whileEnd.trans a1.whileEnd⟩) id)
    have l1 : Laid (piecesL cfg R G M) M f loop .stmts (s₂.at f b).place s₂.mark child r.isSome s₃.place s₃.mark := l1
    rw [place_start a2.empty, m2] at l1
    have l2 := ihn n2 hfn ha.2.2 (f3.stateOk hs) hm he hj.2.2 (hl.later (fun ho => by
      have h1 := gen_loop hrc (by simp at ho; exact ho.2)
      have h2 := loop_jump s₃ r fin
      exact ⟨h2.1.trans (h1.1.trans (a2.whileCond.trans a1.whileCond)), h2.2.trans (h1.2.trans (a2.whileEnd.trans a1.whileEnd))⟩) (by simp +contextual))
      bfin nsf
    have p3 : ((s₃.jump r fin).at f s.curBlock).place = s.place := by
      refine place_same hcur rfl ?_
      obtain ⟨code, hcode⟩ := hs.block
      rw [hcode, ← hcur]
      rw [← hcur] at hcode
      exact keep _ code nsb (a2.keeps (a1.keeps hcode))
    rw [p3, mark_jump] at l2
    have hend : r.isSome = false → CodeAt M f s₃.place [.br (some fin)] := fun hr => codeAt_jump g1.cur g1.fn.symm x3 hr
    show Laid _ _ _ _ _ _ _ _ _ _ _
    rw [← hcur]
    exact .ifs rfl l1 hend l2
  | @elifs cond cond' x tok child next s f entry b b' c fin s₁ s₂ is v n r s₃ r' s' a1 hc a2 hrc hrn ihc ihn =>
    intro hn hf ha hs hm0 M R G he loop ok hj hl bfin0 nfe
    obtain ⟨hcur, hentry, hfin⟩ := hm0
    rw [defs_node] at hn hf
    obtain ⟨n1, n2, _, n4⟩ := nodup_parts hn
    have f0 := LFrame.openIf (cond := cond) (b := b) (fin := fin) hcur hentry
    have f1 := f0.append a1 hcur
    have f1' := f1.emit (is ++ [.condBr v.val b c]) hc.straight.le
    have f2 := (f1'.append a2 hcur).move (b := b') hcur a2.has (.inr (f1'.newIn a2))
    have hfc : Fresh child.defs (s₂.at f b') := (hf.sub (by simp +contextual)).later f2.toLGrow (by simp)
    have g1 := gen_frame hrc n1 hfc ha.2.1 (f2.stateOk hs) trivial
    have f3 := (f2.sub g1).jump r fin
    have hfn : Fresh next.defs (s₃.jump r fin) := (hf.sub (by simp +contextual)).later f3.toLGrow (fun i hi h => n4 i hi h)
    have hm : ModeOk (s₃.jump r fin) (.afterIf cond' f c b' fin) :=
      ⟨hcur.trans f3.fn.symm, (((a1.has.gen _ _).append a2).grow (s := s₂.at f b') g1.toLGrow).jump _ _, hfin.grow f3.toLGrow⟩
    have g2 := gen_frame hrn n2 hfn ha.2.2 (f3.stateOk hs) hm
    have x3 := he.back g2.toLGrow
    have x2 := (x3.jump_back.back g1.toLGrow).at_back
    have x1' := x2.back (a2.grow ⟨_, a1.has.gen _ _⟩ (T := Here s) (ds := []))
    have hs1f : s₁.curFn = f := a1.curFn
    have hs1b : s₁.curBlock = entry := a1.curBlock
    have nfc : fin ≠ c := ne_of_has hfin a1.new
    have nec : entry ≠ c := ne_of_has hentry a1.new
    have nfb : fin ≠ b' := ne_of_has ((hfin.append (s := s.at f entry) a1).gen _ _) a2.new
    have ncb : c ≠ b' := ne_of_has (a1.has.gen _ _) a2.new
    have keep1 : ∀ (q : Nat) code, q ≠ entry → blockOf s₁.funcs f q = some code → blockOf s₂.funcs f q = some code := by
      intro q code hq hb
      refine a2.keeps ?_
      rw [blockOf_gen_same]
      · exact hb
      · rintro ⟨_, h⟩
        exact hq (h.trans hs1b)
    have keep : ∀ (q : Nat) code, q ≠ b' → blockOf s₂.funcs f q = some code → blockOf (s₃.jump r fin).funcs f q = some code :=
      fun q code hq hb => (g1.jump r fin).same f q code hb (by rintro ⟨_, h⟩; exact hq h)
    have bfin : blockOf (s₃.jump r fin).funcs f fin = some [] := keep fin [] nfb (keep1 fin [] nfe (a1.keeps bfin0))
    have bc : blockOf (s₃.jump r fin).funcs f c = some [] := keep c [] ncb (keep1 c [] nec.symm a1.empty)
    have m1 : s₁.mark = s.mark := a1.mark
    have c1 : CodeAt M f (s.at f entry).place (is ++ [.condBr v.val b c]) := by
      have h2 := codeAt_gen f1.cur x1'
      rw [hs1f] at h2
      rw [← place_same (s := s.at f entry) (s' := s₁) hs1f hs1b ?_]
      · exact h2
      · obtain ⟨code, hcode⟩ := hentry
        exact (a1.keeps (s := s.at f entry) hcode).trans hcode.symm
    have l1 := ihc n1 hfc ha.2.1 (f2.stateOk hs) trivial x3.jump_back (loop := loop) (ok := ok) hj.2.1
      (hl.later (fun _ => ⟨a2.whileCond.trans a1.whileCond, a2.whileEnd.trans a1.whileEnd⟩) id)
    have l1 : Laid (piecesL cfg R G M) M f loop .stmts (s₂.at f b').place s₂.mark child r.isSome s₃.place s₃.mark := l1
    have m2 : s₂.mark = ⟨n, s.mark.glob⟩ := by
      rw [a2.mark, ← m1]
      rfl
    rw [place_start a2.empty, m2] at l1
    have l2 := ihn n2 hfn ha.2.2 (f3.stateOk hs) hm he hj.2.2 (hl.later (fun ho => by
      have h1 := gen_loop hrc (by simp at ho; exact ho.2)
      have h2 := loop_jump s₃ r fin
      exact ⟨h2.1.trans (h1.1.trans (a2.whileCond.trans a1.whileCond)), h2.2.trans (h1.2.trans (a2.whileEnd.trans a1.whileEnd))⟩) (by simp +contextual))
      bfin nfc
    rw [place_start bc, mark_jump] at l2
    have hend : r.isSome = false → CodeAt M f s₃.place [.br (some fin)] := fun hr => codeAt_jump g1.cur (hcur.trans (f2.fn.symm.trans g1.fn.symm)) x3 hr
    exact .elifs rfl (cond_piece hc (x1'.gen_back hc.straight.le).env m1.symm) c1 l1 hend l2
  | @elses cond ann tok child next s f entry b c fin s₁ is v n r s₂ r' s' a1 hc hrc hrn ihc ihn =>
    intro hn hf ha hs hm0 M R G he loop ok hj hl bfin0 nfe
    obtain ⟨hcur, hentry, hfin⟩ := hm0
    rw [defs_node] at hn hf
    obtain ⟨n1, n2, _, n4⟩ := nodup_parts hn
    have f0 := LFrame.openIf (cond := cond) (b := b) (fin := fin) hcur hentry
    have f1 := f0.append a1 hcur
    have f1' := f1.emit (is ++ [.condBr v.val b c]) hc.straight.le
    have f2 := f1'.move (b := c) hcur (a1.has.gen _ _) (.inr (f0.newIn a1))
    have hfc : Fresh child.defs ((s₁.gen (is ++ [.condBr v.val b c]) n).at f c) := (hf.sub (by simp +contextual)).later f2.toLGrow (by simp)
    have g1 := gen_frame hrc n1 hfc ha.2.1 (f2.stateOk hs) trivial
    have f3 := (f2.sub g1).jump r fin
    have f4 := f3.move (b := fin) hcur (hfin.grow f3.toLGrow) (.inl ⟨rfl, .inr rfl⟩)
    have hfn : Fresh next.defs ((s₂.jump r fin).at f fin) :=
      (hf.sub (by simp +contextual)).later f4.toLGrow (fun i hi h => n4 i hi (by simp at h; simp [h]))
    have g2 := gen_frame hrn n2 hfn ha.2.2 (f4.stateOk hs) trivial
    have x3 := (he.back g2.toLGrow).at_back
    have x1' := (x3.jump_back.back g1.toLGrow).at_back
    have hs1f : s₁.curFn = f := a1.curFn
    have hs1b : s₁.curBlock = entry := a1.curBlock
    have nfc : fin ≠ c := ne_of_has hfin a1.new
    have nec : entry ≠ c := ne_of_has hentry a1.new
    have keep1 : ∀ (q : Nat) code, q ≠ entry → blockOf s₁.funcs f q = some code →
        blockOf (s₁.gen (is ++ [.condBr v.val b c]) n).funcs f q = some code := by
      intro q code hq hb
      rw [blockOf_gen_same]
      · exact hb
      · rintro ⟨_, h⟩
        exact hq (h.trans hs1b)
    have bfin : blockOf (s₂.jump r fin).funcs f fin = some [] :=
      (g1.jump r fin).same f fin [] (keep1 fin [] nfe (a1.keeps bfin0)) (by rintro ⟨_, h⟩; exact nfc h)
    have m1 : s₁.mark = s.mark := a1.mark
    have c1 : CodeAt M f (s.at f entry).place (is ++ [.condBr v.val b c]) := by
      have h2 := codeAt_gen f1.cur x1'
      rw [hs1f] at h2
      rw [← place_same (s := s.at f entry) (s' := s₁) hs1f hs1b ?_]
      · exact h2
      · obtain ⟨code, hcode⟩ := hentry
        exact (a1.keeps (s := s.at f entry) hcode).trans hcode.symm
    have hj2 : JumpsOk ok child ∧ JumpsOk (ok && !hasLoop child) next := hj.2
    have l1 := ihc n1 hfc ha.2.1 (f2.stateOk hs) trivial x3.jump_back (loop := loop) (ok := ok) hj2.1
      (hl.later (fun _ => ⟨a1.whileCond, a1.whileEnd⟩) id)
    have l1 : Laid (piecesL cfg R G M) M f loop .stmts ((s₁.gen (is ++ [.condBr v.val b c]) n).at f c).place ⟨n, s₁.mark.glob⟩ child
      r.isSome s₂.place s₂.mark := l1
    rw [place_start (keep1 c [] nec.symm a1.empty), m1] at l1
    have l2 := ihn n2 hfn ha.2.2 (f4.stateOk hs) trivial he hj2.2 (hl.later (fun ho => by
      have h1 := gen_loop hrc (by simp at ho; exact ho.2)
      have h2 := loop_jump s₂ r fin
      exact ⟨h2.1.trans (h1.1.trans a1.whileCond), h2.2.trans (h1.2.trans a1.whileEnd)⟩) (by simp +contextual))
    have l2 : Laid (piecesL cfg R G M) M f loop .stmts ((s₂.jump r fin).at f fin).place (s₂.jump r fin).mark next r'.isSome s'.place s'.mark := l2
    rw [place_start bfin, mark_jump] at l2
    have hend : r.isSome = false → CodeAt M f s₂.place [.br (some fin)] := fun hr => codeAt_jump g1.cur g1.fn.symm x3 hr
    exact .elses (cond_piece hc (x1'.gen_back hc.straight.le).env m1.symm) c1 l1 hend l2
  | @comment cond f entry b fin ann tok child next s r s' hrun ih =>
    intro hn hf ha hs hm M R G he loop ok hj hl bfin0 nfe
    rw [defs_node] at hn hf
    obtain ⟨n1, n2, _, n4⟩ := nodup_parts hn
    have hj2 : JumpsOk ok child ∧ JumpsOk (ok && !hasLoop child) next := hj.2
    exact .comment (ih n2 (hf.sub (by simp +contextual)) ha.2.2 hs hm he hj2.2 (hl.later (fun _ => ⟨rfl, rfl⟩) (by simp +contextual)) bfin0 nfe)
  | @endIf cond f entry b fin t s is v n r s' hst hc hrun ih =>
    intro hn hf ha hs hm0 M R G he loop ok hj hl bfin0 nfe
    obtain ⟨hcur, hentry, hfin⟩ := hm0
    have f0 := LFrame.openIf (cond := cond) (b := b) (fin := fin) hcur hentry
    have f1 := f0.emit (is ++ [.condBr v.val b fin]) hc.straight.le
    have f2 := f1.move (b := fin) hcur (hfin.grow f1.toLGrow) (.inl ⟨rfl, .inr rfl⟩)
    have hf1 := hf.later f2.toLGrow (by simp)
    have g1 := gen_frame hrun hn hf1 ha (f2.stateOk hs) trivial
    have x1 := (he.back g1.toLGrow).at_back
    have c1 : CodeAt M f (s.at f entry).place (is ++ [.condBr v.val b fin]) := codeAt_gen f0.cur x1
    have bfin : blockOf ((s.at f entry).gen (is ++ [.condBr v.val b fin]) n).funcs f fin = some [] := by
      rw [blockOf_gen_same]
      · exact bfin0
      · rintro ⟨_, h⟩
        exact nfe h
    have l1 := ih hn hf1 ha (f2.stateOk hs) trivial he hj (hl.later (fun _ => ⟨rfl, rfl⟩) id)
    have l1 : Laid (piecesL cfg R G M) M f loop .stmts (((s.at f entry).gen (is ++ [.condBr v.val b fin]) n).at f fin).place ⟨n, s.mark.glob⟩ t
      r.isSome s'.place s'.mark := l1
    rw [place_start bfin] at l1
    exact .endIf hst (cond_piece hc (x1.gen_back hc.straight.le).env rfl) c1 l1
  | @external id ps x tok child next s sym f r s' hfn hx hrun ih =>
    intro hn hf ha hs _ M R G he loop ok hj hl
    rw [defs_node] at hn hf
    obtain ⟨n1, n2, _, n4⟩ := nodup_parts hn
    have h1 : LGrow (Here s) (id :: ps) s (s.addFunc sym f id []) := addFunc_grow (hf.sub (by simp [Ann.defs])) (by simp)
    have f1 : LFrame (Here s) (id :: ps) s (s.addFunc sym f id []) := ⟨h1, rfl, rfl, Has.grow (s := s) hs.block h1, .inl ⟨rfl, rfl⟩⟩
    have hfn' : Fresh next.defs (s.addFunc sym f id []) :=
      (hf.sub (by simp +contextual)).later f1.toLGrow (fun i hi h => n4 i hi (by simp only [Ann.defs, List.mem_append]; exact .inl h))
    have g1 := gen_frame hrun n2 hfn' ha.2.2 (f1.stateOk hs) trivial
    have x1 := he.back g1.toLGrow
    have l1 := ih n2 hfn' ha.2.2 (f1.stateOk hs) trivial he hj.2.2 (hl.later (fun _ => ⟨rfl, rfl⟩) (by simp +contextual))
    have l1 : Laid (piecesL cfg R G M) M s.curFn loop .stmts (s.addFunc sym f id []).place s.mark next r.isSome s'.place s'.mark := l1
    have p0 : (s.addFunc sym f id []).place = s.place := by
      obtain ⟨code, hcode⟩ := hs.block
      exact place_same rfl rfl ((blockOf_append _ _ hcode).trans hcode.symm)
    rw [p0] at l1
    refine .external rfl ?_ l1
    obtain ⟨y, h2, h3, h4⟩ := x1.heads s.funcs.length ⟨sym.linkageName, f.paramTypes, f.returnType, !(f.isExternal || f.isExport), []⟩
      (by simp [LState.addFunc])
    exact ⟨sym, f, s.funcs.length, y, hfn, hx, x1.env.funcs _ _ (by simp [LState.addFunc, LState.env]), h2, congrArg LFunc.name h3, h4 rfl⟩
  | @func id ps x tok child next s sym f u s₀ r s₁ r' s' hfn hx h0 hrc hrn ihc ihn =>
    intro hn hf ha hs _ M R G he loop ok hj hl
    rw [defs_node] at hn hf
    obtain ⟨n1, n2, n3, n4⟩ := nodup_parts hn
    have hsub : ∀ i ∈ ps.take f.numParams, i ∈ ps := fun i hi => List.mem_of_mem_take hi
    have e1 : LGrow (Here s) (id :: ps) s s₀ := debug_grow (hf.sub (by simp +contextual [Ann.defs, or_imp])) hsub h0
    have hfc : Fresh child.defs s₀ := (hf.sub (by simp +contextual)).later e1 n3
    have hs1 : StateOk s₀ := debug_ok hs (hf.sub (by simp [Ann.defs])) h0
    have g1 := gen_frame hrc n1 hfc ha.2.1 hs1 trivial
    have f1 := func_frame (r := r) hs (hf.sub (by simp +contextual [Ann.defs, or_imp])) hsub h0 g1
    obtain ⟨is, st, sd, sc⟩ := debug_step h0
    have hc0 := debug_cur h0
    have hfn' : Fresh next.defs (s₁.leave f r s) := (hf.sub (by simp +contextual)).later f1.toLGrow n4
    have g2 := gen_frame hrn n2 hfn' ha.2.2 (f1.stateOk hs) trivial
    have x2 := he.back g2.toLGrow
    have x1 : LExt s₁ M R G := by
      unfold LState.leave at x2
      split at x2
      · exact LExt.gen_back (is := [.retVoid]) (n := s₁.nextReg) ⟨x2.code, x2.env, x2.globals, x2.heads⟩ (Nat.le_refl _)
      · exact ⟨x2.code, x2.env, x2.globals, x2.heads⟩
    have x0 := x1.back g1.toLGrow
    have l1 := ihc n1 hfc ha.2.1 hs1 trivial x1 (loop := none) (ok := false) hj.2.1 .no
    have l1 : Laid (piecesL cfg R G M) M s₀.curFn none .stmts s₀.place s₀.mark child r.isSome s₁.place s₁.mark := l1
    have p0 : (s.enter sym f id (ps.take f.numParams)).place = start 0 :=
      place_start (s := s.enter sym f id (ps.take f.numParams)) enter_block
    have b0 : HasBlock (s.enter sym f id (ps.take f.numParams)) := ⟨_, enter_block⟩
    rw [place_funcs st.curFn st.curBlock st.funcs b0, p0, hc0.1] at l1
    have c0 : CodeAt M s.funcs.length (start 0) is := by
      have := codeAt_funcs b0 st.funcs x0
      rwa [p0] at this
    have hmark : (s₁.leave f r s).mark = s₁.mark := by unfold LState.leave; split <;> rfl
    have hplace : (s₁.leave f r s).place = s.place := by
      refine place_same rfl rfl ?_
      obtain ⟨code, hcode⟩ := hs.block
      have hne : s.curFn ≠ s.funcs.length := by
        intro h
        rw [h, blockOf_beyond] at hcode
        cases hcode
      have h5 : blockOf (s.enter sym f id (ps.take f.numParams)).funcs s.curFn s.curBlock = some code := blockOf_append _ _ hcode
      have h5 : blockOf s₀.funcs s.curFn s.curBlock = some code := by
        rw [st.funcs, blockOf_gen_same (by rintro ⟨h, _⟩; exact hne h)]
        exact h5
      have h6 := g1.same _ _ _ h5 (by rintro ⟨h, _⟩; exact hne (h.trans hc0.1))
      rw [hcode]
      unfold LState.leave
      split
      · refine (blockOf_gen_same (n := s₁.nextReg) ?_).trans h6
        rintro ⟨h, _⟩
        exact hne (h.trans (g1.fn.trans hc0.1))
      · exact h6
    have l2 := ihn n2 hfn' ha.2.2 (f1.stateOk hs) trivial he hj.2.2 (hl.later (fun ho => by
      have h1 := gen_loop hrc (by simp at ho; exact ho.2)
      have h1 := And.intro (h1.1.trans st.whileCond) (h1.2.trans st.whileEnd)
      have h2 : (s₁.leave f r s).whileCond = s₁.whileCond ∧ (s₁.leave f r s).whileEnd = s₁.whileEnd := by unfold LState.leave; split <;> exact ⟨rfl, rfl⟩
      exact ⟨h2.1.trans h1.1, h2.2.trans h1.2⟩) (by simp +contextual))
    have l2 : Laid (piecesL cfg R G M) M s.curFn loop .stmts (s₁.leave f r s).place (s₁.leave f r s).mark next r'.isSome s'.place s'.mark := l2
    rw [hplace, hmark] at l2
    have hret : r.isSome = false → (piecesL cfg R G M).isVoid id → CodeAt M s.funcs.length s₁.place [.retVoid] := by
      rintro hr ⟨sym', fn', h1, h2⟩
      cases hfn.symm.trans h1
      cases r with
      | some _ => cases hr
      | none =>
        have h3 : LExt (s₁.gen [.retVoid] s₁.nextReg) M R G := by
          unfold LState.leave at x2
          rw [if_pos ⟨h2, by simp⟩] at x2
          exact ⟨x2.code, x2.env, x2.globals, x2.heads⟩
        have h4 := codeAt_gen g1.cur h3
        rw [g1.fn, hc0.1] at h4
        exact h4
    refine .func rfl ?_ ?_ c0 l1 hret l2
    · rintro ⟨sym', fn', _, _, h1, h2, _⟩
      cases hfn.symm.trans h1
      rw [hx] at h2
      cases h2
    · have hh : Heads (s.enter sym f id (ps.take f.numParams)).funcs M := by
        refine Heads.trans ?_ x0.heads
        rw [st.funcs]
        exact gen_heads _ _ _
      obtain ⟨y, h2, h3, h4⟩ := hh s.funcs.length ⟨sym.linkageName, f.paramTypes, f.returnType, !(f.isExternal || f.isExport), [[]]⟩
        (by simp [LState.enter, LState.addFunc])
      have hfr : s₀.env.funcRef id = some s.funcs.length := (congrFun st.funcRef id).trans (by simp [LState.enter, LState.addFunc])
      have hnd : (ps.take f.numParams).Nodup := by
        have h6 := (List.nodup_append.1 hn).1
        exact (List.nodup_cons.1 h6).2.sublist (List.take_sublist _ _)
      have href : ∀ (i p : Nat), (ps.take f.numParams)[i]? = some p →
          (s.enter sym f id (ps.take f.numParams)).refs p = some (.param i) := by
        intro i p hp
        show (if p ∈ ps.take f.numParams then some (LVal.param ((ps.take f.numParams).idxOf p)) else s.refs p) = some (.param i)
        rw [if_pos (List.mem_of_getElem? hp), idxOf_nodup hnd hp]
      have hglob : ∀ p ∈ ps.take f.numParams, s₀.isGlobal p = false ∧ s.spilled p = false := fun p hp =>
        ⟨(congrFun st.isGlobal p).trans (hf p (by simp [Ann.defs, hsub p hp])).2.2.1, (hf p (by simp [Ann.defs, hsub p hp])).2.2.2⟩
      refine ⟨sym, f, y, hfn, by simpa using hx, x0.env.funcs _ _ hfr, Nat.ne_of_gt hs.pos, h2, congrArg LFunc.params h3, congrArg LFunc.ret h3, ?_⟩
      cases hd : cfg.debug with
      | false =>
        obtain ⟨e0, rfl⟩ := sd hd
        have hr : ∀ p ∈ ps.take f.numParams, ∃ i, (ps.take f.numParams)[i]? = some p := fun p hp => List.getElem?_of_mem hp
        have hr' : ∀ (i p : Nat), (ps.take f.numParams)[i]? = some p → R.refs p = some (.param i) ∧ R.isGlobal p = false ∧ R.spilled p = false := by
          intro i p hp
          have h5 := x0.env.refs p (.param i) (by rw [e0]; exact href i p hp)
          refine ⟨h5.1, h5.2.1.trans (hglob p (List.mem_of_getElem? hp)).1, h5.2.2.trans ?_⟩
          rw [e0]
          exact (hglob p (List.mem_of_getElem? hp)).2
        refine ⟨fun p hp => ?_, .inl ⟨hd, rfl, by rw [e0]; rfl, fun i p hp => ⟨(hr' i p hp).1, (hr' i p hp).2.2⟩⟩⟩
        obtain ⟨i, hi⟩ := hr p hp
        exact (hr' i p hi).2.1
      | true =>
        have hc := sc hd hnd href
        refine ⟨fun p hp => ?_, .inr ⟨hd, congrArg List.length st.globals, ?_⟩⟩
        · obtain ⟨i, hi⟩ := List.getElem?_of_mem hp
          obtain ⟨q, hq⟩ := hc.known p hp
          exact (x0.env.refs p q hq).2.1.trans (hglob p hp).1
        · exact hc.mono x0.env
  | @ns ann tok child next s r s₁ r' s' hrc hrn ihc ihn =>
    intro hn hf ha hs _ M R G he loop ok hj hl
    rw [defs_node] at hn hf
    obtain ⟨n1, n2, n3, n4⟩ := nodup_parts hn
    have hfc : Fresh child.defs s := hf.sub (by simp +contextual)
    have g1 := gen_frame hrc n1 hfc ha.2.1 hs trivial
    have hfn' : Fresh next.defs s₁ := (hf.sub (by simp +contextual)).later g1.toLGrow (fun i hi h => n4 i hi (by simp [h]))
    have g2 := gen_frame hrn n2 hfn' ha.2.2 (g1.stateOk hs) trivial
    have hj2 : JumpsOk ok child ∧ JumpsOk (ok && !hasLoop child) next := hj.2
    have l1 := ihc n1 hfc ha.2.1 hs trivial (he.back g2.toLGrow) hj2.1 hl
    have l2 := ihn n2 hfn' ha.2.2 (g1.stateOk hs) trivial he hj2.2 (hl.later (fun ho => gen_loop hrc (by simp at ho; exact ho.2)) (by simp +contextual))
    have l2 : Laid (piecesL cfg R G M) M s₁.curFn loop .stmts s₁.place s₁.mark next r'.isSome s'.place s'.mark := l2
    rw [g1.fn] at l2
    exact .ns l1 l2

end Skull
