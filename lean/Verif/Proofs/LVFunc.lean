import Verif.Proofs.LVGen
/-
The code of functions, and of a program, is code that LLVM accepts.
-/
namespace Skull.LVer
open Spec

theorem Good.enter {M G A n g} {s : LState} {sym f id ps} (h : Good M G A s.funcs n g)
    (hx : ∀ (x : LFunc), M[s.funcs.length]? = some x → ∀ ty ∈ x.params, lty ty ≠ .void) :
    Good M G (put A s.funcs.length 0 (fun _ _ => False)) (s.enter sym f id ps).funcs n g := by
  have hl : (s.enter sym f id ps).funcs.length = s.funcs.length + 1 := by simp [LState.enter, LState.addFunc]
  refine h.block (by omega) (blockOf_beyond _ _) enter_blocks (fun _ _ _ h => h) (fun _ _ h => h.elim) ?_
  intro i x h1 h2 h3
  have : i = s.funcs.length := by omega
  subst this
  refine ⟨hx x h3, fun _ => ?_⟩
  rw [enter_blocks, if_pos ⟨rfl, rfl⟩]
  exact ⟨_, rfl⟩

/-- In a function of the program only the variables of the program can be seen, and those are globals. -/
theorem Vis.inside {cfg M G f f' R ds own P P'} (h : Vis cfg M G f R [] ds P) : Vis cfg M G f' R own ds P' := by
  refine ⟨fun id hd v p h1 h2 => ?_, h.funcs⟩
  have := h.vars id hd v p h1 h2
  split at this
  · rename_i hg
    rw [if_pos hg]
    exact this
  · exact absurd this.1 (by simp)

theorem Vis.addVars {cfg : LCfg} {M G f R own P} : ∀ {ps ds : List Nat}, Vis cfg M G f R own ds P →
    (∀ id ∈ ps, ∀ v p, cfg.var id = some v → R.refs id = some p →
      if R.isGlobal id then ∃ g, p = .global g ∧ g < G.length
      else id ∈ own ∧ ValIs M G f P p (if R.isConst id v then lty v.type else .ptr)) →
    (∀ id ∈ ps, ∀ x, cfg.func id ≠ some x) → Vis cfg M G f R own (ds ++ ps) P := by
  intro ps ds h hv hf
  refine ⟨fun id hd v p h1 h2 => ?_, fun id hd sym fn ref h1 h2 => ?_⟩
  · rcases List.mem_append.1 hd with hd | hd
    · exact h.vars id hd v p h1 h2
    · exact hv id hd v p h1 h2
  · rcases List.mem_append.1 hd with hd | hd
    · exact h.funcs id hd sym fn ref h1 h2
    · exact (hf id hd _ h1).elim

theorem good_func {cfg : LCfg} {id ps x tok child next} {s : LState} {sym f u s₀ r s₁ r' s'} (hfn : cfg.func id = some (sym, f))
    (h0 : debugParams cfg (ps.take f.numParams) (s.enter sym f id (ps.take f.numParams)) = some (u, s₀))
    (hrc : GenRun cfg .stmts child s₀ r s₁) (hrn : GenRun cfg .stmts next (s₁.leave f r s) r' s')
    (ihc : GenGood cfg .stmts child s₀ r s₁) (ihn : GenGood cfg .stmts next (s₁.leave f r s) r' s') :
    GenGood cfg .stmts (.node (.func id ps) (.funcProto x) tok child next) s r' s' := by
  intro hn hf ha hs _ hends M R G he ok loop before ds K A hj hw hsc hsd hk hg hl _ hv
  rw [defs_node] at hn hf hk
  obtain ⟨n1, n2, n3, n4⟩ := nodup_parts hn
  obtain ⟨w1, w2, w3⟩ := wt_node hw
  obtain ⟨d1, d2, d3⟩ := sound_node hsd
  simp only [soundAnn, Bool.and_eq_true, List.all_eq_true, decide_eq_true_eq, (params_of hfn).1, Bool.not_eq_true'] at d1
  obtain ⟨hown, hmain⟩ := hk.out d1.1
  have hsub : ∀ i ∈ ps.take f.numParams, i ∈ ps := fun i hi => List.mem_of_mem_take hi
  have e1 : LGrow (Here s) (id :: ps) s s₀ := debug_grow (hf.sub (by simp +contextual [Ann.defs, or_imp])) hsub h0
  have hfc : Fresh child.defs s₀ := (hf.sub (by simp +contextual)).later e1 n3
  have hs1 : StateOk s₀ := debug_ok hs (hf.sub (by simp [Ann.defs])) h0
  have g1 := gen_frame hrc n1 hfc ha.2.1 hs1 trivial
  have f1 := func_frame (r := r) hs (hf.sub (by simp +contextual [Ann.defs, or_imp])) hsub h0 g1
  obtain ⟨is, st, sd, sc⟩ := debug_step h0
  have hc0 := debug_cur h0
  have hfn' : Fresh next.defs (s₁.leave f r s) := (hf.sub (by simp +contextual)).later f1.toLGrow n4
  have g2 := gen_frame hrn n2 hfn' ha.2.2 (f1.stateOk hs) trivial
  have x2 := he.back g2.toLGrow
  have x1 : LExt s₁ M R G := by
    unfold LState.leave at x2
    split at x2
    · exact LExt.gen_back (is := [.retVoid]) (n := s₁.nextReg) ⟨x2.code, x2.env, x2.globals, x2.heads⟩ (Nat.le_refl _)
    · exact ⟨x2.code, x2.env, x2.globals, x2.heads⟩
  have x0 := x1.back g1.toLGrow
  have hh : Heads (s.enter sym f id (ps.take f.numParams)).funcs M := by
    refine Heads.trans ?_ x0.heads
    rw [st.funcs]
    exact gen_heads _ _ _
  obtain ⟨y, h2, h3, h4⟩ := hh s.funcs.length ⟨sym.linkageName, f.paramTypes, f.returnType, !(f.isExternal || f.isExport), [[]]⟩
    (by simp [LState.enter, LState.addFunc])
  have yp : y.params = f.paramTypes := congrArg LFunc.params h3
  have yr : y.ret = f.returnType := congrArg LFunc.ret h3
  have hfr : s₀.env.funcRef id = some s.funcs.length := (congrFun st.funcRef id).trans (by simp [LState.enter, LState.addFunc])
  have hRf : R.funcRef id = some s.funcs.length := x0.env.funcs _ _ hfr
  -- parameters
  obtain ⟨hlen, hpar⟩ : ps.length = f.numParams ∧ ∀ (i p : Nat), ps[i]? = some p → ∃ ty, f.paramTypes[i]? = some ty ∧ IsParam cfg.syms p ty := by
    cases w1 with
    | func k1 k2 _ _ _ k3 k4 k5 _ =>
      cases func_of k1 k2 hfn
      refine ⟨k4, fun i p hi => ?_⟩
      have hi' := (List.getElem?_eq_some_iff.1 hi).1
      obtain ⟨ty, hty⟩ : ∃ ty, f.paramTypes[i]? = some ty := ⟨_, List.getElem?_eq_getElem (by omega)⟩
      exact ⟨ty, hty, k5 i p ty hi hty⟩
  have htake : ps.take f.numParams = ps := List.take_of_length_le (by omega)
  have hvar : ∀ (i p : Nat), ps[i]? = some p → ∃ ty v, y.params[i]? = some ty ∧ cfg.var p = some v ∧ v.type = ty ∧ lty ty ≠ .void ∧ v.isConst = true := by
    intro i p hi
    obtain ⟨ty, k1, sm, v, k2, k3, _, k4, _, k5, _⟩ := hpar i p hi
    refine ⟨ty, v, by rw [yp]; exact k1, by unfold LCfg.var; rw [k2]; simp only [k3], k5, lty_void (d1.2 ty (List.mem_of_getElem? k1)), k4⟩
  have hnd : (ps.take f.numParams).Nodup := by
    have h6 := (List.nodup_append.1 hn).1
    exact (List.nodup_cons.1 h6).2.sublist (List.take_sublist _ _)
  have href : ∀ (i p : Nat), (ps.take f.numParams)[i]? = some p →
      (s.enter sym f id (ps.take f.numParams)).refs p = some (.param i) := by
    intro i p hp
    show (if p ∈ ps.take f.numParams then some (LVal.param ((ps.take f.numParams).idxOf p)) else s.refs p) = some (.param i)
    rw [if_pos (List.mem_of_getElem? hp), idxOf_nodup hnd hp]
  have hglob : ∀ p ∈ ps.take f.numParams, s₀.isGlobal p = false ∧ s.spilled p = false := fun p hp =>
    ⟨(congrFun st.isGlobal p).trans (hf p (by simp [Ann.defs, hsub p hp])).2.2.1, (hf p (by simp [Ann.defs, hsub p hp])).2.2.2⟩
  -- the first block
  obtain ⟨A₁, hA₁⟩ : ∃ A₁, A₁ = put A s.funcs.length 0 (fun _ _ => False) := ⟨_, rfl⟩
  have k1 : Good M G A₁ (s.enter sym f id (ps.take f.numParams)).funcs s.nextReg s.globals.length := by
    rw [hA₁]
    refine Good.enter hg (fun z hz ty hty => ?_)
    cases h2.symm.trans hz
    exact lty_void (d1.2 ty (by rw [← yp]; exact hty))
  have hent : HasBlock (s.enter sym f id (ps.take f.numParams)) := ⟨_, enter_block⟩
  have code : CodeOk M G s.funcs.length (A₁ s.funcs.length) (Cur M A₁ (s.enter sym f id (ps.take f.numParams))) is ∧
      Nums s.nextReg is s₀.nextReg ∧ ∀ p ∈ ps, ∀ v q, cfg.var p = some v → R.refs p = some q → R.isGlobal p = false ∧
        ValIs M G s.funcs.length (After M (Cur M A₁ (s.enter sym f id (ps.take f.numParams))) is) q (if R.isConst p v then lty v.type else .ptr) := by
    cases hd : cfg.debug with
    | false =>
      obtain ⟨e0, rfl⟩ := sd hd
      refine ⟨.nil, by rw [e0]; exact .nil, fun p hp v q hv hq => ?_⟩
      obtain ⟨i, hi⟩ := List.getElem?_of_mem hp
      have h5 := x0.env.refs p (.param i) (by rw [e0]; exact href i p (by rw [htake]; exact hi))
      cases h5.1.symm.trans hq
      refine ⟨h5.2.1.trans (hglob p (by rw [htake]; exact hp)).1, ?_⟩
      have hsp : R.spilled p = false := h5.2.2.trans (by rw [e0]; exact (hglob p (by rw [htake]; exact hp)).2)
      obtain ⟨ty, v', p1, p2, p3, p4, p5⟩ := hvar i p hi
      cases hv.symm.trans p2
      have : R.isConst p v = true := by simp [LEnv.isConst, p5, hsp]
      rw [this, if_pos rfl]
      exact ⟨y, ty, h2, p1, by rw [p3]⟩
    | true =>
      have hc := sc hd hnd href
      have hcR := hc.mono x0.env
      refine ⟨entry_ok hcR h2 (fun j p hj => ?_), entry_nums hcR, fun p hp v q hv hq => ?_⟩
      · rw [htake] at hj
        obtain ⟨ty, v', p1, p2, p3, p4, p5⟩ := hvar j p hj
        exact ⟨ty, v', by rw [Nat.zero_add]; exact p1, p2, p3, p4⟩
      · obtain ⟨w, hw⟩ := hc.known p (by rw [htake]; exact hp)
        obtain ⟨rr, q1, q2, j, q3, q4⟩ := entry_reg M hcR p (by rw [htake]; exact hp)
        cases q1.symm.trans hq
        refine ⟨(x0.env.refs p w hw).2.1.trans (hglob p (by rw [htake]; exact hp)).1, ?_⟩
        have : R.isConst p v = false := by simp [LEnv.isConst, q2]
        rw [this]
        exact .inr ⟨j, q3, q4⟩
  obtain ⟨c1, c2, c3⟩ := code
  have k2 : GoodAt M G A₁ s₀ := by
    have hj := straight_jumps st.straight
    have := Good.gen (s := s.enter sym f id (ps.take f.numParams)) k1 hent c1 (fun i hi t ht => by rw [hj i hi] at ht; simp at ht) c2
    unfold GoodAt
    rw [st.funcs, st.globals]
    exact this
  have E1 : Ext s.funcs A A₁ := by rw [hA₁]; exact put_ext (blockOf_beyond _ _)
  have G1 : Grows s.funcs s₀.funcs := e1.grow
  have hcur : Sub (After M (Cur M A₁ (s.enter sym f id (ps.take f.numParams))) is) (Cur M A₁ s₀) := by
    unfold Cur
    rw [st.funcs, st.curFn, st.curBlock]
    exact avs_gen hent
  have hv0 : Vis cfg M G s₀.curFn R (ps ++ child.defs) (ds ++ (id :: ps)) (Cur M A₁ s₀) := by
    rw [hown] at hv
    have v1 := (Vis.inside (f' := s.funcs.length) (own := ps ++ child.defs) (P' := Cur M A₁ s₀) hv).addFunc hfn hRf h2 yp yr
    rw [hc0.1, show ds ++ id :: ps = ds ++ [id] ++ ps by simp]
    refine v1.addVars (fun p hp v q k1 k2 => ?_) (fun p hp z hz => ?_)
    · obtain ⟨e1, e2⟩ := c3 p hp v q k1 k2
      rw [if_neg (by simp [e1])]
      exact ⟨by simp [hp], val_mono .refl hcur e2⟩
    · obtain ⟨i, hi⟩ := List.getElem?_of_mem hp
      obtain ⟨_, v', _, p2, _⟩ := hvar i p hi
      exact (var_func p2 hz).elim
  have hpos : s.funcs.length ≠ 0 := Nat.ne_of_gt hs.pos
  have hk0 : KOk M (K.enter cfg.syms child (.func id ps)) s₀.curFn child.defs := by
    refine ⟨fun h => by simp [Around.enter] at h, fun _ i hi => by simp [Around.enter, hi], y, by rw [hc0.1]; exact h2, ?_⟩
    rw [yr]
    exact (params_of hfn).2.symm
  obtain ⟨A₂, E2, k3, P2, _⟩ := ihc n1 hfc ha.2.1 hs1 trivial hends.2.2.1 x1 (A := A₁) (ok := false) hj.2.1 w2 hsc.2.1 d2 hk0 k2 .no trivial hv0
  -- the end of the function
  have hcf : s₁.curFn = s.funcs.length := g1.fn.trans hc0.1
  have k4 : GoodAt M G A₂ (s₁.leave f r s) := by
    unfold LState.leave
    split
    · rename_i hret
      exact Good.gen (is := [.retVoid]) k3 g1.cur (.one ⟨y, by rw [hcf]; exact h2, by rw [yr, hret.1]; rfl⟩ (by simp [targets]))
        (by simp [targets]) (.no rfl)
    · exact k3
  have G2 : Grows s₀.funcs (s₁.leave f r s).funcs := by
    unfold LState.leave
    split
    · exact Grows.trans g1.grow (gen_grows s₁ [.retVoid] s₁.nextReg)
    · exact g1.grow
  have E3 : Ext s.funcs A A₂ := E1.trans G1 E2
  have G3 := G1.trans G2
  have P3 : Sub (Cur M A s) (Cur M A₂ (s₁.leave f r s)) := avs_grow G3 E3
  have hl3 : LoopsOk A₂ (s₁.leave f r s) (Cur M A₂ (s₁.leave f r s)) (ok && !hasLoop child) := by
    refine hl.later (by simp +contextual) (fun ho => ?_) f1.fn G3 E3 P3
    have h1 := gen_loop hrc (by simp at ho; exact ho.2)
    have h1 := And.intro (h1.1.trans st.whileCond) (h1.2.trans st.whileEnd)
    have h2 : (s₁.leave f r s).whileCond = s₁.whileCond ∧ (s₁.leave f r s).whileEnd = s₁.whileEnd := by unfold LState.leave; split <;> exact ⟨rfl, rfl⟩
    exact ⟨h2.1.trans h1.1, h2.2.trans h1.2⟩
  have := ihn n2 hfn' ha.2.2 (f1.stateOk hs) trivial hends.2.2.2 he (A := A₂) hj.2.2 w3 hsc.2.2 d3
    (by rw [f1.fn]; exact hk.sub (by simp +contextual)) k4 hl3 trivial ((P3.vis hv).addFunc hfn hRf h2 yp yr)
  exact this.before G3 E3 P3 (by intro _ i hi; simpa [outer, or_assoc] using hi)

theorem gen_good {cfg : LCfg} (hfold : FoldTyped cfg.fold) {mode t s r s'} (h : GenRun cfg mode t s r s') : GenGood cfg mode t s r s' := by
  induction h with
  | nil =>
    intro _ _ _ hs _ _ M R G he ok loop before ds K A hj hw hsc hsd hk hg hl _ hv
    exact ⟨A, .refl, hg, .refl, fun _ => by rw [outer, List.append_nil]; exact hv⟩
  | plain hp h1 hrun ih => exact good_plain hfold hp h1 hrun ih
  | stop hp h1 => exact good_stop hfold hp h1
  | breaks =>
    intro _ _ _ hs _ _ M R G he ok loop before ds K A hj hw hsc hsd hk hg hl _ hv
    obtain ⟨a, c, h1, h2, h3, h4, h5, h6, h7, h8⟩ := hl (hj.1 (.inl rfl))
    exact good_jump hs he hg h2 h4 h6 rfl h8
  | continues =>
    intro _ _ _ hs _ _ M R G he ok loop before ds K A hj hw hsc hsd hk hg hl _ hv
    obtain ⟨a, c, h1, h2, h3, h4, h5, h6, h7, h8⟩ := hl (hj.1 (.inr rfl))
    exact good_jump hs he hg h1 h3 h5 rfl h7
  | whiles hf0 a1 a2 a3 e4 hc hrc hrn ihc ihn => exact good_whiles hfold hf0 a1 a2 a3 e4 hc hrc hrn ihc ihn
  | ifs hf0 a1 a2 hrc hrn ihc ihn => exact good_ifs hf0 a1 a2 hrc hrn ihc ihn
  | elifs a1 hc a2 hrc hrn ihc ihn => exact good_elifs hfold a1 hc a2 hrc hrn ihc ihn
  | elses a1 hc hrc hrn ihc ihn => exact good_elses hfold a1 hc hrc hrn ihc ihn
  | comment _ ih => exact good_comment ih
  | endIf _ hc hrun ih => exact good_endIf hfold hc hrun ih
  | external hfn hx hrun ih => exact good_external hfn hx hrun ih
  | func hfn _ h0 hrc hrn ihc ihn => exact good_func hfn h0 hrc hrn ihc ihn
  | ns hrc hrn ihc ihn => exact good_ns hrc hrn ihc ihn

/- ### Programs -/

/-- On every way to a place in a block, the registers that may be used there were set. -/
theorem way_sets {M G A n g} (h : Good M G A M n g) {f b k D} (hw : Way M f b k D) :
    (∀ r τ, A f b r τ → r ∈ D) ∧ ∀ code, blockOf M f b = some code → ∀ i ∈ code.take k, ∀ r τ, resultOf M i = some (r, τ) → r ∈ D := by
  induction hw with
  | start => exact ⟨fun r τ hr => (h.zero f r τ hr).elim, by simp⟩
  | @step b k D code i _ hc hi ih =>
    refine ⟨fun r τ hr => List.mem_append.2 (.inr (ih.1 r τ hr)), fun code' hc' j hj r τ hr => ?_⟩
    cases hc.symm.trans hc'
    rw [List.take_add_one, hi] at hj
    rcases List.mem_append.1 hj with hj | hj
    · exact List.mem_append.2 (.inr (ih.2 code hc j hj r τ hr))
    · simp only [Option.toList, List.mem_singleton] at hj
      subst hj
      simp [hr]
  | @jump b k D code i t _ hc hi ht ih =>
    refine ⟨fun r τ hr => ?_, by simp⟩
    obtain ⟨hlt, he⟩ := List.getElem?_eq_some_iff.1 hi
    have hsplit : code = code.take k ++ i :: code.drop (k + 1) := by
      rw [← he, List.getElem_cons_drop, List.take_append_drop]
    rcases ((h.code f b code hc) (code.take k) i (code.drop (k + 1)) hsplit).2 t ht r τ hr with h1 | ⟨j, h1, h2⟩
    · exact ih.1 r τ h1
    · exact ih.2 code hc j h1 r τ h2

theorem val_reg {M G f P r τ} (h : ValIs M G f P (.reg r) τ) : P r τ := h

theorem args_reg {M G f P vs tys r} (h : ArgsAre M G f P vs tys) (hr : .reg r ∈ vs) : ∃ τ, P r τ := by
  induction h with
  | nil => simp at hr
  | cons h1 _ ih =>
    rcases List.mem_cons.1 hr with e | hr
    · subst e; exact ⟨_, h1⟩
    · exact ih hr

theorem instr_reg {M G f P i r} (h : InstrIs M G f P i) (hr : .reg r ∈ operandsOf i) : ∃ τ, P r τ := by
  cases i with
  | bin _ _ a b =>
    obtain ⟨τ, _, h1, h2⟩ := h
    rcases List.mem_cons.1 hr with e | hr
    · subst e; exact ⟨_, h1⟩
    · have e := List.mem_singleton.1 hr; subst e; exact ⟨_, h2⟩
  | load _ _ p => have e := List.mem_singleton.1 hr; subst e; exact ⟨_, h.2⟩
  | store v p =>
    obtain ⟨⟨τ, _, h1⟩, h2⟩ := h
    rcases List.mem_cons.1 hr with e | hr
    · subst e; exact ⟨_, h1⟩
    · have e := List.mem_singleton.1 hr; subst e; exact ⟨_, h2⟩
  | alloca => cases hr
  | call _ _ args => obtain ⟨_, _, h1⟩ := h; exact args_reg h1 hr
  | builtin _ _ a b =>
    rcases List.mem_cons.1 hr with e | hr
    · subst e; exact ⟨_, h.1⟩
    · have e := List.mem_singleton.1 hr; subst e; exact ⟨_, h.2⟩
  | br => cases hr
  | condBr c => have e := List.mem_singleton.1 hr; subst e; exact ⟨_, h.1⟩
  | ret v => obtain ⟨_, _, _, h1⟩ := h; have e := List.mem_singleton.1 hr; subst e; exact ⟨_, h1⟩
  | retVoid => cases hr
  | unreachable => cases hr

theorem differ_apart {M i j} (h : Differ i j) : Apart M i j := fun r _ _ h1 h2 => h r (result_dst h1) (result_dst h2)

theorem good_verified {M G A n} (h : Good M G A M n G.length) (he : WellEnded M) : Verified M G := by
  refine ⟨he, ?_, ?_, ?_, ?_, ?_⟩
  · intro f b code hc i hi
    obtain ⟨pre, post, e⟩ := List.append_of_mem hi
    refine instr_mono .refl ?_ (h.code f b code hc pre i post e).1
    rintro r τ (hr | ⟨j, hj, hr⟩)
    · exact h.known f b r τ hr
    · exact ⟨b, code, j, hc, by rw [e]; simp [hj], hr⟩
  · intro f b k D hw code i r hc hi hr
    obtain ⟨w1, w2⟩ := way_sets h hw
    obtain ⟨hlt, e⟩ := List.getElem?_eq_some_iff.1 hi
    have hsplit : code = code.take k ++ i :: code.drop (k + 1) := by
      rw [← e, List.getElem_cons_drop, List.take_append_drop]
    obtain ⟨τ, ht⟩ := instr_reg (h.code f b code hc (code.take k) i (code.drop (k + 1)) hsplit).1 hr
    rcases ht with ht | ⟨j, hj, ht⟩
    · exact w1 r τ ht
    · exact w2 code hc j hj r τ ht
  · intro f b code hc
    refine ⟨(h.once f b code hc).imp differ_apart, fun f' b' code' hc' hne i hi j hj => differ_apart ?_⟩
    exact h.apart f b code f' b' code' hc hc' (by rintro ⟨rfl, rfl⟩; exact hne rfl) i hi j hj
  · intro g hg
    obtain ⟨i, hi⟩ := List.getElem?_of_mem hg
    exact h.globs i g (List.getElem?_eq_some_iff.1 hi).1 hi
  · intro x hx
    obtain ⟨i, hi⟩ := List.getElem?_of_mem hx
    obtain ⟨h1, h2⟩ := h.funcs i x (List.getElem?_eq_some_iff.1 hi).1 hi
    refine ⟨h1, fun hb => ?_⟩
    cases hp : x.isPrivate with
    | false => rfl
    | true =>
      obtain ⟨c, hc⟩ := h2 hp
      unfold blockOf at hc
      rw [hi] at hc
      have : x.blocks[0]? = some c := hc
      rw [hb] at this
      cases this

theorem setup_good {M G name} (hx : ∀ (x : LFunc), M[0]? = some x → x.params = []) : GoodAt M G (fun _ _ _ _ => False) (setupL name) := by
  have key : ∀ f b c, blockOf (setupL name).funcs f b = some c → c = [] := by
    intro f b c hc
    unfold blockOf setupL at hc
    cases f with
    | zero =>
      cases b with
      | zero => cases hc; rfl
      | succ n => cases hc
    | succ n => cases hc
  refine ⟨?_, ?_, fun _ _ _ h => h, fun _ _ _ _ h => h.elim, ?_, ?_, ?_, ?_, ?_⟩
  · intro f b c hc; rw [key f b c hc]; exact .nil
  · intro f b c hc; rw [key f b c hc]; simp
  · intro f b c hc; rw [key f b c hc]; simp
  · intro f b c hc; rw [key f b c hc]; exact .nil
  · intro f b c f' b' c' hc; rw [key f b c hc]; simp
  · intro i x hi; simp [setupL] at hi
  · intro i x hi hx'
    have : i = 0 := by simp [setupL] at hi; exact hi
    subst this
    rw [hx x hx']
    exact ⟨by simp, fun _ => ⟨[], rfl⟩⟩

theorem codegenL_verified {cfg : LCfg} {name t s} (hfold : FoldTyped cfg.fold) (h : codegenL cfg name t = some s) (hn : t.defs.Nodup)
    (h0 : 0 ∉ t.defs) (ha : AssignsOk cfg t) (he : EndsOk cfg.syms t) (hj : JumpsOk false t) {loop before} (hw : WtTree cfg.syms loop before t)
    (hsc : Scoped [] t) (hsd : soundT cfg.syms {} t = true) : Verified s.funcs s.globals := by
  have hend := codegenL_ended h hn h0 ha he
  obtain ⟨r, s₁, h1, h2⟩ := codegenL_run h
  have hs := setupL_ok name
  have hf := setupL_fresh (name := name) h0
  have fr := gen_frame h1 hn hf ha hs trivial
  have hx : LExt s₁ s.funcs s.env s.globals := by
    rcases h2 with ⟨_, rfl⟩ | ⟨_, rfl⟩
    · exact .self _
    · exact (LExt.self _).gen_back (Nat.le_refl _)
  obtain ⟨y, y1, y2, _⟩ := (hx.back fr.toLGrow).heads 0 ⟨name, [], .prim .int, false, [[]]⟩ rfl
  have yp : y.params = [] := congrArg LFunc.params y2
  have yr : y.ret = .prim .int := congrArg LFunc.ret y2
  obtain ⟨A, _, k1, _, _⟩ := gen_good hfold h1 hn hf ha hs trivial he hx (K := {}) (ds := []) (ok := false) hj hw hsc hsd
    ⟨fun _ => ⟨rfl, rfl⟩, fun h => (h rfl).elim, y, y1, yr⟩
    (setup_good (name := name) (fun z hz => by cases y1.symm.trans hz; exact yp)) .no trivial ⟨by simp, by simp⟩
  refine good_verified (A := A) (n := s.nextReg) ?_ hend
  rcases h2 with ⟨_, rfl⟩ | ⟨_, rfl⟩
  · exact k1
  · refine Good.gen k1 fr.cur (.one ⟨y, ?_, ?_, ?_⟩ (by simp [targets])) (by simp [targets]) (.no rfl)
    · rw [fr.fn]; exact y1
    · rw [yr]; simp [lty]
    · rw [yr]; rfl

end Skull.LVer
