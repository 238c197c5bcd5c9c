import Verif.Proofs.LVerify
/-
The code of all statements is code that LLVM accepts.
-/
namespace Skull.LVer
open Spec

theorem wt_node {syms loop before ann stmt tok child next} (h : WtTree syms loop before (.node ann stmt tok child next)) :
    WtNode syms loop before ann stmt child next ∧ WtTree syms (inLoop loop stmt) [] child ∧ WtTree syms loop (stmt :: before) next := by
  cases h with
  | node h1 h2 h3 => exact ⟨h1, h2, h3⟩

theorem sound_node {syms K ann stmt tok child next} (h : soundT syms K (.node ann stmt tok child next) = true) :
    soundAnn syms K stmt ann = true ∧ soundT syms (K.enter syms child ann) child = true ∧ soundT syms K next = true := by
  simp only [soundT, Bool.and_eq_true] at h
  exact ⟨h.1.1, h.1.2, h.2⟩

theorem jump_ok {A : Nat → Set'} {M G f b} {P : Set'} (ht : TargetOk M f b) (hA : Sub (A b) P) : CodeOk M G f A P [.br (some b)] := by
  refine .one ⟨b, rfl, ht⟩ ?_
  intro t h
  cases List.mem_singleton.1 h
  exact hA

theorem jump_targets {s : LState} {f b} (h : Has s f b) : ∀ i ∈ [LInstr.br (some b)], ∀ t ∈ targets i, Has s f t := by
  intro i hi t ht
  cases List.mem_singleton.1 hi
  cases List.mem_singleton.1 ht
  exact h

/-- What is shown of the code of statements. -/
def GenGood (cfg : LCfg) (mode : LMode) (t : ATree) (s : LState) (r : Option (Option Ty)) (s' : LState) : Prop :=
  t.defs.Nodup → Fresh t.defs s → AssignsOk cfg t → StateOk s → ModeOk s mode → EndsOk cfg.syms t → ∀ {M R G}, LExt s' M R G →
  ∀ {ok loop before ds K A}, JumpsOk ok t → WtTree cfg.syms loop before t → Scoped ds t → soundT cfg.syms K t = true →
  KOk M K s.curFn t.defs → GoodAt M G A s → LoopsOk A s (Base M A s mode) ok → IfOk cfg M A s K.own ds mode →
  Vis cfg M G s.curFn R K.own ds (Base M A s mode) → Done cfg M R G A s s' (Base M A s mode) K.own ds t r

theorem good_plain {cfg : LCfg} (hfold : FoldTyped cfg.fold) {ann stmt tok child next s s₁ r s'} (hp : isPlain stmt = true)
    (h1 : simpleL cfg ann stmt s = some (none, s₁)) (hrun : GenRun cfg .stmts next s₁ r s') (ih : GenGood cfg .stmts next s₁ r s') :
    GenGood cfg .stmts (.node ann stmt tok child next) s r s' := by
  intro hn hf ha hs _ hends M R G he ok loop before ds K A hj hw hsc hsd hk hg hl _ hv
  rw [defs_node] at hn hf hk
  obtain ⟨_, n2, _, n4⟩ := nodup_parts hn
  obtain ⟨w1, _, w3⟩ := wt_node hw
  obtain ⟨d1, _, d3⟩ := sound_node hsd
  obtain ⟨_, is, hcode, hst⟩ := simpleL_code hp hs.main (fun id hid => (hf id (by simp [hid])).1) ha.1 h1
  have h2 := hst.frame hs.block
  have hf2 : Fresh next.defs s₁ := (hf.sub (by simp +contextual)).later h2.toLGrow (fun i hi h => n4 i hi (by simp [h]))
  have e1 := he.back (gen_frame hrun n2 hf2 ha.2.2 (h2.stateOk hs) trivial).toLGrow
  have hj' : JumpsOk (ok && !hasLoop child) next := by
    cases stmt <;> first | exact hj.2.2 | cases hp
  have hc := hcode.mono e1.env e1.globals
  obtain ⟨k1, k2, k3⟩ := stmt_ok (A := A s.curFn) (l := outer child) hfold hc w1 hv d1 hsc.1 (fun h id hi => hk.own h id (by simp [hi]))
  have hfuncs := hst.funcs
  have hst' := straight_jumps (n := s.nextReg) (is := is) (m := s₁.nextReg) hcode.straight.1
  have g1 : GoodAt M G A s₁ := by
    have := Good.gen hg hs.block k1 (fun i hi t ht => by rw [hst' i hi] at ht; simp at ht) (stmt_nums hc)
    have := Good.globals this k3
    unfold GoodAt
    rw [hfuncs]
    exact this
  have hgr : Grows s.funcs s₁.funcs := by rw [hfuncs]; exact gen_grows _ _ _
  have hcur : Sub (After M (Cur M A s) is) (Cur M A s₁) := by
    unfold Cur
    rw [hfuncs, hst.curFn, hst.curBlock]
    exact avs_gen hs.block
  have hcur' : Sub (Cur M A s) (Cur M A s₁) := fun r τ h => hcur r τ (.inl h)
  have := ih n2 hf2 ha.2.2 (h2.stateOk hs) trivial hends.2.2.2 he (A := A) hj' w3 hsc.2.2 d3
    (by rw [hst.curFn]; exact hk.sub (by simp +contextual)) g1
    (hl.later (by simp +contextual) (fun _ => simpleL_loop h1) hst.curFn hgr .refl hcur') trivial
    (by rw [hst.curFn]; exact hcur.vis k2)
  exact this.before hgr .refl hcur' (by
    intro _ id hi
    simpa [outer, or_assoc] using hi)

theorem stop_jumps {cfg R f k ann st is k'} (h : StopCode cfg R f k ann st is k') : NoJumps is ∧ k'.glob = k.glob := by
  cases h with
  | retVoid => exact ⟨fun i hi => by cases List.mem_singleton.1 hi; rfl, rfl⟩
  | ret h =>
    refine ⟨fun i hi => ?_, rfl⟩
    rcases List.mem_append.1 hi with hi | hi
    · exact straight_jumps h.straight i hi
    · cases List.mem_singleton.1 hi; rfl
  | unreachable => exact ⟨fun i hi => by cases List.mem_singleton.1 hi; rfl, rfl⟩

theorem good_stop {cfg : LCfg} (hfold : FoldTyped cfg.fold) {ann stmt tok child next s ty s'} (hp : (∃ e, stmt = .ret e) ∨ stmt = .unreachable)
    (h1 : simpleL cfg ann stmt s = some (some ty, s')) : GenGood cfg .stmts (.node ann stmt tok child next) s (some ty) s' := by
  intro hn hf ha hs _ hends M R G he ok loop before ds K A hj hw hsc hsd hk hg hl _ hv
  obtain ⟨w1, _, w3⟩ := wt_node hw
  obtain ⟨d1, _, d3⟩ := sound_node hsd
  obtain ⟨_, is, hcode, hst⟩ := stopL_code hp h1
  have hc := hcode.mono he.env
  have k1 := stop_ok (A := A s.curFn) hfold hc w1 hv d1 hsc.1 hk.ret
  have hfuncs := hst.funcs
  have hjumps : NoJumps is := (stop_jumps hc).1
  have hgl : s'.globals.length = s.globals.length := (stop_jumps hc).2
  refine ⟨A, .refl, ?_, ?_, by simp⟩
  · have := Good.gen hg hs.block k1 (fun i hi t ht => by rw [hjumps i hi] at ht; simp at ht) (stop_nums hc)
    unfold GoodAt
    rw [hfuncs, hgl]
    exact this
  · have hcur : Sub (After M (Cur M A s) is) (Cur M A s') := by
      unfold Cur
      rw [hfuncs, hst.curFn, hst.curBlock]
      exact avs_gen hs.block
    exact fun r τ h => hcur r τ (.inl h)

/-- `break` and `continue` -/
theorem good_jump {cfg : LCfg} {stmt ann tok child next s M R G A B own ds ty} {target : Option Nat} {b : Nat} (hs : StateOk s)
    (he : LExt (s.gen [.br target] s.nextReg) M R G) (hg : GoodAt M G A s) (ht : target = some b) (h0 : b ≠ 0) (hb : Has s s.curFn b)
    (hB : B = Cur M A s) (hA : Sub (A s.curFn b) B) :
    Done cfg M R G A s (s.gen [.br target] s.nextReg) B own ds (.node ann stmt tok child next) (some ty) := by
  subst ht hB
  refine ⟨A, .refl, ?_, ?_, by simp⟩
  · exact Good.gen hg hs.block (jump_ok (ext_target he (hb.gen _ _) h0) hA) (jump_targets hb) (.no rfl)
  · exact fun r τ h => avs_gen hs.block r τ (.inl h)

theorem good_whiles {cfg : LCfg} (hfold : FoldTyped cfg.fold) {cond x tok child next} {s : LState} {f a b c s₁ s₂ s₃ s₄ is v n r s₅ r' s'}
    (hf0 : s.funcRef s.currentFunc = some f) (a1 : Appended f a s s₁) (a2 : Appended f b s₁ s₂) (a3 : Appended f c s₂ s₃)
    (e4 : s₄ = ((s₃.setLoop (some (a, c))).gen [.br (some a)] s₃.nextReg).at f a) (hc : ECode cfg s₄.env s₄.nextReg cond is v n)
    (hrc : GenRun cfg .stmts child ((s₄.gen (is ++ [.condBr v.val b c]) n).at f b) r s₅)
    (hrn : GenRun cfg .stmts next (((s₅.jump r a).at f c).setLoop none) r' s')
    (ihc : GenGood cfg .stmts child ((s₄.gen (is ++ [.condBr v.val b c]) n).at f b) r s₅)
    (ihn : GenGood cfg .stmts next (((s₅.jump r a).at f c).setLoop none) r' s') :
    GenGood cfg .stmts (.node (.expr cond) (.whiles x) tok child next) s r' s' := by
  intro hn hf ha hs _ hends M R G he ok loop before ds K A hj hw hsc hsd hk hg hl _ hv
  rw [defs_node] at hn hf hk
  obtain ⟨n1, n2, _, n4⟩ := nodup_parts hn
  obtain ⟨w1, w2, w3⟩ := wt_node hw
  obtain ⟨d1, d2, d3⟩ := sound_node hsd
  have hcur : f = s.curFn := Option.some.inj (hf0.symm.trans hs.cur)
  subst hcur
  have f0 : LFrame (Here s) [] s s := .refl hs.block
  have f1 := f0.append a1 rfl
  have f2 := f1.append a2 rfl
  have f3 := f2.append a3 rfl
  have f4 := (f3.setLoop (some (a, c))).emit [.br (some a)] (n := s₃.nextReg) (Nat.le_refl _)
  have f5 := f4.move (b := a) rfl ((((a1.has.append a2).append a3).setLoop _).gen _ _) (.inr (f0.newIn a1))
  rw [← e4] at f5
  have f6 := f5.emit (is ++ [.condBr v.val b c]) hc.straight.le
  have ha4 : Has s₄ s.curFn a := by rw [e4]; exact (((a1.has.append a2).append a3).setLoop (some (a, c))).gen [.br (some a)] s₃.nextReg
  have hb4 : Has s₄ s.curFn b := by rw [e4]; exact ((a2.has.append a3).setLoop (some (a, c))).gen [.br (some a)] s₃.nextReg
  have hc4 : Has s₄ s.curFn c := by rw [e4]; exact (a3.has.setLoop (some (a, c))).gen [.br (some a)] s₃.nextReg
  have ha5 : Has ((s₄.gen (is ++ [.condBr v.val b c]) n).at s.curFn b) s.curFn a := by apply Has.at; exact ha4.gen _ _
  have hb5 : Has ((s₄.gen (is ++ [.condBr v.val b c]) n).at s.curFn b) s.curFn b := by apply Has.at; exact hb4.gen _ _
  have hc5 : Has ((s₄.gen (is ++ [.condBr v.val b c]) n).at s.curFn b) s.curFn c := by apply Has.at; exact hc4.gen _ _
  have f7 := f6.move (b := b) rfl (hb4.gen _ _) (.inr (f1.newIn a2))
  have hfc : Fresh child.defs ((s₄.gen (is ++ [.condBr v.val b c]) n).at s.curFn b) := (hf.sub (by simp +contextual)).later f7.toLGrow (by simp)
  have g1 := gen_frame hrc n1 hfc ha.2.1 (f7.stateOk hs) trivial
  have f8 := (f7.sub g1).jump r a
  have f9 := (f8.move (b := c) rfl ((hc5.grow g1.toLGrow).jump _ _) (.inr (f2.newIn a3))).setLoop none
  have hfn : Fresh next.defs (((s₅.jump r a).at s.curFn c).setLoop none) := (hf.sub (by simp +contextual)).later f9.toLGrow (fun i hi h => n4 i hi h)
  have g2 := gen_frame hrn n2 hfn ha.2.2 (f9.stateOk hs) trivial
  have x5 := (he.back g2.toLGrow).setLoop_back.at_back
  have x4 := (x5.jump_back.back g1.toLGrow).at_back
  have x3 := x4.gen_back hc.straight.le
  have x2 : LExt s₃ M R G := by
    rw [e4] at x3
    exact (x3.at_back.gen_back (Nat.le_refl _)).setLoop_back
  have x1 : LExt s M R G := x2.back f3.toLGrow
  have hsa : Has s s.curFn s.curBlock := hs.block
  have pa : a ≠ 0 := new_pos hsa a1
  have pb : b ≠ 0 := new_pos (hsa.append a1) a2
  have pc : c ≠ 0 := new_pos ((hsa.append a1).append a2) a3
  -- the three blocks
  obtain ⟨P, hP⟩ : ∃ P, P = Cur M A s := ⟨_, rfl⟩
  obtain ⟨A₃, hA₃⟩ : ∃ A₃, A₃ = put (put (put A s.curFn a P) s.curFn b P) s.curFn c P := ⟨_, rfl⟩
  have k1 := GoodAt.append hg a1 x1 hsa ⟨_, .of hP⟩
  have k2 := k1.append' a2 (hsa.append a1) (d := a) put_same.symm
  have k3 := k2.append' a3 ((hsa.append a1).append a2) (d := b) put_same.symm
  rw [← hA₃] at k3
  have ea : A₃ s.curFn a = P := by rw [hA₃]; exact put_keep (put_keep put_same)
  have eb : A₃ s.curFn b = P := by rw [hA₃]; exact put_keep put_same
  have ec : A₃ s.curFn c = P := by rw [hA₃]; exact put_same
  have E3 : Ext s.funcs A A₃ := by
    rw [hA₃]
    exact ((put_ext a1.new).trans (Appended.grows a1) (put_ext a2.new)).trans ((Appended.grows a1).trans (Appended.grows a2)) (put_ext a3.new)
  have G3 : Grows s.funcs s₃.funcs := f3.grow
  have G4 : Grows s₃.funcs s₄.funcs := by rw [e4]; exact gen_grows (s₃.setLoop (some (a, c))) [.br (some a)] s₃.nextReg
  have P3 : Sub P (Avs M A₃ s₃.funcs s.curFn s.curBlock) := by rw [hP]; exact avs_grow G3 E3
  have hcf : s₃.curFn = s.curFn := f3.fn
  have hcb : s₃.curBlock = s.curBlock := a3.curBlock.trans (a2.curBlock.trans a1.curBlock)
  have ha3 : Has s₃ s.curFn a := (a1.has.append a2).append a3
  have k4 : GoodAt M G A₃ s₄ := by
    have := Good.gen (s := s₃.setLoop (some (a, c))) (is := [.br (some a)]) k3 f3.cur
      (jump_ok (by rw [show (s₃.setLoop (some (a, c))).curFn = s.curFn from hcf]; exact ext_target x2 ha3 pa) (by
        rw [show (s₃.setLoop (some (a, c))).curFn = s.curFn from hcf, show (s₃.setLoop (some (a, c))).curBlock = s.curBlock from hcb, ea]
        exact P3))
      (jump_targets (s := s₃.setLoop (some (a, c))) (by rw [show (s₃.setLoop (some (a, c))).curFn = s.curFn from hcf]; exact ha3)) (.no rfl)
    rw [e4]
    exact this
  -- the condition
  have hs4f : s₄.curFn = s.curFn := by rw [e4]; rfl
  have hs4b : s₄.curBlock = a := by rw [e4]; rfl
  have P4 : Sub P (Cur M A₃ s₄) := by
    unfold Cur
    rw [hs4f, hs4b]
    exact (Sub.of ea.symm).trans (avs_has ha4)
  have hv4 : Vis cfg M G s₄.curFn R K.own ds (Cur M A₃ s₄) := by
    rw [hs4f]
    exact P4.vis (by rw [hP]; exact hv)
  have hb4' : Has s₄ s₄.curFn b := by rw [hs4f]; exact hb4
  have hc4' : Has s₄ s₄.curFn c := by rw [hs4f]; exact hc4
  have k5 : GoodAt M G A₃ ((s₄.gen (is ++ [.condBr v.val b c]) n).at s.curFn b) := by
    cases w1 with
    | whiles w4 w5 _ =>
      refine Good.gen k4 f5.cur (cond_ok hfold (hc.mono x3.env) hv4 w4 w5 d1 (fun id h => hsc.1 id (.inl ⟨_, rfl, h⟩)) (ext_target x3 hb4' pb)
        (ext_target x3 hc4' pc) ?_ ?_) (cond_targets hc.straight hb4' hc4') ((expr_nums hc).append (.no rfl))
      · exact Sub.trans (.of (by rw [hs4f, eb])) P4
      · exact Sub.trans (.of (by rw [hs4f, ec])) P4
  have E5 : Ext s.funcs A A₃ := E3
  have P5 : Sub P (Cur M A₃ ((s₄.gen (is ++ [.condBr v.val b c]) n).at s.curFn b)) := (Sub.of eb.symm).trans (avs_has hb5)
  have hv5 := P5.vis (f := s.curFn) (by rw [hP]; exact hv)
  -- the block
  obtain ⟨A₅, E6, k6, P6, _⟩ := ihc n1 hfc ha.2.1 (f7.stateOk hs) trivial hends.2.2.1 x5.jump_back (A := A₃) (ok := true) hj.2.1 w2
    (by simpa [annDefs] using hsc.2.1) d2 (hk.sub (by simp +contextual)) k5
    (fun _ => ⟨a, c, by rw [e4]; rfl, by rw [e4]; rfl, pa, pc, ha5, hc5, (Sub.of ea).trans P5, (Sub.of ec).trans P5⟩) trivial hv5
  have hcf5 : s₅.curFn = s.curFn := g1.fn
  have k7 := Good.jump k6 g1.cur x5 pa (by rw [hcf5]; exact ha5.grow g1.toLGrow) (by
    rw [hcf5, ext_has E6 ha5, ea, ← hcf5]
    exact P5.trans P6)
  have hcj : Has (((s₅.jump r a).at s.curFn c).setLoop none) s.curFn c := (hc5.grow g1.toLGrow).jump r a
  have P7 : Sub P (Cur M A₅ (((s₅.jump r a).at s.curFn c).setLoop none)) :=
    (Sub.of ((ext_has E6 hc5).trans ec).symm).trans (avs_has (A := A₅) hcj)
  have G7 : Grows s.funcs ((s₄.gen (is ++ [.condBr v.val b c]) n).at s.curFn b).funcs := f7.grow
  have G8 : Grows ((s₄.gen (is ++ [.condBr v.val b c]) n).at s.curFn b).funcs (((s₅.jump r a).at s.curFn c).setLoop none).funcs :=
    Grows.trans g1.grow (jump_grows s₅ r a)
  -- what comes after the loop
  have := ihn n2 hfn ha.2.2 (f9.stateOk hs) trivial hends.2.2.2 he (A := A₅) (ok := false) hj.2.2 w3 (by simpa [lasting] using hsc.2.2) d3
    (hk.sub (by simp +contextual)) k7 .no trivial (P7.vis (by rw [hP]; exact hv))
  exact this.before (G7.trans G8) (E5.trans G7 E6) (by show Sub (Cur M A s) _; rw [← hP]; exact P7) (by simp [outer, lasting])

theorem good_ifs {cfg : LCfg} {cond x tok child next} {s : LState} {f fin b s₁ s₂ r s₃ r' s'}
    (hf0 : s.funcRef s.currentFunc = some f) (a1 : Appended f fin s s₁) (a2 : Appended f b s₁ s₂)
    (hrc : GenRun cfg .stmts child (s₂.at f b) r s₃) (hrn : GenRun cfg (.afterIf cond f s.curBlock b fin) next (s₃.jump r fin) r' s')
    (ihc : GenGood cfg .stmts child (s₂.at f b) r s₃) (ihn : GenGood cfg (.afterIf cond f s.curBlock b fin) next (s₃.jump r fin) r' s') :
    GenGood cfg .stmts (.node (.expr cond) (.ifs x) tok child next) s r' s' := by
  intro hn hf ha hs _ hends M R G he ok loop before ds K A hj hw hsc hsd hk hg hl _ hv
  rw [defs_node] at hn hf hk
  obtain ⟨n1, n2, _, n4⟩ := nodup_parts hn
  obtain ⟨w1, w2, w3⟩ := wt_node hw
  obtain ⟨d1, d2, d3⟩ := sound_node hsd
  have hcur : f = s.curFn := Option.some.inj (hf0.symm.trans hs.cur)
  subst hcur
  have f0 : LFrame (Here s) [] s s := .refl hs.block
  have f1 := f0.append a1 rfl
  have f2 := (f1.append a2 rfl).move (b := b) rfl a2.has (.inr (f1.newIn a2))
  have hfc : Fresh child.defs (s₂.at s.curFn b) := (hf.sub (by simp +contextual)).later f2.toLGrow (by simp)
  have g1 := gen_frame hrc n1 hfc ha.2.1 (f2.stateOk hs) trivial
  have f3 := (f2.sub g1).jump r fin
  have hfn : Fresh next.defs (s₃.jump r fin) := (hf.sub (by simp +contextual)).later f3.toLGrow (fun i hi h => n4 i hi h)
  have hm : ModeOk (s₃.jump r fin) (.afterIf cond s.curFn s.curBlock b fin) :=
    ⟨f3.fn.symm, Has.grow (s := s) hs.block f3.toLGrow, ((a1.has.append a2).grow (s := s₂.at s.curFn b) g1.toLGrow).jump _ _⟩
  have g2 := gen_frame hrn n2 hfn ha.2.2 (f3.stateOk hs) hm
  have x3 := he.back g2.toLGrow
  have x2 := (x3.jump_back.back g1.toLGrow).at_back
  have x1 : LExt s M R G := (x3.jump_back.back g1.toLGrow).back f2.toLGrow
  have hsa : Has s s.curFn s.curBlock := hs.block
  have pf : fin ≠ 0 := new_pos hsa a1
  have pb : b ≠ 0 := new_pos (hsa.append a1) a2
  obtain ⟨P, hP⟩ : ∃ P, P = Cur M A s := ⟨_, rfl⟩
  obtain ⟨A₂, hA₂⟩ : ∃ A₂, A₂ = put (put A s.curFn fin P) s.curFn b P := ⟨_, rfl⟩
  have k1 := GoodAt.append hg a1 x1 hsa ⟨_, .of hP⟩
  have k2 := k1.append' a2 (hsa.append a1) (d := fin) put_same.symm
  rw [← hA₂] at k2
  have ef : A₂ s.curFn fin = P := by rw [hA₂]; exact put_keep put_same
  have eb : A₂ s.curFn b = P := by rw [hA₂]; exact put_same
  have E2 : Ext s.funcs A A₂ := by
    rw [hA₂]
    exact (put_ext a1.new).trans (Appended.grows a1) (put_ext a2.new)
  have G2 : Grows s.funcs (s₂.at s.curFn b).funcs := f2.grow
  have hf2 : Has (s₂.at s.curFn b) s.curFn fin := (a1.has.append a2).at _ _
  have hb2 : Has (s₂.at s.curFn b) s.curFn b := a2.has
  have P2 : Sub P (Cur M A₂ (s₂.at s.curFn b)) := (Sub.of eb.symm).trans (avs_has hb2)
  have hl2 : LoopsOk A₂ (s₂.at s.curFn b) (Cur M A₂ (s₂.at s.curFn b)) ok :=
    hl.later id (fun _ => ⟨a2.whileCond.trans a1.whileCond, a2.whileEnd.trans a1.whileEnd⟩) f2.fn G2 E2 (by
      show Sub (Cur M A s) _; rw [← hP]; exact P2)
  obtain ⟨A₃, E3, k3, P3, _⟩ := ihc n1 hfc ha.2.1 (f2.stateOk hs) trivial hends.2.2.1 x3.jump_back (A := A₂) (ok := ok) hj.2.1 w2
    (by simpa [annDefs] using hsc.2.1) d2 (hk.sub (by simp +contextual)) k2 hl2 trivial (P2.vis (by rw [hP]; exact hv))
  have hcf3 : s₃.curFn = s.curFn := g1.fn
  have ef3 : A₃ s.curFn fin = P := by rw [ext_has E3 hf2, ef]
  have eb3 : A₃ s.curFn b = P := by rw [ext_has E3 hb2, eb]
  have k4 := Good.jump k3 g1.cur x3 pf (by rw [hcf3]; exact hf2.grow g1.toLGrow) (by
    rw [hcf3, ef3, ← hcf3]
    exact P2.trans P3)
  have G3 : Grows (s₂.at s.curFn b).funcs (s₃.jump r fin).funcs := Grows.trans g1.grow (jump_grows s₃ r fin)
  have E4 : Ext s.funcs A A₃ := E2.trans G2 E3
  have G4 := G2.trans G3
  have P4 : Sub P (Avs M A₃ (s₃.jump r fin).funcs s.curFn s.curBlock) := by rw [hP]; exact avs_grow G4 E4
  have hv4 : Vis cfg M G (s₃.jump r fin).curFn R K.own ds (A₃ s.curFn fin) := by
    rw [f3.fn, ef3, hP]
    exact hv
  have hl4 : LoopsOk A₃ (s₃.jump r fin) (A₃ s.curFn fin) (ok && !hasLoop child) := by
    refine hl.later (by simp +contextual) (fun ho => ?_) f3.fn G4 E4 (by rw [ef3, hP]; exact .refl)
    have h1 := gen_loop hrc (by simp at ho; exact ho.2)
    have h2 := loop_jump s₃ r fin
    exact ⟨h2.1.trans (h1.1.trans (a2.whileCond.trans a1.whileCond)), h2.2.trans (h1.2.trans (a2.whileEnd.trans a1.whileEnd))⟩
  have hi4 : IfOk cfg M A₃ (s₃.jump r fin) K.own ds (.afterIf cond s.curFn s.curBlock b fin) := by
    cases w1 with
    | ifs w4 w5 _ =>
      exact ⟨w4, w5, d1, fun id h => hsc.1 id (.inl ⟨_, rfl, h⟩), pb, pf, (hb2.grow g1.toLGrow).jump r fin, (Sub.of eb3).trans P4,
        (Sub.of ef3).trans P4⟩
  have := ihn n2 hfn ha.2.2 (f3.stateOk hs) hm hends.2.2.2 he (A := A₃) hj.2.2 w3 (by simpa [lasting] using hsc.2.2) d3
    (by rw [f3.fn]; exact hk.sub (by simp +contextual)) k4 hl4 hi4 hv4
  exact this.before G4 E4 (by show Sub (Cur M A s) (A₃ s.curFn fin); rw [ef3, hP]; exact .refl) (by simp [outer, lasting])

theorem good_elifs {cfg : LCfg} (hfold : FoldTyped cfg.fold) {cond cond' x tok child next} {s : LState} {f entry b b' c fin s₁ s₂ is v n r s₃ r' s'}
    (a1 : Appended f c (s.at f entry) s₁) (hc : ECode cfg s₁.env s₁.nextReg cond is v n)
    (a2 : Appended f b' (s₁.gen (is ++ [.condBr v.val b c]) n) s₂) (hrc : GenRun cfg .stmts child (s₂.at f b') r s₃)
    (hrn : GenRun cfg (.afterIf cond' f c b' fin) next (s₃.jump r fin) r' s') (ihc : GenGood cfg .stmts child (s₂.at f b') r s₃)
    (ihn : GenGood cfg (.afterIf cond' f c b' fin) next (s₃.jump r fin) r' s') :
    GenGood cfg (.afterIf cond f entry b fin) (.node (.expr cond') (.elifs x) tok child next) s r' s' := by
  intro hn hf ha hs hm0 hends M R G he ok loop before ds K A hj hw hsc hsd hk hg hl hi hv
  obtain ⟨hcur, hentry, hfin⟩ := hm0
  subst hcur
  rw [defs_node] at hn hf hk
  obtain ⟨n1, n2, _, n4⟩ := nodup_parts hn
  obtain ⟨w1, w2, w3⟩ := wt_node hw
  obtain ⟨d1, d2, d3⟩ := sound_node hsd
  have f0 := LFrame.openIf (cond := cond) (b := b) (fin := fin) rfl hentry
  have f1 := f0.append a1 rfl
  have f1' := f1.emit (is ++ [.condBr v.val b c]) hc.straight.le
  have f2 := (f1'.append a2 rfl).move (b := b') rfl a2.has (.inr (f1'.newIn a2))
  have hfc : Fresh child.defs (s₂.at s.curFn b') := (hf.sub (by simp +contextual)).later f2.toLGrow (by simp)
  have g1 := gen_frame hrc n1 hfc ha.2.1 (f2.stateOk hs) trivial
  have f3 := (f2.sub g1).jump r fin
  have hfn : Fresh next.defs (s₃.jump r fin) := (hf.sub (by simp +contextual)).later f3.toLGrow (fun i hi h => n4 i hi h)
  have hm : ModeOk (s₃.jump r fin) (.afterIf cond' s.curFn c b' fin) :=
    ⟨f3.fn.symm, (((a1.has.gen _ _).append a2).grow (s := s₂.at s.curFn b') g1.toLGrow).jump _ _, hfin.grow f3.toLGrow⟩
  have g2 := gen_frame hrn n2 hfn ha.2.2 (f3.stateOk hs) hm
  have x3 := he.back g2.toLGrow
  have x2 := (x3.jump_back.back g1.toLGrow).at_back
  have x1' := x2.back (a2.grow ⟨_, a1.has.gen _ _⟩ (T := Here s) (ds := []))
  have x1 := x1'.gen_back hc.straight.le
  have hs1f : s₁.curFn = s.curFn := a1.curFn
  have hs1b : s₁.curBlock = entry := a1.curBlock
  obtain ⟨i1, i2, i3, i4, pb, pf, hb, ib, ifin⟩ := hi
  have hfin0 : Has (s.at s.curFn entry) s.curFn fin := hfin
  have hb0 : Has (s.at s.curFn entry) s.curFn b := hb
  have pc : c ≠ 0 := new_pos hfin0 a1
  have pb' : b' ≠ 0 := new_pos ((hfin0.append a1).gen _ _) a2
  obtain ⟨Q, hQ⟩ : ∃ Q, Q = A s.curFn fin := ⟨_, rfl⟩
  have hv : Vis cfg M G s.curFn R K.own ds (A s.curFn fin) := hv
  rw [← hQ] at hv
  obtain ⟨A₁, hA₁⟩ : ∃ A₁, A₁ = put A s.curFn c Q := ⟨_, rfl⟩
  have k1 := GoodAt.append' (s := s.at s.curFn entry) hg a1 hfin0 (d := fin) hQ
  rw [← hA₁] at k1
  have E1 : Ext s.funcs A A₁ := by rw [hA₁]; exact put_ext a1.new
  have G1 : Grows s.funcs s₁.funcs := Appended.grows (s := s.at s.curFn entry) a1
  have ef1 : A₁ s.curFn fin = Q := (ext_has E1 hfin).trans hQ.symm
  have eb1 : A₁ s.curFn b = A s.curFn b := ext_has E1 hb
  have ec1 : A₁ s.curFn c = Q := by rw [hA₁]; exact put_same
  have up : Sub (Avs M A s.funcs s.curFn entry) (Cur M A₁ s₁) := by
    unfold Cur
    rw [hs1f, hs1b]
    exact avs_grow G1 E1
  have Q1 : Sub Q (Cur M A₁ s₁) := by rw [hQ]; exact ifin.trans up
  have hb1 : Has s₁ s₁.curFn b := by rw [hs1f]; exact hb0.append a1
  have hc1 : Has s₁ s₁.curFn c := by rw [hs1f]; exact a1.has
  have k2 : GoodAt M G A₁ (s₁.gen (is ++ [.condBr v.val b c]) n) := by
    refine Good.gen k1 f1.cur (cond_ok hfold (hc.mono x1.env) (own := K.own) (ds := ds) (Q1.vis (by rw [hs1f]; exact hv)) i1 i2 i3 i4
      (ext_target x1 hb1 pb) (ext_target x1 hc1 pc) ?_ ?_) (cond_targets hc.straight hb1 hc1) ((expr_nums hc).append (.no rfl))
    · exact Sub.trans (.of (by rw [hs1f, eb1])) (ib.trans up)
    · exact Sub.trans (.of (by rw [hs1f, ec1])) Q1
  obtain ⟨A₂, hA₂⟩ : ∃ A₂, A₂ = put A₁ s.curFn b' Q := ⟨_, rfl⟩
  have k3 := GoodAt.append' k2 a2 ((hfin0.append a1).gen _ _) (d := fin) ef1.symm
  rw [← hA₂] at k3
  have ef2 : A₂ s.curFn fin = Q := by rw [hA₂]; exact put_keep ef1
  have ec2 : A₂ s.curFn c = Q := by rw [hA₂]; exact put_keep ec1
  have eb2 : A₂ s.curFn b' = Q := by rw [hA₂]; exact put_same
  have G2 : Grows s.funcs (s₂.at s.curFn b').funcs := f2.grow
  have E12 : Ext (s₁.gen (is ++ [.condBr v.val b c]) n).funcs A₁ A₂ := by
    have h5 := a2.new
    rw [hA₂]
    intro f' b'' code hb''
    apply put_other
    rintro ⟨rfl, rfl⟩
    rw [h5] at hb''
    cases hb''
  have G12 : Grows s.funcs (s₁.gen (is ++ [.condBr v.val b c]) n).funcs := G1.trans (gen_grows s₁ _ n)
  have E2 : Ext s.funcs A A₂ := E1.trans G12 E12
  have hf2' : Has s₂ s.curFn fin := ((hfin0.append a1).gen (is ++ [.condBr v.val b c]) n).append a2
  have hf2 : Has (s₂.at s.curFn b') s.curFn fin := hf2'
  have hc2' : Has s₂ s.curFn c := (a1.has.gen (is ++ [.condBr v.val b c]) n).append a2
  have hc2 : Has (s₂.at s.curFn b') s.curFn c := hc2'
  have hb2 : Has (s₂.at s.curFn b') s.curFn b' := a2.has
  have P2 : Sub Q (Cur M A₂ (s₂.at s.curFn b')) := (Sub.of eb2.symm).trans (avs_has hb2)
  have hl2 : LoopsOk A₂ (s₂.at s.curFn b') (Cur M A₂ (s₂.at s.curFn b')) ok :=
    hl.later id (fun _ => ⟨a2.whileCond.trans a1.whileCond, a2.whileEnd.trans a1.whileEnd⟩) f2.fn G2 E2 (by
      show Sub (A s.curFn fin) _; rw [← hQ]; exact P2)
  obtain ⟨A₃, E3, k4, P3, _⟩ := ihc n1 hfc ha.2.1 (f2.stateOk hs) trivial hends.2.2.1 x3.jump_back (A := A₂) (ok := ok) hj.2.1 w2
    (by simpa [annDefs] using hsc.2.1) d2 (hk.sub (by simp +contextual)) k3 hl2 trivial (P2.vis hv)
  have hcf3 : s₃.curFn = s.curFn := g1.fn
  have ef3 : A₃ s.curFn fin = Q := by rw [ext_has E3 hf2, ef2]
  have ec3 : A₃ s.curFn c = Q := by rw [ext_has E3 hc2, ec2]
  have eb3 : A₃ s.curFn b' = Q := by rw [ext_has E3 hb2, eb2]
  have k5 := Good.jump k4 g1.cur x3 pf (by rw [hcf3]; exact hf2.grow g1.toLGrow) (by
    rw [hcf3, ef3, ← hcf3]
    exact P2.trans P3)
  have G3 : Grows (s₂.at s.curFn b').funcs (s₃.jump r fin).funcs := Grows.trans g1.grow (jump_grows s₃ r fin)
  have E4 : Ext s.funcs A A₃ := E2.trans G2 E3
  have G4 := G2.trans G3
  have hc3 : Has (s₃.jump r fin) s.curFn c := (hc2.grow g1.toLGrow).jump r fin
  have P4 : Sub Q (Avs M A₃ (s₃.jump r fin).funcs s.curFn c) := (Sub.of ec3.symm).trans (avs_has hc3)
  have hv4 : Vis cfg M G (s₃.jump r fin).curFn R K.own ds (A₃ s.curFn fin) := by
    rw [f3.fn, ef3]
    exact hv
  have hl4 : LoopsOk A₃ (s₃.jump r fin) (A₃ s.curFn fin) (ok && !hasLoop child) := by
    refine hl.later (by simp +contextual) (fun ho => ?_) f3.fn G4 E4 (by rw [ef3, hQ]; exact .refl)
    have h1 := gen_loop hrc (by simp at ho; exact ho.2)
    have h2 := loop_jump s₃ r fin
    exact ⟨h2.1.trans (h1.1.trans (a2.whileCond.trans a1.whileCond)), h2.2.trans (h1.2.trans (a2.whileEnd.trans a1.whileEnd))⟩
  have hi4 : IfOk cfg M A₃ (s₃.jump r fin) K.own ds (.afterIf cond' s.curFn c b' fin) := by
    cases w1 with
    | elifs w4 w5 _ _ =>
      exact ⟨w4, w5, d1, fun id h => hsc.1 id (.inl ⟨_, rfl, h⟩), pb', pf, (hb2.grow g1.toLGrow).jump r fin, (Sub.of eb3).trans P4,
        (Sub.of ef3).trans P4⟩
  have := ihn n2 hfn ha.2.2 (f3.stateOk hs) hm hends.2.2.2 he (A := A₃) hj.2.2 w3 (by simpa [lasting] using hsc.2.2) d3
    (by rw [f3.fn]; exact hk.sub (by simp +contextual)) k5 hl4 hi4 hv4
  exact this.before G4 E4 (by show Sub (A s.curFn fin) (A₃ s.curFn fin); rw [ef3, hQ]; exact .refl) (by simp [outer, lasting])

theorem good_elses {cfg : LCfg} (hfold : FoldTyped cfg.fold) {cond ann tok child next} {s : LState} {f entry b c fin s₁ is v n r s₂ r' s'}
    (a1 : Appended f c (s.at f entry) s₁) (hc : ECode cfg s₁.env s₁.nextReg cond is v n)
    (hrc : GenRun cfg .stmts child ((s₁.gen (is ++ [.condBr v.val b c]) n).at f c) r s₂)
    (hrn : GenRun cfg .stmts next ((s₂.jump r fin).at f fin) r' s')
    (ihc : GenGood cfg .stmts child ((s₁.gen (is ++ [.condBr v.val b c]) n).at f c) r s₂)
    (ihn : GenGood cfg .stmts next ((s₂.jump r fin).at f fin) r' s') :
    GenGood cfg (.afterIf cond f entry b fin) (.node ann .elses tok child next) s r' s' := by
  intro hn hf ha hs hm0 hends M R G he ok loop before ds K A hj hw hsc hsd hk hg hl hi hv
  obtain ⟨hcur, hentry, hfin⟩ := hm0
  subst hcur
  obtain ⟨w1, w2, w3⟩ := wt_node hw
  obtain ⟨d1, d2, d3⟩ := sound_node hsd
  have hann : ann = .none := by cases w1 <;> rfl
  subst hann
  rw [defs_node] at hn hf hk
  obtain ⟨n1, n2, _, n4⟩ := nodup_parts hn
  have f0 := LFrame.openIf (cond := cond) (b := b) (fin := fin) rfl hentry
  have f1 := f0.append a1 rfl
  have f1' := f1.emit (is ++ [.condBr v.val b c]) hc.straight.le
  have f2 := f1'.move (b := c) rfl (a1.has.gen _ _) (.inr (f0.newIn a1))
  have hfc : Fresh child.defs ((s₁.gen (is ++ [.condBr v.val b c]) n).at s.curFn c) := (hf.sub (by simp +contextual)).later f2.toLGrow (by simp)
  have g1 := gen_frame hrc n1 hfc ha.2.1 (f2.stateOk hs) trivial
  have f3 := (f2.sub g1).jump r fin
  have f4 := f3.move (b := fin) rfl (hfin.grow f3.toLGrow) (.inl ⟨rfl, .inr rfl⟩)
  have hfn : Fresh next.defs ((s₂.jump r fin).at s.curFn fin) :=
    (hf.sub (by simp +contextual)).later f4.toLGrow (fun i hi h => n4 i hi (by simp at h; simp [h]))
  have g2 := gen_frame hrn n2 hfn ha.2.2 (f4.stateOk hs) trivial
  have x3 := (he.back g2.toLGrow).at_back
  have x1' := (x3.jump_back.back g1.toLGrow).at_back
  have x1 := x1'.gen_back hc.straight.le
  have hs1f : s₁.curFn = s.curFn := a1.curFn
  have hs1b : s₁.curBlock = entry := a1.curBlock
  obtain ⟨i1, i2, i3, i4, pb, pf, hb, ib, ifin⟩ := hi
  have hfin0 : Has (s.at s.curFn entry) s.curFn fin := hfin
  have hb0 : Has (s.at s.curFn entry) s.curFn b := hb
  have pc : c ≠ 0 := new_pos hfin0 a1
  obtain ⟨Q, hQ⟩ : ∃ Q, Q = A s.curFn fin := ⟨_, rfl⟩
  have hv : Vis cfg M G s.curFn R K.own ds (A s.curFn fin) := hv
  rw [← hQ] at hv
  obtain ⟨A₁, hA₁⟩ : ∃ A₁, A₁ = put A s.curFn c Q := ⟨_, rfl⟩
  have k1 := GoodAt.append' (s := s.at s.curFn entry) hg a1 hfin0 (d := fin) hQ
  rw [← hA₁] at k1
  have E1 : Ext s.funcs A A₁ := by rw [hA₁]; exact put_ext a1.new
  have G1 : Grows s.funcs s₁.funcs := Appended.grows (s := s.at s.curFn entry) a1
  have ef1 : A₁ s.curFn fin = Q := (ext_has E1 hfin).trans hQ.symm
  have eb1 : A₁ s.curFn b = A s.curFn b := ext_has E1 hb
  have ec1 : A₁ s.curFn c = Q := by rw [hA₁]; exact put_same
  have up : Sub (Avs M A s.funcs s.curFn entry) (Cur M A₁ s₁) := by
    unfold Cur
    rw [hs1f, hs1b]
    exact avs_grow G1 E1
  have Q1 : Sub Q (Cur M A₁ s₁) := by rw [hQ]; exact ifin.trans up
  have hb1 : Has s₁ s₁.curFn b := by rw [hs1f]; exact hb0.append a1
  have hc1 : Has s₁ s₁.curFn c := by rw [hs1f]; exact a1.has
  have k2 : GoodAt M G A₁ ((s₁.gen (is ++ [.condBr v.val b c]) n).at s.curFn c) := by
    refine Good.gen k1 f1.cur (cond_ok hfold (hc.mono x1.env) (own := K.own) (ds := ds) (Q1.vis (by rw [hs1f]; exact hv)) i1 i2 i3 i4
      (ext_target x1 hb1 pb) (ext_target x1 hc1 pc) ?_ ?_) (cond_targets hc.straight hb1 hc1) ((expr_nums hc).append (.no rfl))
    · exact Sub.trans (.of (by rw [hs1f, eb1])) (ib.trans up)
    · exact Sub.trans (.of (by rw [hs1f, ec1])) Q1
  have G2 : Grows s.funcs ((s₁.gen (is ++ [.condBr v.val b c]) n).at s.curFn c).funcs := f2.grow
  have hf2 : Has ((s₁.gen (is ++ [.condBr v.val b c]) n).at s.curFn c) s.curFn fin := ((hfin0.append a1).gen _ _).at _ _
  have hc2 : Has ((s₁.gen (is ++ [.condBr v.val b c]) n).at s.curFn c) s.curFn c := (a1.has.gen _ _).at _ _
  have P2 : Sub Q (Cur M A₁ ((s₁.gen (is ++ [.condBr v.val b c]) n).at s.curFn c)) := (Sub.of ec1.symm).trans (avs_has hc2)
  have hl2 : LoopsOk A₁ ((s₁.gen (is ++ [.condBr v.val b c]) n).at s.curFn c) (Cur M A₁ ((s₁.gen (is ++ [.condBr v.val b c]) n).at s.curFn c)) ok :=
    hl.later id (fun _ => ⟨a1.whileCond, a1.whileEnd⟩) f2.fn G2 E1 (by show Sub (A s.curFn fin) _; rw [← hQ]; exact P2)
  have hj2 : JumpsOk ok child ∧ JumpsOk (ok && !hasLoop child) next := hj.2
  obtain ⟨A₃, E3, k4, P3, _⟩ := ihc n1 hfc ha.2.1 (f2.stateOk hs) trivial hends.2.2.1 x3.jump_back (A := A₁) (ok := ok) hj2.1 w2
    (by simpa [annDefs] using hsc.2.1) d2 (hk.sub (by simp +contextual)) k2 hl2 trivial (P2.vis hv)
  have hcf3 : s₂.curFn = s.curFn := g1.fn
  have ef3 : A₃ s.curFn fin = Q := by rw [ext_has E3 hf2, ef1]
  have k5 := Good.jump k4 g1.cur x3 pf (by rw [hcf3]; exact hf2.grow g1.toLGrow) (by
    rw [hcf3, ef3, ← hcf3]
    exact P2.trans P3)
  have G3 : Grows ((s₁.gen (is ++ [.condBr v.val b c]) n).at s.curFn c).funcs ((s₂.jump r fin).at s.curFn fin).funcs :=
    Grows.trans g1.grow (jump_grows s₂ r fin)
  have E4 : Ext s.funcs A A₃ := E1.trans G2 E3
  have G4 := G2.trans G3
  have hfj : Has ((s₂.jump r fin).at s.curFn fin) s.curFn fin := (hf2.grow g1.toLGrow).jump r fin
  have P4 : Sub Q (Cur M A₃ ((s₂.jump r fin).at s.curFn fin)) := (Sub.of ef3.symm).trans (avs_has hfj)
  have hl4 : LoopsOk A₃ ((s₂.jump r fin).at s.curFn fin) (Cur M A₃ ((s₂.jump r fin).at s.curFn fin)) (ok && !hasLoop child) := by
    refine hl.later (by simp +contextual) (fun ho => ?_) f4.fn G4 E4 (by show Sub (A s.curFn fin) _; rw [← hQ]; exact P4)
    have h1 := gen_loop hrc (by simp at ho; exact ho.2)
    have h2 := loop_jump s₂ r fin
    exact ⟨h2.1.trans (h1.1.trans a1.whileCond), h2.2.trans (h1.2.trans a1.whileEnd)⟩
  have := ihn n2 hfn ha.2.2 (f4.stateOk hs) trivial hends.2.2.2 he (A := A₃) hj2.2 w3 (by simpa [lasting] using hsc.2.2) d3
    (hk.sub (by simp +contextual)) k5 hl4 trivial (P4.vis hv)
  exact this.before G4 E4 (by show Sub (A s.curFn fin) _; rw [← hQ]; exact P4) (by simp [outer, lasting])

theorem good_comment {cfg : LCfg} {cond f entry b fin ann tok child next s r s'} (ih : GenGood cfg (.afterIf cond f entry b fin) next s r s') :
    GenGood cfg (.afterIf cond f entry b fin) (.node ann .comment tok child next) s r s' := by
  intro hn hf ha hs hm hends M R G he ok loop before ds K A hj hw hsc hsd hk hg hl hi hv
  obtain ⟨w1, w2, w3⟩ := wt_node hw
  obtain ⟨d1, d2, d3⟩ := sound_node hsd
  have hann : ann = .none := by cases w1 <;> rfl
  subst hann
  rw [defs_node] at hn hf hk
  obtain ⟨n1, n2, _, n4⟩ := nodup_parts hn
  have hj2 : JumpsOk ok child ∧ JumpsOk (ok && !hasLoop child) next := hj.2
  have := ih n2 (hf.sub (by simp +contextual)) ha.2.2 hs hm hends.2.2.2 he (A := A) (ds := ds) hj2.2 w3 (by simpa [lasting] using hsc.2.2) d3
    (hk.sub (by simp +contextual)) hg
    (hl.later (by simp +contextual) (fun _ => ⟨rfl, rfl⟩) rfl (fun _ _ c h => ⟨[], by rw [List.append_nil]; exact h⟩) .refl .refl) hi hv
  exact this.before (fun _ _ c h => ⟨[], by rw [List.append_nil]; exact h⟩) .refl .refl (by simp [outer, lasting])

theorem good_endIf {cfg : LCfg} (hfold : FoldTyped cfg.fold) {cond f entry b fin t} {s : LState} {is v n r s'}
    (hc : ECode cfg s.env s.nextReg cond is v n)
    (hrun : GenRun cfg .stmts t (((s.at f entry).gen (is ++ [.condBr v.val b fin]) n).at f fin) r s')
    (ih : GenGood cfg .stmts t (((s.at f entry).gen (is ++ [.condBr v.val b fin]) n).at f fin) r s') :
    GenGood cfg (.afterIf cond f entry b fin) t s r s' := by
  intro hn hf ha hs hm0 hends M R G he ok loop before ds K A hj hw hsc hsd hk hg hl hi hv
  obtain ⟨hcur, hentry, hfin⟩ := hm0
  subst hcur
  have f0 := LFrame.openIf (cond := cond) (b := b) (fin := fin) rfl hentry
  have f1 := f0.emit (is ++ [.condBr v.val b fin]) hc.straight.le
  have f2 := f1.move (b := fin) rfl (hfin.grow f1.toLGrow) (.inl ⟨rfl, .inr rfl⟩)
  have hf1 := hf.later f2.toLGrow (by simp)
  have g1 := gen_frame hrun hn hf1 ha (f2.stateOk hs) trivial
  have x1' := (he.back g1.toLGrow).at_back
  have x1 := x1'.gen_back hc.straight.le
  obtain ⟨i1, i2, i3, i4, pb, pf, hb, ib, ifin⟩ := hi
  obtain ⟨Q, hQ⟩ : ∃ Q, Q = A s.curFn fin := ⟨_, rfl⟩
  have hv : Vis cfg M G s.curFn R K.own ds (A s.curFn fin) := hv
  have k2 : GoodAt M G A (((s.at s.curFn entry).gen (is ++ [.condBr v.val b fin]) n).at s.curFn fin) :=
    Good.gen (s := s.at s.curFn entry) hg f0.cur (cond_ok hfold (hc.mono x1.env) (own := K.own) (ds := ds) (ifin.vis hv) i1 i2 i3 i4
      (ext_target x1 hb pb) (ext_target x1 hfin pf) ib ifin) (cond_targets hc.straight hb hfin) ((expr_nums hc).append (.no rfl))
  have G2 : Grows s.funcs (((s.at s.curFn entry).gen (is ++ [.condBr v.val b fin]) n).at s.curFn fin).funcs := f2.grow
  have hf2 : Has (((s.at s.curFn entry).gen (is ++ [.condBr v.val b fin]) n).at s.curFn fin) s.curFn fin := hfin.grow f2.toLGrow
  have P2 : Sub (A s.curFn fin) (Cur M A (((s.at s.curFn entry).gen (is ++ [.condBr v.val b fin]) n).at s.curFn fin)) := avs_has hf2
  have := ih hn hf1 ha (f2.stateOk hs) trivial hends he (A := A) hj hw hsc hsd hk k2
    (hl.later id (fun _ => ⟨rfl, rfl⟩) rfl G2 .refl P2) trivial (P2.vis hv)
  exact this.before G2 .refl P2 (fun _ _ h => h)

theorem Good.external {M G A n g} {s : LState} {sym f id} (h : Good M G A s.funcs n g)
    (hx : ∀ (x : LFunc), M[s.funcs.length]? = some x → (∀ ty ∈ x.params, lty ty ≠ .void) ∧ x.isPrivate = false) :
    Good M G A (s.addFunc sym f id []).funcs n g := by
  refine ⟨?_, ?_, h.zero, h.known, ?_, ?_, ?_, h.globs, ?_⟩
  · intro f b c hc; rw [addFunc_blocks] at hc; exact h.code f b c hc
  · intro f b c hc i hi t ht
    rw [addFunc_blocks] at hc
    obtain ⟨c', h1⟩ := h.closed f b c hc i hi t ht
    exact ⟨c', by rw [addFunc_blocks]; exact h1⟩
  · intro f b c hc; rw [addFunc_blocks] at hc; exact h.below f b c hc
  · intro f b c hc; rw [addFunc_blocks] at hc; exact h.once f b c hc
  · intro f b c f' b' c' hc hc'
    rw [addFunc_blocks] at hc hc'
    exact h.apart f b c f' b' c' hc hc'
  · intro i x hi hx'
    have hl : (s.addFunc sym f id []).funcs.length = s.funcs.length + 1 := by simp [LState.addFunc]
    by_cases hlt : i < s.funcs.length
    · obtain ⟨h1, h2⟩ := h.funcs i x hlt hx'
      refine ⟨h1, fun hp => ?_⟩
      obtain ⟨c, h3⟩ := h2 hp
      exact ⟨c, by rw [addFunc_blocks]; exact h3⟩
    · have : i = s.funcs.length := by omega
      subst this
      obtain ⟨h1, h2⟩ := hx x hx'
      exact ⟨h1, fun hp => by rw [h2] at hp; cases hp⟩

theorem params_of {cfg : LCfg} {id sym f} (h : cfg.func id = some (sym, f)) : paramTypesOf cfg.syms id = f.paramTypes ∧
    returnTypeOf cfg.syms id = f.returnType := by
  unfold LCfg.func at h
  unfold paramTypesOf returnTypeOf
  split at h
  · rename_i sym' h1
    split at h
    · rename_i hk
      cases h
      simp [h1, hk]
    · cases h
  · cases h

theorem good_external {cfg : LCfg} {id ps x tok child next} {s : LState} {sym f r s'} (hfn : cfg.func id = some (sym, f))
    (hx : f.isExternal = true) (hrun : GenRun cfg .stmts next (s.addFunc sym f id []) r s')
    (ih : GenGood cfg .stmts next (s.addFunc sym f id []) r s') :
    GenGood cfg .stmts (.node (.func id ps) (.funcProto x) tok child next) s r s' := by
  intro hn hf ha hs _ hends M R G he ok loop before ds K A hj hw hsc hsd hk hg hl _ hv
  rw [defs_node] at hn hf hk
  obtain ⟨n1, n2, _, n4⟩ := nodup_parts hn
  obtain ⟨w1, w2, w3⟩ := wt_node hw
  obtain ⟨d1, d2, d3⟩ := sound_node hsd
  have h1 : LGrow (Here s) (id :: ps) s (s.addFunc sym f id []) := addFunc_grow (hf.sub (by simp [Ann.defs])) (by simp)
  have f1 : LFrame (Here s) (id :: ps) s (s.addFunc sym f id []) := ⟨h1, rfl, rfl, Has.grow (s := s) hs.block h1, .inl ⟨rfl, rfl⟩⟩
  have hfn' : Fresh next.defs (s.addFunc sym f id []) :=
    (hf.sub (by simp +contextual)).later f1.toLGrow (fun i hi h => n4 i hi (by simp only [Ann.defs, List.mem_append]; exact .inl h))
  have g1 := gen_frame hrun n2 hfn' ha.2.2 (f1.stateOk hs) trivial
  have x1 := he.back g1.toLGrow
  obtain ⟨y, h2, h3, h4⟩ := x1.heads s.funcs.length ⟨sym.linkageName, f.paramTypes, f.returnType, !(f.isExternal || f.isExport), []⟩
    (by simp [LState.addFunc])
  have yp : y.params = f.paramTypes := congrArg LFunc.params h3
  have yr : y.ret = f.returnType := congrArg LFunc.ret h3
  have yx : y.isPrivate = !(f.isExternal || f.isExport) := congrArg LFunc.isPrivate h3
  simp only [soundAnn, Bool.and_eq_true, List.all_eq_true, decide_eq_true_eq, (params_of hfn).1] at d1
  have k1 : GoodAt M G A (s.addFunc sym f id []) := by
    refine Good.external hg (fun z hz => ?_)
    cases h2.symm.trans hz
    refine ⟨fun ty hty => lty_void (d1.2 ty (by rw [← yp]; exact hty)), by rw [yx, hx]; rfl⟩
  have G1 : Grows s.funcs (s.addFunc sym f id []).funcs := h1.grow
  have P1 : Sub (Cur M A s) (Cur M A (s.addFunc sym f id [])) := avs_grow G1 .refl
  have hr : R.funcRef id = some s.funcs.length := x1.env.funcs _ _ (by simp [LState.addFunc, LState.env])
  have := ih n2 hfn' ha.2.2 (f1.stateOk hs) trivial hends.2.2.2 he (A := A) hj.2.2 w3 hsc.2.2 d3 (hk.sub (by simp +contextual)) k1
    (hl.later (by simp +contextual) (fun _ => ⟨rfl, rfl⟩) rfl G1 .refl P1) trivial ((P1.vis hv).addFunc hfn hr h2 yp yr)
  exact this.before G1 .refl P1 (by intro _ i hi; simpa [outer, or_assoc] using hi)

theorem good_ns {cfg : LCfg} {ann tok child next s r s₁ r' s'} (hrc : GenRun cfg .stmts child s r s₁) (hrn : GenRun cfg .stmts next s₁ r' s')
    (ihc : GenGood cfg .stmts child s r s₁) (ihn : GenGood cfg .stmts next s₁ r' s') :
    GenGood cfg .stmts (.node ann .namespaces tok child next) s r' s' := by
  intro hn hf ha hs _ hends M R G he ok loop before ds K A hj hw hsc hsd hk hg hl _ hv
  obtain ⟨w1, w2, w3⟩ := wt_node hw
  obtain ⟨d1, d2, d3⟩ := sound_node hsd
  obtain ⟨nid, rfl⟩ : ∃ i, ann = .ns i := by
    cases w1 with
    | ns => exact ⟨_, rfl⟩
    | other h => simp at h
  rw [defs_node] at hn hf hk
  obtain ⟨n1, n2, n3, n4⟩ := nodup_parts hn
  have hfc : Fresh child.defs s := hf.sub (by simp +contextual)
  have g1 := gen_frame hrc n1 hfc ha.2.1 hs trivial
  have hfn' : Fresh next.defs s₁ := (hf.sub (by simp +contextual)).later g1.toLGrow (fun i hi h => n4 i hi (by simp [h]))
  have g2 := gen_frame hrn n2 hfn' ha.2.2 (g1.stateOk hs) trivial
  have hj2 : JumpsOk ok child ∧ JumpsOk (ok && !hasLoop child) next := hj.2
  have hr : r = none := (gen_ending hrc).1.2 (hends.1 rfl)
  obtain ⟨A₁, E1, k1, P1, hv1⟩ := ihc n1 hfc ha.2.1 hs trivial hends.2.2.1 (he.back g2.toLGrow) (A := A) (ds := ds) hj2.1 w2
    (by simpa [annDefs] using hsc.2.1) d2 (hk.sub (by simp +contextual)) hg hl trivial hv
  have := ihn n2 hfn' ha.2.2 (g1.stateOk hs) trivial hends.2.2.2 he (A := A₁) hj2.2 w3 hsc.2.2 d3
    (by rw [g1.fn]; exact hk.sub (by simp +contextual)) k1
    (hl.later (by simp +contextual) (fun ho => gen_loop hrc (by simp at ho; exact ho.2)) g1.fn g1.grow E1 P1) trivial (hv1 hr)
  exact this.before g1.grow E1 P1 (by intro _ i hi; simpa [outer, lasting, or_assoc] using hi)

end Skull.LVer
