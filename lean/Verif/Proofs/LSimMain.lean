import Verif.Proofs.LSimStmt
/-
Running the code of statements and programs.
-/
namespace Skull
open Spec

section
variable {ω : Type} {cfg : LCfg} {R : LEnv} {G : List LGlobal} {M : List LFunc} {F : Floats} {c : RunCtx ω}

theorem SimPost.seq {f loop e p p' q k' base top ps regs regs' S' o} {m m' : Mem ω} (hg : Goes F c.ext M f ps p p' regs m regs' m')
    (hf : Framed base m m') (h : SimPost cfg R G M F c f loop e p' q k' base top ps regs' m' S' o) :
    SimPost cfg R G M F c f loop e p q k' base top ps regs m S' o := by
  cases o with
  | normal =>
    obtain ⟨h1, h2, regs₂, m₂, h3, h4, h5, h6⟩ := h
    exact ⟨h1, h2, regs₂, m₂, hg.trans h3, h4, h5, hf.trans h6⟩
  | broke =>
    obtain ⟨a, b, regs₂, m₂, k, h2, h3, h4, h5, h6⟩ := h
    exact ⟨a, b, regs₂, m₂, k, h2, hg.trans h3, h4, h5, hf.trans h6⟩
  | continued =>
    obtain ⟨a, b, regs₂, m₂, k, h2, h3, h4, h5, h6⟩ := h
    exact ⟨a, b, regs₂, m₂, k, h2, hg.trans h3, h4, h5, hf.trans h6⟩
  | returned =>
    obtain ⟨m₂, h3, h5, h6⟩ := h
    exact ⟨m₂, hg _ _ h3, h5, hf.trans h6⟩

theorem sim_call (hl : CodeOf cfg R G M F c) {n} (ih : SimAt cfg R G M F c n) {id vs S v S' ref} {m : Mem ω}
    (h : callF c (n + 1) id vs S = some (v, S')) (hr : R.funcRef id = some ref) (hG : GlobRel cfg R G S m) :
    ∃ m', ICall F c.ext M ref (vs.map .val) m (.val v) m' ∧ GlobRel cfg R G S' m' ∧ Framed m.next m m' := by
  simp only [callF] at h
  split at h
  · rename_i i0 pars body nm linkage et lc fn hd hs
    have hd := find_decl hd
    rw [hl.syms] at hs
    have hfn : cfg.func id = some (⟨nm, linkage, et, lc, .func fn⟩, fn) := by
      unfold LCfg.func; rw [hs]
    split at h
    · rename_i hlen
      rcases hl.decl _ _ _ hd with ⟨⟨sym, fn', f', x, h1, h2, h3, h4, h5, h6⟩, _⟩ | ⟨f', k, is, k₀, e, q, k', hne, hfun, hentry, laid, hvoid, wt, hpar, sym, fn', h1, h2, h3⟩
      · rw [hfn] at h1
        cases h1
        rw [hr] at h3
        cases h3
        rw [if_pos h2] at h
        split at h
        · rename_i w W hx
          cases h
          refine ⟨{ m with world := W }, .external h4 h6 ?_, ⟨rfl, hG.glob, hG.init⟩, ⟨fun _ _ => rfl, Nat.le_refl _⟩⟩
          rw [h5, hG.world]
          exact hx
        · cases h
      · obtain ⟨sym', fn'', x, h4, h5, h6, h7, h8, h9, h10, h11⟩ := hfun
        rw [hfn] at h4 h1
        cases h4
        cases h1
        rw [hr] at h6
        cases h6
        rw [if_neg (by rw [h5]; simp)] at h
        split at h
        · rename_i o S₁ he
          split at h
          · rename_i w hw
            cases h
            have hpars : pars.take fn.numParams = pars := by rw [← h2, List.take_length]
            rw [hpars] at h11
            obtain ⟨regs₀, m₀, r0, hL, hF0, hg0, hw0⟩ := param_run (F := F) (ext := c.ext) (M := M) (f := ref) (m := m) h11
              (fun p hp => (hpar p hp).imp fun _ h => h) hlen
            have hG0 : GlobRel cfg R G S m₀ := hG.same hg0 hw0
            have post := ih.exec he laid wt (by simp [h7]) (inl := false) (by intro h; cases h) hL hG0
            have post := SimPost.seq (r0.goes hentry) hF0 post
            have hpl : x.params.length = (vs.map MVal.val).length := by
              rw [h9, ← h3, ← h2, hlen, List.length_map]
            have atStart : ∀ {v fin}, RunAt F c.ext M ref (start 0) (fun _ => none) (vs.map .val) m v fin →
                ∃ code, blockOf M ref 0 = some code ∧ IRun F c.ext M ref code (fun _ => none) (vs.map .val) m v fin := by
              rintro v fin ⟨code, hb, hrun⟩
              exact ⟨code, hb, by simpa [start] using hrun⟩
            cases o with
            | normal L' =>
              simp only [Out.result] at hw
              split at hw
              · rename_i hv
                cases hw
                obtain ⟨he0, _, regs', m', hgo, hL', hG', hF⟩ := post
                obtain ⟨code, rest, hb, hd', _⟩ := CodeAt.drop (hvoid he0 ⟨_, _, hfn, hv⟩)
                have hrun := hgo none m' ⟨code, hb, by rw [hd']; exact .retVoid⟩
                obtain ⟨code', hb', hrun'⟩ := atStart hrun
                exact ⟨m', .void h8 hpl (by rw [h10]; exact hv) hb' hrun', hG', hF⟩
              · cases hw
            | broke => cases hw
            | continued => cases hw
            | returned r =>
              obtain ⟨m', hrun, hG', hF⟩ := post
              obtain ⟨code', hb', hrun'⟩ := atStart hrun
              cases r with
              | none =>
                simp only [Out.result] at hw
                split at hw
                · rename_i hv
                  cases hw
                  exact ⟨m', .void h8 hpl (by rw [h10]; exact hv) hb' hrun', hG', hF⟩
                · cases hw
              | some r =>
                simp only [Out.result] at hw
                split at hw
                · cases hw
                · rename_i hv
                  cases hw
                  exact ⟨m', .value h8 hpl (by rw [h10]; exact hv) hb' hrun', hG', hF⟩
          · cases h
        · cases h
    · cases h
  · cases h

theorem exec_chain {n top t L} {S : SState ω} (h : staysInChain t = false) : execT c n top true t L S = execT c n top false t L S := by
  cases n with
  | zero => rfl
  | succ n =>
    cases t with
    | nil => rfl
    | unchecked => rfl
    | node ann stmt tok child next =>
      simp only [execT]
      cases stmt <;> cases ann <;> first | rfl | (cases h; done) | (rename_i e; cases e <;> rfl)

theorem exec_only_top {top : Bool} {L L' : Vars} (h : top = true → ∀ id, L id = none) : top = true → ∀ id, L.only L' id = none := by
  intro ht id
  unfold Vars.only
  rw [h ht id]
  rfl

theorem sim_andThen {n} (ih : SimAt cfg R G M F c n)
    {top child next L S o S' f loop fin b k e₁ q₁ k₁ k₂ e q k' inl il before il' before' base regs ps} {m : Mem ω}
    (h : andThen c (n + 1) top child next L S = some (o, S'))
    (h1 : Laid (piecesL cfg R G M) M f loop .stmts (start b) k child e₁ q₁ k₁) (h2 : e₁ = false → CodeAt M f q₁ [.br (some fin)])
    (h3 : k.reg ≤ k₂.reg) (h4 : Laid (piecesL cfg R G M) M f loop .stmts (start fin) k₂ next e q k')
    (w1 : WtTree cfg.syms il before child) (w2 : WtTree cfg.syms il' before' next) (ht : top = true ↔ f = 0)
    (t1 : TopOk cfg top inl child L S) (t2 : TopOk cfg top inl next L S) (hd : top = true → ∀ id ∈ child.defs, id ∉ next.defs)
    (hL : LocRel cfg R k.reg base L regs ps m) (hG : GlobRel cfg R G S m) :
    SimPost cfg R G M F c f loop e (start b) q k'.reg base top ps regs m S' o := by
  simp only [Spec.andThen] at h
  split at h
  · rename_i o₁ S₁ he
    have hk := (keepAt n).exec he
    have post := ih.exec he h1 w1 ht t1 hL hG
    cases o₁ with
    | normal L₁ =>
      simp only [Out.close] at h
      obtain ⟨he1, _, regs₁, m₁, go, hL₁, hG₁, hF⟩ := post
      have tL : top = true → ∀ id, L.only L₁ id = none := exec_only_top fun ht => (t1 ht).2.2.1
      refine SimPost.seq (go.trans (goesBr (h2 he1))) hF (ih.exec h h4 w2 ht (t2.keep tL fun htop id hid hn => hk id (.inr fun hc => hd htop id hc hid) hn)
        ((hL.only hL₁).mono h3) hG₁)
    | broke L₁ =>
      simp only [Out.close] at h
      cases h
      obtain ⟨a, b, regs₂, m₂, k, p1, p2, p3, p4⟩ := post
      exact ⟨a, b, regs₂, m₂, _, p1, p2, hL.only p3, p4⟩
    | continued L₁ =>
      simp only [Out.close] at h
      cases h
      obtain ⟨a, b, regs₂, m₂, k, p1, p2, p3, p4⟩ := post
      exact ⟨a, b, regs₂, m₂, _, p1, p2, hL.only p3, p4⟩
    | returned v =>
      simp only [Out.close] at h
      cases h
      exact post
  · cases h

theorem sim_loop {n} (ih : SimAt cfg R G M F c n)
    {top cond child L S o S' f a b d is v k k₁ e₁ q₁ k₂ loop' il before base regs ps} {m : Mem ω}
    (h : loopW c (n + 1) top cond child L S = some (o, S')) (hc : (piecesL cfg R G M).cond k cond is v k₁)
    (h1 : CodeAt M f (start a) (is ++ [.condBr v b d])) (h2 : Laid (piecesL cfg R G M) M f (some (a, d)) .stmts (start b) k₁ child e₁ q₁ k₂)
    (h3 : e₁ = false → CodeAt M f q₁ [.br (some a)]) (w0 : WtE cfg.syms cond) (w1 : WtTree cfg.syms il before child)
    (ht : top = true ↔ f = 0) (t1 : TopOk cfg top true child L S) (hL : LocRel cfg R k.reg base L regs ps m) (hG : GlobRel cfg R G S m) :
    SimPost cfg R G M F c f loop' false (start a) (start d) k.reg base top ps regs m S' o ∧ ∀ L', o ≠ .broke L' ∧ o ≠ .continued L' := by
  simp only [loopW] at h
  obtain ⟨x, N', hcode, rfl, rfl⟩ := hc
  have t1' : ∀ {L' : Vars} {S' : SState ω}, (top = true → ∀ id, L' id = none) → TopOk cfg top true child L' S' :=
    fun hL htop => ⟨(t1 htop).1, (t1 htop).2.1, hL htop, fun h => by cases h⟩
  have tL : top = true → ∀ id, L id = none := fun ht => (t1 ht).2.2.1
  split at h
  · rename_i S₁ he
    cases h
    obtain ⟨regs₁, m₁, r1, o1, u1, _, s1, g1, f1⟩ := ih.expr he hcode w0 hL hG (f := f)
    refine ⟨⟨rfl, tL, regs₁, m₁, ?_, hL.keep s1 f1, g1, f1.mono hL.base⟩, fun L' => ⟨by simp, by simp⟩⟩
    have := r1.goesCond h1 o1
    simpa using this
  · rename_i S₁ he
    obtain ⟨regs₁, m₁, r1, o1, u1, _, s1, g1, f1⟩ := ih.expr he hcode w0 hL hG (f := f)
    have go1 := r1.goesCond h1 o1
    simp only [if_true] at go1
    have hL1 : LocRel cfg R k.reg base L regs₁ ps m₁ := hL.keep s1 f1
    split at h
    · rename_i o₂ S₂ he2
      have post := ih.exec he2 h2 w1 ht (t1' tL) (hL1.mono hcode.straight.le) g1
      have fr : ∀ {m₂ : Mem ω}, Framed base m₁ m₂ → Framed base m m₂ := fun h => (f1.mono hL.base).trans h
      cases o₂ with
      | normal L₂ =>
        simp only [Out.close] at h
        obtain ⟨he1, _, regs₂, m₂, go, hL₂, hG₂, hF⟩ := post
        obtain ⟨p1, p2⟩ := ih.loop h ⟨x, N', hcode, rfl, rfl⟩ h1 h2 h3 w0 w1 ht (t1' (exec_only_top tL)) (hL.only hL₂) hG₂ (loop' := loop')
        exact ⟨SimPost.seq (go1.trans (go.trans (goesBr (h3 he1)))) (fr hF) p1, p2⟩
      | continued L₂ =>
        simp only [Out.close] at h
        obtain ⟨a', b', regs₂, m₂, K, heq, go, hL₂, hG₂, hF⟩ := post
        cases heq
        obtain ⟨p1, p2⟩ := ih.loop h ⟨x, N', hcode, rfl, rfl⟩ h1 h2 h3 w0 w1 ht (t1' (exec_only_top tL)) (hL.only hL₂) hG₂ (loop' := loop')
        exact ⟨SimPost.seq (go1.trans go) (fr hF) p1, p2⟩
      | broke L₂ =>
        simp only [Out.close] at h
        cases h
        obtain ⟨a', b', regs₂, m₂, K, heq, go, hL₂, hG₂, hF⟩ := post
        cases heq
        exact ⟨⟨rfl, exec_only_top tL, regs₂, m₂, go1.trans go, hL.only hL₂, hG₂, fr hF⟩, fun L' => ⟨by simp, by simp⟩⟩
      | returned v =>
        simp only [Out.close] at h
        cases h
        obtain ⟨m₂, hrun, hG₂, hF⟩ := post
        exact ⟨⟨m₂, go1 _ _ hrun, hG₂, fr hF⟩, fun L' => ⟨by simp, by simp⟩⟩
    · cases h
  · cases h

theorem sim_chain {n} (ih : SimAt cfg R G M F c n)
    (hexec : ∀ {top t L S o S' f loop p k e q k' inl il before base regs ps} {m : Mem ω}, execT c (n + 1) top false t L S = some (o, S') →
      Laid (piecesL cfg R G M) M f loop .stmts p k t e q k' → WtTree cfg.syms il before t → (top = true ↔ f = 0) →
      TopOk cfg top inl t L S → LocRel cfg R k.reg base L regs ps m → GlobRel cfg R G S m →
      SimPost cfg R G M F c f loop e p q k'.reg base top ps regs m S' o)
    {top t L S o S' f loop fin b k e q k' inl il before base regs ps} {m : Mem ω} (h : execT c (n + 1) top true t L S = some (o, S'))
    (hl : ElseLaid M (piecesL cfg R G M) f loop fin b k t e q k') (w : WtTree cfg.syms il before t) (ht : top = true ↔ f = 0)
    (tok : TopOk cfg top inl t L S) (hL : LocRel cfg R k.reg base L regs ps m) (hG : GlobRel cfg R G S m) :
    SimPost cfg R G M F c f loop e (start b) q k'.reg base top ps regs m S' o := by
  cases hl with
  | elifs h1 h2 h3 h4 =>
    subst h1
    simp only [execT, if_true] at h
    cases w with
    | node w1 w2 w3 =>
      cases w1 with
      | elifs w4 =>
        obtain ⟨is, v, k₁, d, hc, hcode, hels⟩ := afterIf_split h4
        obtain ⟨kt, hkt, htk⟩ := afterIf_taken h4
        obtain ⟨x, N', hx, rfl, rfl⟩ := hc
        have hk2 := Laid.mono h2
        split at h
        · rename_i S₁ he
          have kk := (keepAt n).expr he
          obtain ⟨regs₁, m₁, r1, o1, u1, _, s1, g1, f1⟩ := ih.expr he hx w4 (hL.mono hk2) hG (f := f)
          have go1 := r1.goesCond hcode o1
          simp only [if_true] at go1
          have hL1 : LocRel cfg R k.reg base L regs₁ ps m₁ := hL.keep (fun r hr => s1 r (Nat.lt_of_lt_of_le hr hk2)) f1
          obtain ⟨bf, w5⟩ := wt_afterChain w3
          have tn : TopOk cfg top inl _ L S₁ := tok.next (fun ht => (tok ht).2.2.1) fun _ id _ hn => kk id trivial hn
          exact SimPost.seq go1 (f1.mono hL.base) (ih.andThen h h2 h3 (Nat.le_trans hk2 hkt) htk w2 w5 ht
            (tok.child rfl fun id hn => kk id trivial hn) tn.after
            (fun htop id hid hid' => nodup_disjoint (tok htop).2.1 id hid (afterChain_defs hid')) hL1 g1)
        · rename_i S₁ he
          have kk := (keepAt n).expr he
          obtain ⟨regs₁, m₁, r1, o1, u1, _, s1, g1, f1⟩ := ih.expr he hx w4 (hL.mono hk2) hG (f := f)
          have go1 := r1.goesCond hcode o1
          simp only [Bool.false_eq_true, if_false] at go1
          have tn : TopOk cfg top inl _ L S₁ := tok.next (fun ht => (tok ht).2.2.1) fun _ id _ hn => kk id trivial hn
          exact SimPost.seq go1 (f1.mono hL.base) (ih.chain h hels w3 ht tn
            (((hL.mono hk2).keep s1 f1).mono hx.straight.le) g1)
        · cases h
  | elses h1 h2 h3 =>
    simp only [execT, if_true] at h
    cases w with
    | node w1 w2 w3 =>
      exact ih.andThen h h1 h2 (Laid.mono h1) h3 w2 w3 ht (tok.child rfl fun _ h => h)
        (tok.next (fun ht => (tok ht).2.2.1) fun _ _ _ h => h) (fun htop => nodup_disjoint (tok htop).2.1) hL hG
  | comment h1 =>
    simp only [execT] at h
    cases w with
    | node w1 w2 w3 => exact ih.chain h h1 w3 ht (tok.next (fun ht => (tok ht).2.2.1) fun _ _ _ h => h) hL hG
  | done h1 h2 =>
    rw [exec_chain h1] at h
    exact hexec h h2 w ht tok hL hG

theorem sim_exec (hl : CodeOf cfg R G M F c) {n} (ih : SimAt cfg R G M F c n)
    {top t L S o S' f loop p k e q k' inl il before base regs ps} {m : Mem ω} (h : execT c (n + 1) top false t L S = some (o, S'))
    (laid : Laid (piecesL cfg R G M) M f loop .stmts p k t e q k') (w : WtTree cfg.syms il before t) (ht : top = true ↔ f = 0)
    (tok : TopOk cfg top inl t L S) (hL : LocRel cfg R k.reg base L regs ps m) (hG : GlobRel cfg R G S m) :
    SimPost cfg R G M F c f loop e p q k'.reg base top ps regs m S' o := by
  have tL : top = true → ∀ id, L id = none := fun ht => (tok ht).2.2.1
  generalize harm : Arm.stmts = arm at laid
  cases laid with
  | nil =>
    simp only [execT] at h
    cases h
    exact ⟨rfl, tL, regs, m, .refl, hL, hG, .refl _⟩
  | @plain _ _ _ _ ann stmt tk child next is k₁ _ _ _ hp hs hcode hnext =>
    have same : ∀ {L' : Vars} {S₁ : SState ω}, (top = true → ∀ id, L' id = none) → (∀ id, S.vars id = none → S₁.vars id = none) →
        TopOk cfg top inl next L' S₁ := fun hL hS => tok.next hL fun _ id _ hn => hS id hn
    cases w with
    | node w1 w2 w3 =>
      have hs : SCode cfg R G f k ann stmt is k₁ := hs
      cases hs with
      | alias =>
        simp only [execT] at h
        exact SimPost.seq (Runs.goes .nil hcode) (.refl _) (ih.exec h hnext w3 ht (same tL fun _ h => h) hL hG)
      | @globalConst _ id e v _ x n' _ s1 s2 s3 s4 s5 s6 s7 =>
        obtain ⟨_, _, _, _, _, rfl⟩ := s7
        have htop : top = true := ht.2 rfl
        simp only [execT] at h
        split at h
        · rename_i w S₁ he
          rw [if_pos htop] at h
          have kk := (keepAt n).expr he
          cases w1 with
          | varDef a1 a2 a3 a4 a5 a6 a7 a8 a9 a10 =>
            obtain ⟨regs₁, m₁, r1, o1, u1, _, s1', g1, f1⟩ := ih.expr he s2 a9 hL hG (f := 0)
            have hcst : v.isConst = true ∨ S₁.vars id = none := by
              obtain ⟨q1, q2, q3, q4⟩ := tok htop
              cases inl with
              | false => exact .inr (kk id trivial (q4 rfl id (by simp [inits])))
              | true =>
                have hlit := const_literal hl s2 s3 he (tL htop) (by
                  intro i hi
                  obtain ⟨u, hu⟩ := Option.ne_none_iff_exists'.1 hi
                  exact (hG.glob i u hu).choose_spec.2.1)
                refine .inl (q1.1 id e _ v rfl a1 ?_ rfl hlit)
                unfold LCfg.var at s1
                rw [a1] at s1
                simp only [a2] at s1
                cases s1
                exact a2
            have g2 := g1.constant s1 s4 s5 hcst s6 (v := w) (const_of_operand o1 s3)
            refine SimPost.seq (r1.goes hcode) (f1.mono hL.base) (ih.exec h hnext w3 ht (inl := inl) ?_ ((hL.keep s1' f1).mono s2.straight.le) g2)
            refine tok.next tL fun _ i hi hn => ?_
            have : i ≠ id := by rintro rfl; exact nodup_var (tok htop).2.1 hi
            exact (Vars.set_other this).trans (kk i trivial hn)
        · cases h
      | @global _ id e v is x n' _ s1 s2 s3 s4 s5 s6 s7 =>
        obtain ⟨_, _, _, _, _, rfl⟩ := s7
        have htop : top = true := ht.2 rfl
        simp only [execT] at h
        split at h
        · rename_i w S₁ he
          rw [if_pos htop] at h
          have kk := (keepAt n).expr he
          cases w1 with
          | varDef a1 a2 a3 a4 a5 a6 a7 a8 a9 a10 =>
            obtain ⟨regs₁, m₁, r1, o1, u1, _, s1', g1, f1⟩ := ih.expr he s2 a9 hL hG (f := 0)
            have g2 := g1.store hl.inj (v := w) s4 s5 (by
              intro var d _ _ hd
              rw [s6] at hd
              cases hd
              rfl)
            have f2 : Framed m₁.next m₁ { m₁ with glob := fun i => if i = k.glob then some (.val w) else m₁.glob i } :=
              ⟨fun _ _ => rfl, Nat.le_refl _⟩
            have r2 : Runs F c.ext M 0 ps [.store x.val (.global k.glob)] regs₁ m₁ regs₁
                { m₁ with glob := fun i => if i = k.glob then some (.val w) else m₁.glob i } := .one (by
              have o2 : operand regs₁ ps (.global k.glob) = some (.global k.glob) := rfl
              simp only [step, o1, o2, Mem.write])
            refine SimPost.seq ((r1.append r2).goes hcode) ((f1.trans' f2).mono hL.base) (ih.exec h hnext w3 ht (inl := inl) ?_
              (((hL.keep s1' (f1.trans' f2)).mono s2.straight.le)) g2)
            refine tok.next tL fun _ i hi hn => ?_
            have : i ≠ id := by rintro rfl; exact nodup_var (tok htop).2.1 hi
            exact (Vars.set_other this).trans (kk i trivial hn)
        · cases h
      | @localMut _ _ id e v is x n' _ s0 s1 s2 s3 s4 s5 s6 =>
        obtain ⟨_, _, _, _, _, rfl⟩ := s6
        have htop : top ≠ true := fun h => s0 (ht.1 h)
        simp only [execT] at h
        split at h
        · rename_i w S₁ he
          rw [if_neg htop] at h
          cases w1 with
          | varDef a1 a2 a3 a4 a5 a6 a7 a8 a9 a10 =>
            obtain ⟨regs₁, m₁, r1, o1, u1, _, s1', g1, f1⟩ := ih.expr he s3 a9 hL hG (f := f)
            have hL1 := (hL.keep s1' f1).mono s3.straight.le
            have hL2 := hL1.alloc (v := w) s1 s2 s4 s5
            have r2 : Runs F c.ext M f ps [.alloca n' v.type, .store x.val (.reg n')] regs₁ m₁ (regs₁.set n' (.addr m₁.next))
                { m₁ with cells := fun i => if i = m₁.next then some (.val w) else m₁.cells i, next := m₁.next + 1 } := by
              refine Runs.append (is := [_]) (.one rfl) (.one ?_)
              have o2 : operand (regs₁.set n' (.addr m₁.next)) ps x.val = some (.val w) := by
                rw [operand_same u1 Regs.set_below]; exact o1
              have o3 : operand (regs₁.set n' (.addr m₁.next)) ps (.reg n') = some (.addr m₁.next) := Regs.set_same
              simp only [step, o2, o3, Mem.write]
              rw [if_pos (Nat.lt_succ_self _)]
              simp only [Option.some.injEq, Prod.mk.injEq, true_and, Mem.mk.injEq, and_true]
              funext i
              split <;> rfl
            have f2 : Framed m₁.next m₁ { m₁ with cells := fun i => if i = m₁.next then some (.val w) else m₁.cells i, next := m₁.next + 1 } :=
              ⟨fun a ha => if_neg (by omega), Nat.le_succ _⟩
            exact SimPost.seq ((r1.append r2).goes hcode) ((f1.trans' f2).mono hL.base) (ih.exec h hnext w3 ht
              (fun h => absurd h htop) (inl := inl) hL2 ⟨g1.world, g1.glob, g1.init⟩)
        · cases h
      | noop hd =>
        simp only [execT] at h
        have r0 : Runs F c.ext M f ps [.alloca k.reg (.prim .int), .store (.int 0) (.reg k.reg)] regs m (regs.set k.reg (.addr m.next))
            { m with cells := fun i => if i = m.next then some (.val (.int 0)) else m.cells i, next := m.next + 1 } :=
          alloc_run (v := .int 0) rfl
        have f0 : Framed m.next m { m with cells := fun i => if i = m.next then some (.val (.int 0)) else m.cells i, next := m.next + 1 } :=
          ⟨fun a ha => if_neg (by omega), Nat.le_succ _⟩
        exact SimPost.seq (r0.goes hcode) (f0.mono hL.base) (ih.exec h hnext w3 ht (same tL fun _ h => h)
          ((hL.keep (fun r hr => Regs.set_below r hr) f0).mono (Nat.le_succ _)) ⟨hG.world, hG.glob, hG.init⟩)
      | @localConst _ _ id e v _ x n' _ s0 s1 s2 s3 s4 s5 s6 =>
        obtain ⟨_, _, _, _, _, rfl⟩ := s6
        have htop : top ≠ true := fun h => s0 (ht.1 h)
        simp only [execT] at h
        split at h
        · rename_i w S₁ he
          rw [if_neg htop] at h
          cases w1 with
          | varDef a1 a2 a3 a4 a5 a6 a7 a8 a9 a10 =>
            obtain ⟨regs₁, m₁, r1, o1, u1, _, s1', g1, f1⟩ := ih.expr he s3 a9 hL hG (f := f)
            have hL1 := (hL.keep s1' f1).mono s3.straight.le
            exact SimPost.seq (r1.goes hcode) (f1.mono hL.base) (ih.exec h hnext w3 ht
              (fun h => absurd h htop) (inl := inl) (hL1.constant s1 s2 s4 s5 u1 o1) g1)
        · cases h
      | @assign _ _ id e v is x n' r _ s1 s2 s3 s4 =>
        simp only [execT] at h
        split at h
        · rename_i w S₁ he
          have kk := (keepAt n).expr he
          cases w1 with
          | assign a1 a2 a3 a4 a5 a6 a7 =>
            obtain ⟨regs₁, m₁, r1, o1, u1, _, s1', g1, f1⟩ := ih.expr he s3 a7 hL hG (f := f)
            have hL1 := (hL.keep s1' f1).mono s3.straight.le
            split at h
            · rename_i hsome
              obtain ⟨old, hold⟩ := Option.isSome_iff_exists.1 hsome
              have htop : top ≠ true := fun h => by rw [tL h] at hold; cases hold
              obtain ⟨var', r', b1, b2, b3, b4, b5, b6⟩ := hL1.loc id old hold
              rw [s1] at b1
              cases b1
              rw [s4] at b2
              cases b2
              obtain ⟨rr, a, rfl, b7, b8, b9, b10⟩ := b6 s2
              have r2 : Runs F c.ext M f ps [.store x.val (.reg rr)] regs₁ m₁ regs₁
                  { m₁ with cells := fun i => if i = a then some (.val w) else m₁.cells i } := .one (by
                have o2 : operand regs₁ ps (.reg rr) = some (.addr a) := b7
                simp only [step, o1, o2, Mem.write, if_pos b9])
              have f2 : Framed base m₁ { m₁ with cells := fun i => if i = a then some (.val w) else m₁.cells i } :=
                ⟨fun i hi => if_neg (by omega), Nat.le_refl _⟩
              exact SimPost.seq ((r1.append r2).goes hcode) ((f1.mono hL.base).trans f2) (ih.exec h hnext w3 ht
                (fun h => absurd h htop) (inl := inl) (hL1.assign s1 s2 hold s4 b7) ⟨g1.world, g1.glob, g1.init⟩)
            · split at h
              · rename_i hsome
                obtain ⟨old, hold⟩ := Option.isSome_iff_exists.1 hsome
                obtain ⟨g, b1, b2, b3⟩ := g1.glob id old hold
                rw [s4] at b1
                cases b1
                have g2 := g1.store hl.inj (v := w) s4 b2 (by
                  intro var d hv hc _
                  rw [s1] at hv
                  cases hv
                  rw [var_const a1 a2 s1, a4] at hc
                  cases hc)
                have f2 : Framed m₁.next m₁ { m₁ with glob := fun i => if i = g then some (.val w) else m₁.glob i } :=
                  ⟨fun _ _ => rfl, Nat.le_refl _⟩
                have r2 : Runs F c.ext M f ps [.store x.val (.global g)] regs₁ m₁ regs₁
                    { m₁ with glob := fun i => if i = g then some (.val w) else m₁.glob i } := .one (by
                  have o2 : operand regs₁ ps (.global g) = some (.global g) := rfl
                  simp only [step, o1, o2, Mem.write])
                refine SimPost.seq ((r1.append r2).goes hcode) ((f1.trans' f2).mono hL.base) (ih.exec h hnext w3 ht (inl := inl) ?_
                  (((hL.keep s1' (f1.trans' f2)).mono s3.straight.le)) g2)
                refine tok.next tL fun _ i hi hn => ?_
                have hi' := kk i trivial hn
                have : i ≠ id := by rintro rfl; rw [hi'] at hold; cases hold
                exact (Vars.set_other this).trans hi'
              · cases h
        · cases h
      | @call _ _ t args id ty _ x n' _ s1 =>
        simp only [execT] at h
        split at h
        · split at h
          · rename_i w S₁ he
            have kk := (keepAt n).expr he
            cases w1 with
            | call a1 =>
              obtain ⟨regs₁, m₁, r1, o1, u1, _, s1', g1, f1⟩ := ih.expr he s1 a1 hL hG (f := f)
              have hL1 := (hL.keep s1' f1).mono s1.straight.le
              exact SimPost.seq (r1.goes hcode) (f1.mono hL.base) (ih.exec h hnext w3 ht (same tL fun i hn => kk i trivial hn) hL1 g1)
          · cases h
        · cases h
      | quiet hq =>
        rcases hq with rfl | rfl | rfl
        all_goals
          simp only [execT] at h
          exact SimPost.seq (Runs.goes .nil hcode) (.refl _) (ih.exec h hnext w3 ht (same tL fun _ h => h) hL hG)
  | stop hst hs hcode =>
    have hs : StopCode cfg R f k _ _ _ _ := hs
    cases w with
    | node w1 w2 w3 =>
      cases hs with
      | retVoid =>
        simp only [execT] at h
        cases h
        obtain ⟨code, rest, h1, h2, _⟩ := CodeAt.drop hcode
        exact ⟨m, ⟨code, h1, by rw [h2]; exact .retVoid⟩, hG, .refl _⟩
      | ret s1 =>
        simp only [execT] at h
        split at h
        · rename_i v S₁ he
          cases h
          cases w1 with
          | retValue _ a1 =>
            obtain ⟨regs₁, m₁, r1, o1, u1, _, s1', g1, f1⟩ := ih.expr he s1 a1 hL hG (f := f)
            obtain ⟨code, rest, h1, h2, _⟩ := CodeAt.drop hcode
            refine ⟨m₁, ⟨code, h1, ?_⟩, g1, f1.mono hL.base⟩
            rw [h2, List.append_assoc]
            exact r1 _ _ _ (.ret o1)
        · cases h
      | unreachable =>
        simp only [execT] at h
        cases h
  | breaks hcode =>
    simp only [execT] at h
    cases h
    exact ⟨_, _, regs, m, _, rfl, goesBr hcode, hL, hG, .refl _⟩
  | continues hcode =>
    simp only [execT] at h
    cases h
    exact ⟨_, _, regs, m, _, rfl, goesBr hcode, hL, hG, .refl _⟩
  | @whiles _ _ _ _ cond is v k₁ x a b d ann tk child next e₁ q₁ k₂ _ _ _ ha hb hc hcode hbody hback hnext =>
    subst ha
    simp only [execT] at h
    cases w with
    | node w1 w2 w3 =>
      cases w1 with
      | whiles a1 =>
        have hk : k.reg ≤ k₂.reg := by
          obtain ⟨x, N', hx, rfl, rfl⟩ := hc
          exact Nat.le_trans hx.straight.le (Laid.mono hbody)
        split at h
        · rename_i L₁ S₁ he
          have kk := (keepAt n).loop he
          obtain ⟨⟨_, tL₁, regs₁, m₁, go, hL₁, hG₁, hF⟩, _⟩ := ih.loop he hc hcode hbody hback a1 w2 ht tok.loop hL hG (loop' := none)
          refine SimPost.seq ((goesBr hb).trans go) hF (ih.exec h hnext w3 ht (inl := inl) ?_ (hL₁.mono hk) hG₁)
          exact tok.next tL₁ fun htop i hi hn => kk i (.inr fun hc => nodup_disjoint (tok htop).2.1 i hc hi) hn
        · rename_i hne
          obtain ⟨p1, p2⟩ := ih.loop h hc hcode hbody hback a1 w2 ht tok.loop hL hG (loop' := none)
          cases o with
          | normal L' => exact absurd h (hne L' S')
          | broke L' => exact absurd rfl (p2 L').1
          | continued L' => exact absurd rfl (p2 L').2
          | returned v => exact SimPost.seq (goesBr hb) (.refl _) p1
  | @ifs _ _ _ _ cond x b fin ann tk child next e₁ q₁ k₁ _ _ _ ha hbody hbr hnext =>
    subst ha
    simp only [execT] at h
    cases w with
    | node w1 w2 w3 =>
      cases w1 with
      | ifs w4 =>
        obtain ⟨is, v, k₂, d, hc, hcode, hels⟩ := afterIf_split hnext
        obtain ⟨kt, hkt, htk⟩ := afterIf_taken hnext
        obtain ⟨x, N', hx, rfl, rfl⟩ := hc
        have hk2 := Laid.mono hbody
        split at h
        · rename_i S₁ he
          have kk := (keepAt n).expr he
          obtain ⟨regs₁, m₁, r1, o1, u1, _, s1, g1, f1⟩ := ih.expr he hx w4 (hL.mono hk2) hG (f := f)
          have go1 := r1.goesCond hcode o1
          simp only [if_true] at go1
          have hL1 : LocRel cfg R k.reg base L regs₁ ps m₁ := hL.keep (fun r hr => s1 r (Nat.lt_of_lt_of_le hr hk2)) f1
          obtain ⟨bf, w5⟩ := wt_afterChain w3
          have tn : TopOk cfg top inl next L S₁ := tok.next tL fun _ id _ hn => kk id trivial hn
          exact SimPost.seq go1 (f1.mono hL.base) (ih.andThen h hbody hbr (Nat.le_trans hk2 hkt) htk w2 w5 ht
            (tok.child rfl fun id hn => kk id trivial hn) tn.after
            (fun htop id hid hid' => nodup_disjoint (tok htop).2.1 id hid (afterChain_defs hid')) hL1 g1)
        · rename_i S₁ he
          have kk := (keepAt n).expr he
          obtain ⟨regs₁, m₁, r1, o1, u1, _, s1, g1, f1⟩ := ih.expr he hx w4 (hL.mono hk2) hG (f := f)
          have go1 := r1.goesCond hcode o1
          simp only [Bool.false_eq_true, if_false] at go1
          have tn : TopOk cfg top inl next L S₁ := tok.next tL fun _ id _ hn => kk id trivial hn
          exact SimPost.seq go1 (f1.mono hL.base) (ih.chain h hels w3 ht tn
            (((hL.mono hk2).keep s1 f1).mono hx.straight.le) g1)
        · cases h
  | elifs => cases harm
  | elses => cases harm
  | comment => cases harm
  | endIf => cases harm
  | external ha _ hnext =>
    subst ha
    simp only [execT] at h
    cases w with
    | node w1 w2 w3 => exact ih.exec h hnext w3 ht (tok.next tL fun _ _ _ h => h) hL hG
  | func ha _ hfun _ hbody _ hnext =>
    subst ha
    simp only [execT] at h
    obtain ⟨_, _, _, _, _, _, _, _, _, _, hk⟩ := hfun
    cases w with
    | node w1 w2 w3 =>
      exact ih.exec h hnext w3 ht (tok.next tL fun _ _ _ h => h) (hL.mono (Nat.le_trans hk.straight.1.le (Laid.mono hbody))) hG
  | @ns _ _ _ _ ann tk child next e₁ q₁ k₁ _ _ _ hbody hnext =>
    simp only [execT] at h
    cases w with
    | node w1 w2 w3 =>
      have tc : TopOk cfg top inl child L S := tok.child rfl fun _ h => h
      split at h
      · rename_i L₁ S₁ he
        have kk := (keepAt n).exec he
        obtain ⟨_, tL₁, regs₁, m₁, go, hL₁, hG₁, hF⟩ := ih.exec he hbody w2 ht tc hL hG
        refine SimPost.seq go hF (ih.exec h hnext w3 ht (inl := inl) ?_ hL₁ hG₁)
        exact tok.next tL₁ fun htop i hi hn => kk i (.inr fun hc => nodup_disjoint (tok htop).2.1 i hc hi) hn
      · rename_i hne
        have p1 := ih.exec h hbody w2 ht tc hL hG
        cases o with
        | normal L' => exact absurd h (hne L' S')
        | broke L' => exact p1
        | continued L' => exact p1
        | returned v => exact p1

/-- The code does what the interpreter does. -/
theorem simAt (hl : CodeOf cfg R G M F c) : ∀ n, SimAt cfg R G M F c n
  | 0 => by
    constructor <;> intros <;> simp only [evalE, evalA, callF, execT, andThen, loopW, reduceCtorEq] at *
  | n + 1 =>
    have ih := simAt hl n
    { expr := sim_expr hl ih
      args := sim_args ih
      call := sim_call hl ih
      exec := sim_exec hl ih
      chain := sim_chain ih (sim_exec hl ih)
      andThen := sim_andThen ih
      loop := sim_loop ih }

end
end Skull
