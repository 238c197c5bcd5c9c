import Verif.Proofs.LSimMain
import Verif.Proofs.LGlobs
/-
Running the code of a program does what the interpreter does.
-/
namespace Skull
open Spec

section
variable {ω : Type} {cfg : LCfg} {R : LEnv} {G : List LGlobal} {M : List LFunc} {F : Floats} {c : RunCtx ω}

theorem quiet_decls {syms} : ∀ {t : ATree} {il before}, Spec.Quiet t → WtTree syms il before t → decls t = []
  | .nil, _, _, _, _ => rfl
  | .unchecked _, _, _, h, _ => h.elim
  | .node ann stmt tok child next, _, _, ⟨h1, h2⟩, .node w1 w2 w3 => by
    have ih := quiet_decls h2 w3
    rcases h1 with rfl | rfl | rfl <;> cases w1 <;> simp [decls, ih]

theorem decls_other {ann stmt tok child next} (h : ∀ id ps, ann ≠ .func id ps) :
    decls (.node ann stmt tok child next) = decls child ++ decls next := by
  cases ann with
  | func id ps => exact absurd rfl (h id ps)
  | _ => rfl

theorem cfg_func {id sym f} (h1 : cfg.syms[id]? = some sym) (h2 : sym.kind = .func f) : cfg.func id = some (sym, f) := by
  unfold LCfg.func
  rw [h1]
  simp only [h2]

/-- The functions of a program are where the generator says. -/
theorem laid_decls {f loop arm p k t e q k'} (h : Laid (piecesL cfg R G M) M f loop arm p k t e q k') :
    ∀ {il before}, WtTree cfg.syms il before t → ∀ id ps body, (id, ps, body) ∈ decls t → DeclOk cfg R G M id ps body := by
  have both : ∀ {ann stmt tok child next id ps body}, (∀ id ps, ann ≠ .func id ps) →
      (id, ps, body) ∈ decls (.node ann stmt tok child next) → (id, ps, body) ∈ decls child ∨ (id, ps, body) ∈ decls next := by
    intro ann stmt tok child next id ps body ha hm
    rw [decls_other ha] at hm
    exact List.mem_append.1 hm
  induction h with
  | nil => intro _ _ _ _ _ _ h; cases h
  | @plain _ _ _ _ ann stmt tok child next is k₁ _ _ _ hp hs _ _ ih =>
    intro il before w id ps body hm
    cases w with
    | node w1 w2 w3 =>
      have ha : ∀ id ps, ann ≠ .func id ps := by rintro id ps rfl; cases w1; cases hp
      rcases both ha hm with hm | hm
      · have hc : decls child = [] := by
          cases w1 with
          | call _ hc => rcases hc with rfl | ⟨_, rfl⟩ <;> rfl
          | _ => first | rfl | cases hp
        rw [hc] at hm
        cases hm
      · exact ih w3 id ps body hm
  | @stop _ _ _ _ ann stmt tok child next is k₁ hst hs _ =>
    intro il before w id ps body hm
    cases w with
    | node w1 w2 w3 =>
      have ha : ∀ id ps, ann ≠ .func id ps := by
        rintro id ps rfl
        cases w1
        rcases hst with ⟨_, h⟩ | h <;> cases h
      have : decls child = [] ∧ Spec.Quiet next := by
        rcases hst with ⟨_, rfl⟩ | rfl
        · cases w1 with
          | ret h => exact ⟨rfl, h⟩
          | retValue _ _ h => exact ⟨rfl, h⟩
          | other h => rcases h with h | h | h | h <;> cases h
        · cases w1 with
          | unreachable h => exact ⟨rfl, h⟩
          | other h => rcases h with h | h | h | h <;> cases h
      rcases both ha hm with hm | hm
      · rw [this.1] at hm; cases hm
      · rw [quiet_decls this.2 w3] at hm; cases hm
  | breaks =>
    intro il before w id ps body hm
    cases w with
    | node w1 w2 w3 =>
      cases w1 with
      | breaks _ hq =>
        rcases both (by simp) hm with hm | hm
        · cases hm
        · rw [quiet_decls hq w3] at hm; cases hm
      | other h => rcases h with h | h | h | h <;> cases h
  | continues =>
    intro il before w id ps body hm
    cases w with
    | node w1 w2 w3 =>
      cases w1 with
      | continues _ hq =>
        rcases both (by simp) hm with hm | hm
        · cases hm
        · rw [quiet_decls hq w3] at hm; cases hm
      | other h => rcases h with h | h | h | h <;> cases h
  | whiles ha _ _ _ _ _ _ ih1 ih2 =>
    intro il before w id ps body hm
    subst ha
    cases w with
    | node w1 w2 w3 => exact (both (by simp) hm).elim (ih1 w2 id ps body) (ih2 w3 id ps body)
  | ifs ha _ _ _ ih1 ih2 =>
    intro il before w id ps body hm
    subst ha
    cases w with
    | node w1 w2 w3 => exact (both (by simp) hm).elim (ih1 w2 id ps body) (ih2 w3 id ps body)
  | elifs ha _ _ _ _ _ ih1 ih2 =>
    intro il before w id ps body hm
    subst ha
    cases w with
    | node w1 w2 w3 => exact (both (by simp) hm).elim (ih1 w2 id ps body) (ih2 w3 id ps body)
  | @elses _ _ _ _ _ _ _ _ _ _ _ ann _ _ _ _ _ _ _ _ _ _ _ _ _ _ ih1 ih2 =>
    intro il before w id ps body hm
    cases w with
    | node w1 w2 w3 =>
      have ha : ∀ id ps, ann ≠ .func id ps := by rintro id ps rfl; cases w1
      exact (both ha hm).elim (ih1 w2 id ps body) (ih2 w3 id ps body)
  | @comment _ _ _ _ _ _ _ ann _ _ _ _ _ _ _ ih =>
    intro il before w id ps body hm
    cases w with
    | node w1 w2 w3 =>
      cases w1 with
      | other =>
        rcases both (by simp) hm with hm | hm
        · cases hm
        · exact ih w3 id ps body hm
  | endIf _ _ _ _ ih => exact ih
  | external ha he _ ih =>
    intro il before w id ps body hm
    subst ha
    cases w with
    | node w1 w2 w3 =>
      cases w1 with
      | func b1 b2 b3 b4 b5 b6 b7 b8 b9 =>
        have hfn := cfg_func b1 b2
        simp only [decls, List.mem_cons, List.mem_append] at hm
        rcases hm with hm | hm | hm
        · cases hm
          exact .inl ⟨he, _, _, hfn, b7⟩
        · obtain ⟨_, fn, _, _, h1, h2, _⟩ := he
          rw [hfn] at h1
          cases h1
          rw [← b3, h2] at hm
          cases hm
        · exact ih w3 id ps body hm
  | func ha hne hfun hentry hbody hret _ ih1 ih2 =>
    intro il before w id ps body hm
    subst ha
    cases w with
    | node w1 w2 w3 =>
      cases w1 with
      | func b1 b2 b3 b4 b5 b6 b7 b8 b9 =>
        have hfn := cfg_func b1 b2
        simp only [decls, List.mem_cons, List.mem_append] at hm
        rcases hm with hm | hm | hm
        · cases hm
          refine .inr ⟨_, _, _, _, _, _, _, hne, hfun, hentry, hbody, hret, w2, ?_, _, _, hfn, b7, b6⟩
          intro p hp
          obtain ⟨i, hi⟩ := List.getElem?_of_mem hp
          have hlt : i < _ := (List.getElem?_eq_some_iff.1 hi).1
          rw [b7, b6] at hlt
          obtain ⟨sym, v, d1, d2, d3, d4, _⟩ := b8 i p _ hi (List.getElem?_eq_getElem hlt)
          refine ⟨v, ?_, d4⟩
          unfold LCfg.var
          rw [d1]
          simp only [d2]
        · split at hm
          · cases hm
          · exact ih1 w2 id ps body hm
        · exact ih2 w3 id ps body hm
  | @ns _ _ _ _ ann _ _ _ _ _ _ _ _ _ _ _ ih1 ih2 =>
    intro il before w id ps body hm
    cases w with
    | node w1 w2 w3 =>
      have ha : ∀ id ps, ann ≠ .func id ps := by rintro id ps rfl; cases w1
      exact (both ha hm).elim (ih1 w2 id ps body) (ih2 w3 id ps body)

theorem init_glob (w : ω) : GlobRel cfg R G ⟨fun _ => none, w⟩ (initMem G w) := by
  refine ⟨rfl, fun _ _ h => (by cases h), ?_⟩
  intro id g var d v _ _ _ _ hd hv
  simp only [initMem, hd, Option.bind_some, hv, Option.map_some]

theorem init_loc (m : Mem ω) (regs ps k) : LocRel cfg R k m.next (fun _ => none) regs ps m :=
  ⟨fun _ _ h => (by cases h), fun _ _ _ _ _ h => absurd rfl h, Nat.le_refl _⟩

/-- The code of a program does what the program does. -/
theorem program_sim {n w i w'} (hl : CodeOf cfg R G M F c) (laid : LaidProgram (piecesL cfg R G M) M ⟨0, 0⟩ c.prog)
    (wt : WtTree cfg.syms false [] c.prog) (hn : c.prog.defs.Nodup) (hi : NoLoopInit cfg.syms false c.prog)
    (hm : ∃ x, M[0]? = some x ∧ x.params = [] ∧ x.ret = .prim .int) (h : runProgram c n w = some (i, w')) : RunsTo F c.ext M G w i w' := by
  obtain ⟨e, q, k', hlaid, hret⟩ := laid
  obtain ⟨x, hx, hpar, hty⟩ := hm
  have done : ∀ {v m'}, RunAt F c.ext M 0 (start 0) (fun _ => none) [] (initMem G w) (some v) m' → ICall F c.ext M 0 [] (initMem G w) (.val v) m' := by
    rintro v m' ⟨code, h1, h2⟩
    exact .value hx (by rw [hpar]; rfl) (by rw [hty]; simp) h1 h2
  unfold runProgram at h
  have sim : ∀ {o S'}, execT c n true false c.prog (fun _ => none) ⟨fun _ => none, w⟩ = some (o, S') →
      SimPost cfg R G M F c 0 none e (start 0) q k'.reg 0 true [] (fun _ => none) (initMem G w) S' o := fun he =>
    (simAt hl n).exec he hlaid wt ⟨fun _ => rfl, fun _ => rfl⟩ (inl := false) (fun _ => ⟨hi, hn, fun _ => rfl, fun _ _ _ => rfl⟩)
      (init_loc (initMem G w) _ _ _) (init_glob w)
  split at h
  · rename_i L S he
    cases h
    obtain ⟨he1, _, regs', m', go, _, hG, _⟩ := sim he
    obtain ⟨code, rest, h1, h2, _⟩ := CodeAt.drop (hret he1)
    refine ⟨m', done (go _ _ ⟨code, h1, ?_⟩), hG.world⟩
    rw [h2]
    exact .ret rfl
  · rename_i i S he
    cases h
    obtain ⟨m', hrun, hG, _⟩ := sim he
    exact ⟨m', done hrun, hG.world⟩
  · cases h

end

/-- The main function. -/
theorem codegenL_main {cfg name t s} (h : codegenL cfg name t = some s) (hn : t.defs.Nodup) (h0 : 0 ∉ t.defs) (ha : AssignsOk cfg t) :
    ∃ x, s.funcs[0]? = some x ∧ x.params = [] ∧ x.ret = .prim .int := by
  obtain ⟨r, s₁, h1, h2⟩ := codegenL_run h
  have fr := gen_frame h1 hn (setupL_fresh (name := name) h0) ha (setupL_ok name) trivial
  have hh : Heads (setupL name).funcs s.funcs := by
    rcases h2 with ⟨_, rfl⟩ | ⟨_, rfl⟩
    · exact fr.heads
    · exact (fr.emit _ (Nat.le_refl _)).heads
  obtain ⟨y, h3, h4, _⟩ := hh 0 _ rfl
  refine ⟨y, h3, ?_, ?_⟩
  · exact (congrArg LFunc.params h4)
  · exact (congrArg LFunc.ret h4)

/-- The code of an accepted program does what the program does. -/
theorem accepted_runs {ω : Type} {scfg : Cfg} {cfg : LCfg} {name} {t : Tree} {a : ATree} {ss : SS} {s : LState} {F : Floats}
    {ext : List Char → List Val → ω → Option (Val × ω)} {n w i w'} (hp : Parsed t) (hs : semantic scfg t = .ok a ss) (hc : cfg.syms = ss.syms)
    (h : codegenL cfg name a = some s) (hj : JumpsOk false a) (hf : FoldSound F cfg.fold) (hi : NoLoopInit ss.syms false a)
    (hr : runProgram ⟨safeArith F, ext, ss.syms, a⟩ n w = some (i, w')) : RunsTo F ext s.funcs s.globals w i w' := by
  obtain ⟨hn, h0⟩ := semantic_defs hp hs
  obtain ⟨_, wt⟩ := semantic_wt hp hs
  rw [← hc] at wt hi
  have laid := accepted_laid hp hs hc h hj
  have gl := codegenL_globs h (wt_assigns wt)
  have hl : CodeOf cfg s.env s.globals s.funcs F (⟨safeArith F, ext, ss.syms, a⟩ : RunCtx ω) := by
    refine ⟨hc.symm, rfl, hf, fun i j g h1 h2 h3 h4 => gl.inj i j g ⟨h1, h3⟩ ⟨h2, h4⟩, ?_⟩
    obtain ⟨e, q, k', hlaid, _⟩ := laid
    exact laid_decls hlaid wt
  exact program_sim hl laid wt hn hi (codegenL_main h hn h0 (wt_assigns wt)) hr

end Skull
