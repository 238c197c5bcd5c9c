import Verif.Proofs.LLaid
import Verif.Proofs.Defs
/-
The code of a whole program is laid out as `LaidProgram` says.
-/
namespace Skull
open Spec

theorem setupL_ok (name : List Char) : StateOk (setupL name) :=
  ⟨⟨fun _ => rfl, fun _ => rfl⟩, rfl, by simp [setupL], rfl, ⟨[], rfl⟩⟩

theorem setupL_fresh {name : List Char} {ds : List Nat} (h : 0 ∉ ds) : Fresh ds (setupL name) := by
  intro id hid
  refine ⟨rfl, ?_, rfl, rfl⟩
  show (if id = 0 then some 0 else none) = none
  rw [if_neg]
  rintro rfl
  exact h hid

/-- Generating a module: the statements, and a `ret` if they did not end. -/
theorem codegenL_run {cfg name t s} (h : codegenL cfg name t = some s) :
    ∃ r s₁, GenRun cfg .stmts t (setupL name) r s₁ ∧
      ((r.isSome = true ∧ s = s₁) ∨ (r = none ∧ s = s₁.gen [.ret (.int 0)] s₁.nextReg)) := by
  unfold codegenL at h
  obtain ⟨⟨u, s'⟩, h', rfl⟩ := Option.map_eq_some_iff.1 h
  unfold genModuleL at h'
  obtain ⟨r, s₁, h1, h2⟩ := LGen.bind_eq.1 h'
  refine ⟨r, s₁, gen_run h1, ?_⟩
  cases r with
  | none => exact .inr ⟨rfl, (emit_eq.1 h2)⟩
  | some x => exact .inl ⟨rfl, (LGen.pure_eq.1 h2).2.symm⟩

theorem LExt.self (s : LState) : LExt s s.funcs s.env s.globals :=
  ⟨fun _ _ code h => ⟨[], by rw [List.append_nil]; exact h⟩, .refl _, fun _ _ h => h, .refl _⟩

/-- The code of a program is laid out. -/
theorem codegenL_laid {cfg name t s} (h : codegenL cfg name t = some s) (hn : t.defs.Nodup) (h0 : 0 ∉ t.defs)
    (ha : AssignsOk cfg t) (hj : JumpsOk false t) : LaidProgram (piecesL cfg s.env s.globals s.funcs) s.funcs ⟨0, 0⟩ t := by
  obtain ⟨r, s₁, h1, h2⟩ := codegenL_run h
  have hs := setupL_ok name
  have hf := setupL_fresh (name := name) h0
  have fr := gen_frame h1 hn hf ha hs trivial
  have ext : LExt s₁ s.funcs s.env s.globals := by
    rcases h2 with ⟨_, rfl⟩ | ⟨_, rfl⟩
    · exact .self _
    · exact (LExt.self _).gen_back (Nat.le_refl _)
  have laid := gen_laid h1 hn hf ha hs trivial ext (loop := none) (ok := false) hj .no
  refine ⟨r.isSome, s₁.place, s₁.mark, laid, fun hr => ?_⟩
  rcases h2 with ⟨h2, _⟩ | ⟨_, rfl⟩
  · rw [hr] at h2; cases h2
  · have := codeAt_gen (s := s₁) (M := (s₁.gen [.ret (.int 0)] s₁.nextReg).funcs) fr.cur (.self _)
    rw [fr.fn] at this
    exact this

/-- Checked programs assign to no constant. -/
theorem wt_assigns {cfg : LCfg} : ∀ {t : ATree} {loop before}, WtTree cfg.syms loop before t → AssignsOk cfg t
  | .nil, _, _, _ => trivial
  | .unchecked _, _, _, _ => trivial
  | .node ann stmt tok child next, _, _, h => by
    cases h with
    | node h1 h2 h3 =>
      refine ⟨?_, wt_assigns h2, wt_assigns h3⟩
      rintro id e v rfl hv
      cases h1 with
      | assign hs hk hn hc =>
        unfold LCfg.var at hv
        rw [hs] at hv
        simp only [hk] at hv
        cases hv
        exact hc

/-- The code of an accepted program is laid out. -/
theorem accepted_laid {scfg : Cfg} {cfg : LCfg} {name} {t : Tree} {a : ATree} {ss : SS} {s : LState} (hp : Parsed t)
    (hs : semantic scfg t = .ok a ss) (hc : cfg.syms = ss.syms) (h : codegenL cfg name a = some s) (hj : JumpsOk false a) :
    LaidProgram (piecesL cfg s.env s.globals s.funcs) s.funcs ⟨0, 0⟩ a := by
  obtain ⟨hn, h0⟩ := semantic_defs hp hs
  obtain ⟨_, w⟩ := semantic_wt hp hs
  rw [← hc] at w
  exact codegenL_laid h hn h0 (wt_assigns w) hj

end Skull
