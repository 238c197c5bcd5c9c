import Verif.Spec.Machine
/-
LLVM code has at most one result.
-/
namespace Skull
open Spec

section
variable {ω : Type} {F : Floats} {ext : List Char → List Val → ω → Option (Val × ω)} {M : List LFunc}

theorem step_jump {ps regs} {m : Mem ω} {i x} (h : step F ps regs m i = some x) : i.isTerm = false ∧ ∀ r g args, i ≠ .call r g args := by
  cases i <;> simp only [step, reduceCtorEq] at h <;> exact ⟨rfl, by simp⟩

theorem no_block {g x b} (h : M[g]? = some x) (hb : x.blocks = []) : blockOf M g b = none := by
  unfold blockOf
  rw [h]
  simp [hb]

theorem map_val_inj : ∀ {vs vs' : List Val}, vs.map MVal.val = vs'.map MVal.val → vs = vs'
  | [], [], _ => rfl
  | [], _ :: _, h => by cases h
  | _ :: _, [], h => by cases h
  | v :: vs, v' :: vs', h => by
    simp only [List.map_cons, List.cons.injEq, MVal.val.injEq] at h
    rw [h.1, map_val_inj h.2]

mutual
theorem irun_det : ∀ {f code regs ps m v m'} (_ : IRun F ext M f code regs ps m v m') {v' m''}, IRun F ext M f code regs ps m v' m'' →
    v = v' ∧ m' = m''
  | _, _, _, _, _, _, _, .step h1 h2, _, _, h => by
    cases h with
    | step g1 g2 =>
      rw [h1] at g1
      cases g1
      exact irun_det h2 g2
    | call => cases h1
    | br => cases h1
    | condBr => cases h1
    | ret => cases h1
    | retVoid => cases h1
  | _, _, _, _, _, _, _, .call h1 h2 h3, _, _, h => by
    cases h with
    | step g1 => cases g1
    | call g1 g2 g3 =>
      rw [h1] at g1
      cases g1
      obtain ⟨rfl, rfl⟩ := icall_det h2 g2
      exact irun_det h3 g3
  | _, _, _, _, _, _, _, .br h1 h2, _, _, h => by
    cases h with
    | step g1 => cases g1
    | br g1 g2 =>
      rw [h1] at g1
      cases g1
      exact irun_det h2 g2
  | _, _, _, _, _, _, _, .condBr h1 h2 h3, _, _, h => by
    cases h with
    | step g1 => cases g1
    | condBr g1 g2 g3 =>
      rw [h1] at g1
      cases g1
      rw [h2] at g2
      cases g2
      exact irun_det h3 g3
  | _, _, _, _, _, _, _, .ret h1, _, _, h => by
    cases h with
    | step g1 => cases g1
    | ret g1 =>
      rw [h1] at g1
      cases g1
      exact ⟨rfl, rfl⟩
  | _, _, _, _, _, _, _, .retVoid, _, _, h => by
    cases h with
    | step g1 => cases g1
    | retVoid => exact ⟨rfl, rfl⟩
theorem icall_det : ∀ {g vs m x m'} (_ : ICall F ext M g vs m x m') {x' m''}, ICall F ext M g vs m x' m'' → x = x' ∧ m' = m''
  | _, vs0, _, _, _, .value h1 h2 h3 h4 h5, _, _, h => by
    generalize hv : vs0 = vs at h
    cases h with
    | value g1 g2 g3 g4 g5 =>
      cases hv
      rw [h4] at g4
      cases g4
      obtain ⟨h6, h7⟩ := irun_det h5 g5
      cases h6
      exact ⟨rfl, h7⟩
    | void g1 g2 g3 => rw [h1] at g1; cases g1; exact absurd g3 h3
    | external g1 g2 => rw [no_block g1 g2] at h4; cases h4
  | _, vs0, _, _, _, .void h1 h2 h3 h4 h5, _, _, h => by
    generalize hv : vs0 = vs at h
    cases h with
    | value g1 g2 g3 => rw [h1] at g1; cases g1; exact absurd h3 g3
    | void g1 g2 g3 g4 g5 =>
      cases hv
      rw [h4] at g4
      cases g4
      obtain ⟨h6, h7⟩ := irun_det h5 g5
      exact ⟨rfl, h7⟩
    | external g1 g2 => rw [no_block g1 g2] at h4; cases h4
  | _, _, _, _, _, .external h1 h2 h3, _, _, h => by
    generalize hv : List.map MVal.val (_ : List Val) = vs at h
    cases h with
    | value g1 g2 g3 g4 => rw [no_block h1 h2] at g4; cases g4
    | void g1 g2 g3 g4 => rw [no_block h1 h2] at g4; cases g4
    | external g1 g2 g3 =>
      rw [h1] at g1
      cases g1
      cases map_val_inj hv
      rw [h3] at g3
      cases g3
      exact ⟨rfl, rfl⟩
end

/-- The main function has at most one result. -/
theorem Spec.RunsTo.det {G : List LGlobal} {w i w' i' w''} (h : RunsTo F ext M G w i w') (h' : RunsTo F ext M G w i' w'') : i = i' ∧ w' = w'' := by
  obtain ⟨m, h1, rfl⟩ := h
  obtain ⟨m', h2, rfl⟩ := h'
  obtain ⟨h3, rfl⟩ := icall_det h1 h2
  cases h3
  exact ⟨rfl, rfl⟩

end
end Skull
