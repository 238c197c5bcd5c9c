import Verif.Proofs.LDet
/-
LLVM code can be run.
-/
namespace Skull
open Spec

section
variable {ω : Type} (F : Floats) (ext : List Char → List Val → ω → Option (Val × ω)) (M : List LFunc)

/-- The values of operands that are no addresses. -/
def plainVals : List MVal → Option (List Val)
  | [] => some []
  | .val v :: vs => (plainVals vs).map (v :: ·)
  | _ :: _ => none

mutual
/-- Running code, with the number of steps allowed. -/
def runIR : Nat → Nat → List LInstr → Regs → List MVal → Mem ω → Option (Option Val × Mem ω)
  | 0, _, _, _, _, _ => none
  | n + 1, f, code, regs, ps, m =>
    match code with
    | [] => none
    | i :: rest =>
      match i with
      | .call r g args =>
        match operands regs ps args with
        | some vs => match callIR n g vs m with | some (x, m) => runIR n f rest (regs.set r x) ps m | none => none
        | none => none
      | .br (some b) => match blockOf M f b with | some code => runIR n f code regs ps m | none => none
      | .condBr c t e =>
        match operand regs ps c with
        | some (.val (.bool b)) => match blockOf M f (if b then t else e) with | some code => runIR n f code regs ps m | none => none
        | _ => none
      | .ret c => match operand regs ps c with | some (.val v) => some (some v, m) | _ => none
      | .retVoid => some (none, m)
      | i => match step F ps regs m i with | some (regs, m) => runIR n f rest regs ps m | none => none
/-- A call. -/
def callIR : Nat → Nat → List MVal → Mem ω → Option (MVal × Mem ω)
  | 0, _, _, _ => none
  | n + 1, g, vs, m =>
    match M[g]? with
    | none => none
    | some x =>
      match x.blocks with
      | [] =>
        match plainVals vs with
        | some us => match ext x.name us m.world with | some (v, w) => some (.val v, { m with world := w }) | none => none
        | none => none
      | code :: _ =>
        if x.params.length = vs.length then
          match runIR n g code (fun _ => none) vs m with
          | some (some v, m) => if x.ret = .prim .void then none else some (.val v, m)
          | some (none, m) => if x.ret = .prim .void then some (.val .unit, m) else none
          | none => none
        else none
end

variable {F ext M}

theorem plainVals_eq : ∀ {vs us}, plainVals vs = some us → vs = us.map .val
  | [], _, h => by cases h; rfl
  | .val v :: vs, us, h => by
    unfold plainVals at h
    obtain ⟨us', h1, rfl⟩ := Option.map_eq_some_iff.1 h
    rw [plainVals_eq h1]
    rfl
  | .global _ :: _, _, h => by cases h
  | .addr _ :: _, _, h => by cases h

theorem runIR_sound : ∀ (n : Nat), (∀ {f code regs ps m v} {m' : Mem ω}, runIR F ext M n f code regs ps m = some (v, m') →
      IRun F ext M f code regs ps m v m') ∧
    ∀ {g vs m x} {m' : Mem ω}, callIR F ext M n g vs m = some (x, m') → ICall F ext M g vs m x m'
  | 0 => ⟨fun h => (by simp only [runIR, reduceCtorEq] at h), fun h => (by simp only [callIR, reduceCtorEq] at h)⟩
  | n + 1 => by
    obtain ⟨ih1, ih2⟩ := runIR_sound n
    constructor
    · intro f code regs ps m v m' h
      unfold runIR at h
      split at h
      · cases h
      · rename_i i rest
        split at h
        · split at h
          · rename_i h1
            split at h
            · rename_i h2
              exact .call h1 (ih2 h2) (ih1 h)
            · cases h
          · cases h
        · split at h
          · rename_i h1
            exact .br h1 (ih1 h)
          · cases h
        · split at h
          · rename_i h1
            split at h
            · rename_i h2
              exact .condBr h1 h2 (ih1 h)
            · cases h
          · cases h
        · split at h
          · rename_i h1
            cases h
            exact .ret h1
          · cases h
        · cases h
          exact .retVoid
        · split at h
          · rename_i h1
            exact .step h1 (ih1 h)
          · cases h
    · intro g vs m x m' h
      unfold callIR at h
      split at h
      · cases h
      · rename_i y hy
        split at h
        · rename_i hb
          split at h
          · rename_i us hus
            split at h
            · rename_i he
              cases h
              rw [plainVals_eq hus]
              exact .external hy hb he
            · cases h
          · cases h
        · rename_i code rest hb
          have hblock : blockOf M g 0 = some code := by
            unfold blockOf
            rw [hy]
            simp [hb]
          split at h
          · rename_i hlen
            split at h
            · rename_i hr
              split at h
              · cases h
              · rename_i hv
                cases h
                exact .value hy hlen hv hblock (ih1 hr)
            · rename_i hr
              split at h
              · rename_i hv
                cases h
                exact .void hy hlen hv hblock (ih1 hr)
              · cases h
            · cases h
          · cases h

end

/-- What the code of a program gives. -/
def resultIR {ω : Type} (F : Floats) (ext : List Char → List Val → ω → Option (Val × ω)) (M : List LFunc) (G : List LGlobal) (n : Nat) (w : ω) :
    Option (Int × ω) :=
  match callIR F ext M n 0 [] (initMem G w) with
  | some (.val (.int i), m) => some (i, m.world)
  | _ => none

theorem resultIR_sound {ω : Type} {F : Floats} {ext : List Char → List Val → ω → Option (Val × ω)} {M : List LFunc} {G : List LGlobal} {n w i w'}
    (h : resultIR F ext M G n w = some (i, w')) : RunsTo F ext M G w i w' := by
  unfold resultIR at h
  split at h
  · rename_i hc
    cases h
    exact ⟨_, (runIR_sound n).2 hc, rfl⟩
  · cases h

end Skull
