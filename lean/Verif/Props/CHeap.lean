import Verif.Proofs.CHeap
import Verif.Props.CProgram
import Verif.Props.Memory
/-
C81: the memory of the C back end.
-/
namespace Skull

open Skull.Spec

/-! ## C81 The C back end frees all of its memory, once, and does not look at it afterwards -/

/-- C81: for every accepted program of which C code can be written at all (see C68), with or without `-g`: every string that the C back
end allocates, and its state, is freed exactly once before it is done, and not looked at afterwards. -/
theorem C81_memory_clean {cfg : Cfg} {t : Tree} {a : ATree} {s : SS} (hp : Parsed t) (h : semantic cfg t = .ok a s)
    (dbg : Option (List Char)) (fmtA : Nat → List Char) (hw : Writable 1 a) :
    ∃ tree st evs, CHeap.backendH ⟨s.syms, dbg, fmtA⟩ a = some (tree, st, evs) ∧ MemClean evs := by
  obtain ⟨⟨tree, st⟩, hr⟩ := (genModuleC_iff hp h dbg fmtA).2 hw
  have := CHeap.backend_runs ⟨s.syms, dbg, fmtA⟩ a (CHeap.full_of_wt (semantic_wt hp h).2)
  rw [hr] at this
  obtain ⟨evs, h1, h2⟩ := this
  exact ⟨tree, st, evs, h1, h2⟩

/-- The back end that keeps the log is the back end: it generates the same text, or stops as well. -/
theorem C81_same {cfg : Cfg} {t : Tree} {a : ATree} {s : SS} (hp : Parsed t) (h : semantic cfg t = .ok a s)
    (dbg : Option (List Char)) (fmtA : Nat → List Char) :
    (CHeap.backendH ⟨s.syms, dbg, fmtA⟩ a).map (fun r => (r.1, r.2.1)) = genModuleC ⟨s.syms, dbg, fmtA⟩ a := by
  have := CHeap.backend_runs ⟨s.syms, dbg, fmtA⟩ a (CHeap.full_of_wt (semantic_wt hp h).2)
  revert this
  cases genModuleC ⟨s.syms, dbg, fmtA⟩ a with
  | none => intro this; rw [this]; rfl
  | some r =>
    rintro ⟨evs, h1, _⟩
    rw [h1]; rfl

/-- How many blocks the back end allocates for a program, how many it frees, and how often it uses one; with `-g` and without. -/
def memoryCounts (src : String) : Option (List (Nat × Nat × Nat)) :=
  match checked sampleCfg src with
  | .ok a s => [none, some "a.sk".toList].mapM fun dbg => (CHeap.backendH ⟨s.syms, dbg, fun _ => ['0']⟩ a).map fun r =>
    (r.2.2.countP (fun e => match e with | .alloc _ => true | _ => false), r.2.2.countP (fun e => match e with | .free _ => true | _ => false),
      r.2.2.countP (fun e => match e with | .use _ => true | _ => false))
  | _ => none

example : memoryCounts "" = some [(3, 3, 8), (3, 3, 8)] := by decide +kernel

example : memoryCounts "x := 1\nexport y := 2\nexternal e(r: &Int, i: Int)\nexport g() {\nnoop\n}\nf(a: Int, b: Int, c: Bool) Int {\nif c {\nreturn a + b\n}\nreturn - a\n}\nmut z := f(1, x, true)\nz = z * 2\n" =
    some [(64, 64, 127), (72, 72, 135)] := by decide +kernel

/-- The theorem speaks of that program. -/
example : ∃ tree st evs, (match checked sampleCfg "f(a: Int, b: Int) Int {\nreturn a + b\n}\nz := f(1, 2)\n" with
    | .ok a s => CHeap.backendH ⟨s.syms, some "a.sk".toList, fun _ => ['0']⟩ a
    | _ => none) = some (tree, st, evs) ∧ MemClean evs := by
  have hok : (match checked sampleCfg "f(a: Int, b: Int) Int {\nreturn a + b\n}\nz := f(1, 2)\n" with
      | .ok a s => (genModuleC ⟨s.syms, some "a.sk".toList, fun _ => ['0']⟩ a).isSome
      | _ => false) = true := by decide +kernel
  cases hc : checked sampleCfg "f(a: Int, b: Int) Int {\nreturn a + b\n}\nz := f(1, 2)\n" with
  | ok a s =>
    rw [hc] at hok
    obtain ⟨r, hr⟩ := Option.isSome_iff_exists.1 hok
    have hp : Parsed (parsed "f(a: Int, b: Int) Int {\nreturn a + b\n}\nz := f(1, 2)\n") := parsed_src (by decide +kernel)
    exact C81_memory_clean hp hc _ _ ((genModuleC_iff hp hc _ _).1 ⟨r, hr⟩)
  | ub => rw [hc] at hok; cases hok
  | fail s => rw [hc] at hok; cases hok

end Skull
