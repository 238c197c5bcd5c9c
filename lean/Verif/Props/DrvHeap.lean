import Verif.Proofs.DrvHeap
import Verif.Props.ContHeap
import Verif.Props.Driver
/-
C92: from the command line to the end of the run, what is allocated is freed once.
-/
namespace Skull.DrvHeap
open Skull Skull.Spec Skull.ContHeap

/-- Full statement of C92: all is freed once. -/
def C92_full : Prop := ∀ sys args r, skull sys args = some r → ∃ a mem, skullH sys args {} = some (a, mem) ∧ a.1 = r ∧ MemClean mem.evs

theorem run_of (sys : Sys) (args : List (List Char)) {r : Nat × List Act} (h : skull sys args = some r) :
    ∃ a mem, skullH sys args {} = some (a, mem) ∧ a.1 = r ∧ (a.2.blocks = [] ↔ ¬ Leaks sys args r.2) ∧ Holds mem a.2.blocks := by
  have := skull_r sys args {} [] start
  rw [h] at this
  obtain ⟨a, mem, h1, h2, h3, h4⟩ := this
  exact ⟨a, mem, h1, h2, h2 ▸ h3, h4⟩

/-- The driver with its memory does what the driver does, and has undefined operations where that has. -/
theorem C92_same (sys : Sys) (args : List (List Char)) : (skullH sys args {}).map (·.1.1) = skull sys args := by
  cases h : skull sys args with
  | none =>
    have := skull_r sys args {} [] start
    rw [h] at this
    rw [this]
    rfl
  | some r =>
    obtain ⟨a, mem, h1, h2, _⟩ := run_of sys args h
    rw [h1, ← h2]
    rfl

/-- Whatever the command line and the world: no block is used that is not there, or freed twice. -/
theorem C92_safe (sys : Sys) (args : List (List Char)) (r : Nat × List Act) (h : skull sys args = some r) :
    ∃ a mem, skullH sys args {} = some (a, mem) ∧ a.1 = r ∧ MemSafe mem.evs := by
  obtain ⟨a, mem, h1, h2, _, m, h3, _⟩ := run_of sys args h
  exact ⟨a, mem, h1, h2, m, h3⟩

theorem clean_iff {mem : Mem} {L : List Nat} (h : Holds mem L) : MemClean mem.evs ↔ L = [] := by
  constructor
  · rintro ⟨m, h1, h2⟩
    obtain ⟨m', g1, g2, _⟩ := h
    have e : m = m' := Option.some.inj (h1.symm.trans g1)
    subst e
    cases L with
    | nil => rfl
    | cons b L =>
      have := g2 b
      rw [if_neg (h2 b)] at this
      simp at this
  · rintro rfl
    exact CHeap.holds_clean h

/-- What holds: everything is freed exactly in the runs that are not said to leak. -/
theorem C92_partial (sys : Sys) (args : List (List Char)) (r : Nat × List Act) (h : skull sys args = some r) :
    ∃ a mem, skullH sys args {} = some (a, mem) ∧ a.1 = r ∧ (MemClean mem.evs ↔ ¬ Leaks sys args r.2) := by
  obtain ⟨a, mem, h1, h2, h3, h4⟩ := run_of sys args h
  exact ⟨a, mem, h1, h2, (clean_iff h4).trans h3⟩

/-- `-o x` without a source. -/
theorem C92_false : ¬ C92_full := by
  intro hf
  obtain ⟨a, mem, h1, h2, h3⟩ := hf (world "") (argv ["-o", "x"]) (1, [.say]) (by
    have : cliMain none (argv ["-o", "x"]) = .exit 1 := by decide +kernel
    simp only [skull, world, this])
  obtain ⟨a', mem', g1, _, g3⟩ := C92_partial (world "") (argv ["-o", "x"]) (1, [.say]) (by
    have : cliMain none (argv ["-o", "x"]) = .exit 1 := by decide +kernel
    simp only [skull, world, this])
  rw [h1] at g1
  cases g1
  refine g3.1 h3 ⟨{ outFile := some ['x'] }, by decide +kernel, .inl ⟨.inr rfl, .inl rfl⟩⟩

/-- What was allocated and freed in a run, with its exit code. -/
def counts (sys : Sys) (l : List String) : Option (Nat × Nat × Nat) :=
  (skullH sys (argv l) {}).map fun r => (r.1.1.1, tally r.2.evs)

-- a binary: the names, the file and its text twice, tokens, tree, both states, the names of the object file and the binary, and the command
example : counts (world "return 0\n") ["a.sk"] = some (0, 11, 11) := by decide +kernel
-- with arguments for the linker
example : counts (world "return 0\n") ["a.sk", "-o", "x.o", "--", "-lc"] = some (0, 12, 12) := by decide +kernel
-- these are not freed if nothing is linked
example : counts (world "return 0\n") ["a.sk", "-c", "--", "-lc"] = some (0, 10, 9) := by decide +kernel
example : counts (world "x: Int = 1.0\n") ["a.sk", "--", "-lc"] = some (1, 8, 7) := by decide +kernel
-- errors on the way
example : counts (world "x: Int = 1.0\n") ["a.sk"] = some (1, 7, 7) := by decide +kernel
example : counts (world "\"") ["a.sk"] = some (1, 4, 4) := by decide +kernel
-- settings that contradict each other
example : counts (world "return 0\n") ["a.sk", "-o", "x", "-S", "-E"] = some (1, 1, 0) := by decide +kernel
example : counts (world "return 0\n") ["a.sk", "-o", "x", "-o", "y"] = some (1, 1, 1) := by decide +kernel

end Skull.DrvHeap
