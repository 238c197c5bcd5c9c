import Verif.Proofs.ContHeap
/-
C90: vectors and hash tables free all of their memory once.
C91: the types of references are freed once, and not before they are used.
-/
namespace Skull.ContHeap
open Skull Skull.Spec

theorem start : Holds {} [] := by
  refine ⟨_, rfl, ?_, fun _ _ => rfl⟩
  intro b
  simp

/-- However a vector is used, with pushes and pops in any order and any number, no memory outside of it is accessed, no block is used
after it was freed, and freeing the vector frees all there is, once. -/
theorem C90_vector (ops : List VOp) : ∃ mem, vectorLife ops {} = some ((), mem) ∧ MemClean mem.evs := by
  obtain ⟨_, mem, h1, _, h2⟩ := vectorLife_d ops {} [] start
  exact ⟨mem, h1, CHeap.holds_clean h2⟩

/-- A vector whose array was taken does not free the array: what is allocated in the end is the array and what it points to, each of
these once. -/
theorem C90_frozen (ops : List VOp) : ∃ arr stored mem m, frozenLife ops {} = some ((arr, stored), mem) ∧
    memRun (fun _ => .fresh) mem.evs = some m ∧ (arr.toList ++ stored).Nodup ∧ ∀ b, m b = .live ↔ b ∈ arr.toList ++ stored := by
  obtain ⟨⟨arr, stored⟩, mem, h1, _, m, h2, h3, _⟩ := frozenLife_d ops {} [] start
  refine ⟨arr, stored, mem, m, h1, h2, ?_, ?_⟩
  · refine List.nodup_iff_count.2 fun b => ?_
    have := h3 b
    simp only [List.nil_append] at this
    rw [this]
    split <;> omega
  · intro b
    have := h3 b
    simp only [List.nil_append] at this
    rw [← List.count_pos_iff, this]
    split <;> simp_all

/-- However a table is used, with any keys and values of any number of blocks, with keys that belong to the values, and with values freed by
the caller that `ht_add` does not take: no block is used after it was freed, and freeing the table frees all there is, once. -/
theorem C90_table (ops : List TabOp) : ∃ mem, tableLife ops {} = some ((), mem) ∧ MemClean mem.evs := by
  obtain ⟨_, mem, h1, _, h2⟩ := tableLife_d ops {} [] start
  exact ⟨mem, h1, CHeap.holds_clean h2⟩

/-- The number of blocks that were allocated, freed, and used. -/
def tally (es : List (MemEvent Nat)) : Nat × Nat :=
  ((es.filter fun | .alloc _ => true | _ => false).length, (es.filter fun | .free _ => true | _ => false).length)

-- ten pushes: the vector, the array, one larger array, and ten elements
example : (vectorLife (List.replicate 10 .push) {}).map (fun r => tally r.2.evs) = some (13, 13) := by decide +kernel
-- popped elements are the caller's
example : (vectorLife [.push, .push, .pop, .at 0, .at 1, .pop, .pop] {}).map (fun r => tally r.2.evs) = some (4, 4) := by decide +kernel
-- a vector that is not used has no array
example : (vectorLife [] {}).map (fun r => tally r.2.evs) = some (1, 1) := by decide +kernel
-- the array and two elements are left
example : (frozenLife [.push, .push] {}).map (fun r => (r.1, tally r.2.evs)) = some ((some 2, [1, 3]), (4, 1)) := by decide +kernel
-- the table, two items with the vector and the array of the slot that they share, the five blocks of three values, and two keys
example : (tableLife [.add ['a'] 2 0, .add ['b'] 1 7, .add ['a'] 2 1, .get ['a'], .get ['c']] {}).map (fun r => tally r.2.evs) = some (12, 12) := by
  decide +kernel
-- without a function for values these are left
example : ((do
    let t ← makeHtH (List Nat)
    let t ← stepT t (.add ['a'] 2 0)
    freeHtH none t : M Unit) {}).map (fun r => tally r.2.evs) = some (6, 4) := by decide +kernel

/-- Whatever references are made, to builtin types and to types of references at any depth, again or for the first time: the table of types
only reads names of types that are there, all types that were made are there until the end, and then all of their memory is freed, once. -/
theorem C91 (ops : List RefOp) : ∃ names mem, typesLife ops {} = some (names, mem) ∧ MemClean mem.evs := by
  obtain ⟨names, mem, h1, _, h2⟩ := typesLife_d ops {} [] start
  exact ⟨names, mem, h1, CHeap.holds_clean h2⟩

-- `&Int`, `&&Int` and `&Bool`, the first two of these made twice: the table, the vectors and arrays of two slots, three items, types and names
example : (typesLife [.toPrim .int, .toRef 0, .toPrim .int, .toRef 0, .toPrim .bool, .toRef 7] {}).map (fun r => (r.1.map String.ofList, tally r.2.evs)) =
    some (["&Int", "&&Int", "&Bool"], (16, 16)) := by decide +kernel
example : (typesLife [] {}).map (fun r => tally r.2.evs) = some (0, 0) := by decide +kernel

end Skull.ContHeap
