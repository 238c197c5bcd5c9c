/-
Memory as `malloc` and `free` see it: blocks are allocated, used and freed, and that is all that happens to them.
-/
namespace Skull.Spec

/-- Something that happens to a block of memory. -/
inductive MemEvent (β : Type)
  | alloc (b : β)
  | use (b : β)
  | free (b : β)
  deriving DecidableEq, Repr

/-- The life of a block: not yet allocated, allocated, freed. -/
inductive Life
  | fresh | live | freed
  deriving DecidableEq, Repr

/-- The life of the blocks with that of `b` changed. -/
def setLife [DecidableEq β] (m : β → Life) (b : β) (l : Life) : β → Life := fun c => if c = b then l else m c

/-- One event; `none` is an undefined operation.  (A block stands for one allocation, so it is allocated once.) -/
def memStep [DecidableEq β] (m : β → Life) : MemEvent β → Option (β → Life)
  | .alloc b => if m b = .fresh then some (setLife m b .live) else none
  | .use b => if m b = .live then some m else none
  | .free b => if m b = .live then some (setLife m b .freed) else none

/-- A list of events, one after the other. -/
def memRun [DecidableEq β] (m : β → Life) : List (MemEvent β) → Option (β → Life)
  | [] => some m
  | e :: es =>
    match memStep m e with
    | some m => memRun m es
    | none => none

/-- No block is used or freed that is not allocated, or that has been freed already. -/
def MemSafe [DecidableEq β] (es : List (MemEvent β)) : Prop := ∃ m, memRun (fun _ => .fresh) es = some m

/-- In addition every block that was allocated has been freed in the end. -/
def MemClean [DecidableEq β] (es : List (MemEvent β)) : Prop :=
  ∃ m, memRun (fun _ => .fresh) es = some m ∧ ∀ b, m b ≠ .live

/-- Nothing is freed. -/
def FreesNothing (es : List (MemEvent β)) : Prop := ∀ b, .free b ∉ es

end Skull.Spec
