/-
skull/common/vector.c: the growable vector.

The `elements` allocation is a list of cells, one per pointer it has room for; a cell is `none` while it holds nothing the vector stored.
Reading or writing a cell the allocation does not have, or reading a cell nothing was stored in, is the outcome `none` of the operation.
Allocation never fails (malloc.c exits the program when it does) and sizes do not overflow `size_t`.
-/
namespace Skull

/-- vector.h:5 `VECTOR_START_MAX`. -/
def vectorStartMax : Nat := 8

/-- vector.h:30-35 `Vector`. -/
structure CVector (α : Type) where
  length : Nat
  max : Nat
  elements : Option (List (Option α))
  frozen : Bool
  deriving DecidableEq, Repr

/-- vector.c:39-45 `make_vector`. -/
def makeVector (α : Type) : CVector α := ⟨0, vectorStartMax, none, false⟩

/-- The store `elements[i] = x`; `none` when there is no such cell. -/
def storeCell (cells : List (Option α)) (i : Nat) (x : α) : Option (List (Option α)) :=
  if i < cells.length then some (cells.set i (some x)) else none

/-- The load `elements[i]`; `none` when there is no such cell or nothing was stored in it. -/
def loadCell (cells : List (Option α)) (i : Nat) : Option α := (cells[i]?).join

/-- `Realloc` to `n` cells: the first cells keep their contents, new ones hold nothing. -/
def reallocCells (cells : List (Option α)) (n : Nat) : List (Option α) :=
  cells.take n ++ List.replicate (n - cells.length) none

/-- vector.c:13-15: the elements, allocated on first use. -/
def elementsOrNew (v : CVector α) : List (Option α) :=
  match v.elements with
  | some cells => cells
  | none => List.replicate vectorStartMax none

/-- vector.c:10-24 `vector_push`. -/
def vectorPush (v : CVector α) (x : α) : Option (CVector α) :=
  if v.frozen then some v
  else
    let cells := elementsOrNew v
    let max := if v.length ≥ v.max then v.max * 2 else v.max
    let cells := if v.length ≥ v.max then reallocCells cells max else cells
    (storeCell cells v.length x).map fun cells => ⟨v.length + 1, max, some cells, v.frozen⟩

/-- vector.c:29-34 `vector_pop`: the new vector and the returned pointer (`none` inside is NULL). -/
def vectorPop (v : CVector α) : Option (CVector α × Option α) :=
  match v.elements with
  | none => some (v, none)
  | some cells =>
    if v.length = 0 || v.frozen then some (v, none)
    else (loadCell cells (v.length - 1)).map fun x => ({ v with length := v.length - 1 }, some x)

/-- vector.c:50-54 `vector_freeze`. -/
def vectorFreeze (v : CVector α) : CVector α × Option (List (Option α)) :=
  ({ v with frozen := true }, v.elements)

/-- vector.c:59-63 `vector_at`. -/
def vectorAt (v : CVector α) (i : Nat) : Option (Option α) :=
  match v.elements with
  | none => some none
  | some cells => if i ≥ v.length then some none else (loadCell cells i).map some

end Skull
