import Verif.Model.HashTable
import Verif.Model.Types
import Verif.Spec.Heap
/-
skull/common/vector.c and hashtable.c with the memory they allocate, and the types of references in skull/semantic/types.c, which are kept in
a table.  Contents are those of `Model/Vector` and `Model/HashTable`.

A block has a number.  `Realloc` frees the old block and allocates another one.  A table does not copy keys: a key is in a block of somebody
else, or in no block (a constant of the compiler).
-/
namespace Skull.ContHeap
open Skull Skull.Spec

/-- The number of the next block, and what was done. -/
structure Mem where
  next : Nat := 0
  evs : List (MemEvent Nat) := []

/-- A step; `none` is an access outside of the storage of a vector or the use of `NULL`. -/
abbrev M (α : Type) : Type := Mem → Option (α × Mem)

def M.bind (m : M α) (f : α → M β) : M β := fun h =>
  match m h with
  | some (a, h) => f a h
  | none => none

instance : Monad M where
  pure a := fun h => some (a, h)
  bind := M.bind

def alloc : M Nat := fun h => some (h.next, { next := h.next + 1, evs := h.evs ++ [.alloc h.next] })
def use (b : Nat) : M Unit := fun h => some ((), { h with evs := h.evs ++ [.use b] })
def free (b : Nat) : M Unit := fun h => some ((), { h with evs := h.evs ++ [.free b] })
def ofOption : Option α → M α
  | some a => pure a
  | none => fun _ => none

/-- A vector: its block, the contents, and the block of `elements` if there is one. -/
structure HVec (α : Type) where
  self : Nat
  v : CVector α
  elems : Nat

/-- vector.c:39-45 `make_vector`. -/
def makeVectorH (α : Type) : M (HVec α) := do
  let b ← alloc
  use b
  pure ⟨b, makeVector α, 0⟩

/-- vector.c:13-15. -/
def elementsH (h : HVec α) : M Nat := if h.v.elements.isSome then pure h.elems else alloc

/-- vector.c:17-20. -/
def growH (h : HVec α) (e : Nat) : M Nat :=
  if h.v.length ≥ h.v.max then do
    free e
    alloc
  else pure e

/-- vector.c:10-24 `vector_push`. -/
def vectorPushH (h : HVec α) (x : α) : M (HVec α) := do
  use h.self
  if h.v.frozen then pure h
  else do
    let e ← elementsH h
    let e ← growH h e
    use e
    let v ← ofOption (vectorPush h.v x)
    use h.self
    pure { h with v := v, elems := e }

/-- Reading `elements`, if there is an element to be read. -/
def readElems (h : HVec α) (cond : Bool) : M Unit := if h.v.elements.isSome && cond then use h.elems else pure ()

/-- vector.c:29-34 `vector_pop`. -/
def vectorPopH (h : HVec α) : M (HVec α × Option α) := do
  use h.self
  let r ← ofOption (vectorPop h.v)
  readElems h r.2.isSome
  pure ({ h with v := r.1 }, r.2)

/-- vector.c:50-54 `vector_freeze`; gives the block of the array, which is the caller's now. -/
def vectorFreezeH (h : HVec α) : M (HVec α × Option Nat) := do
  use h.self
  pure ({ h with v := (vectorFreeze h.v).1 }, if h.v.elements.isSome then some h.elems else none)

/-- vector.c:59-63 `vector_at`. -/
def vectorAtH (h : HVec α) (i : Nat) : M (Option α) := do
  use h.self
  let r ← ofOption (vectorAt h.v i)
  readElems h r.isSome
  pure r

/-- `v->elements[i]` in vector.c:80 and 83. -/
def elementAt (h : HVec α) (i : Nat) : M α :=
  match h.v.elements with
  | none => fun _ => none
  | some cells => do
    use h.elems
    ofOption (loadCell cells i)

/-- vector.c:79-83; `fn` is what is done with an element, if something is. -/
def freeOne (fn : Option (α → M Unit)) (h : HVec α) (i : Nat) : M Unit :=
  match fn with
  | none => pure ()
  | some fn =>
    if h.v.elements.isSome then do
      let x ← elementAt h i
      fn x
    else pure ()

/-- vector.c:78-84: the loop from index `i` on, `n` indices left. -/
def freeEach (fn : Option (α → M Unit)) (h : HVec α) (i : Nat) : Nat → M Unit
  | 0 => use h.self
  | n + 1 => do
    use h.self
    freeOne fn h i
    freeEach fn h (i + 1) n

/-- vector.c:86-89. -/
def freeElems (h : HVec α) : M Unit := do
  use h.self
  if !h.v.frozen && h.v.elements.isSome then free h.elems else pure ()

/-- vector.c:66-68 `free_vector`, 73-91 `free_vector2`. -/
def freeVectorH (fn : Option (α → M Unit)) (h : HVec α) : M Unit := do
  freeEach fn h 0 h.v.length
  freeElems h
  free h.self

/-- hashtable.h:7-10 `HashItem` in its block. -/
structure HItem (α : Type) where
  self : Nat
  key : List Char
  keyB : Option Nat
  data : α

/-- hashtable.h:12-14 `HashTable` in its block. -/
structure HTable (α : Type) where
  self : Nat
  slots : List (Option (HVec (HItem α)))

/-- hashtable.c:15-17 `make_ht`. -/
def makeHtH (α : Type) : M (HTable α) := do
  let b ← alloc
  pure ⟨b, List.replicate maxSlots none⟩

/-- Reading a key. -/
def useKey : Option Nat → M Unit
  | none => pure ()
  | some b => use b

/-- hashtable.c:70-74. -/
def scanH (items : HVec (HItem α)) (key : List Char) (keyB : Option Nat) (i : Nat) : Nat → M (Option α)
  | 0 => do
    use items.self
    pure none
  | n + 1 => do
    use items.self
    match ← vectorAtH items i with
    | none => fun _ => none
    | some item => do
      use item.self
      useKey item.keyB
      useKey keyB
      if item.key = key then pure (some item.data) else scanH items key keyB (i + 1) n

/-- hashtable.c:64-77 `ht_get`, for a table. -/
def htGetH (ht : HTable α) (key : List Char) (keyB : Option Nat) : M (Option α) := do
  use ht.self
  useKey keyB
  match ← ofOption ht.slots[htHashKey key]? with
  | none => pure none
  | some items => scanH items key keyB 0 items.v.length

/-- hashtable.c:43-46. -/
def itemsH (ht : HTable α) : Option (HVec (HItem α)) → M (HVec (HItem α))
  | some items => pure items
  | none => do
    let items ← makeVectorH _
    use ht.self
    pure items

/-- hashtable.c:37-57 `ht_add`, for a table and a value. -/
def htAddH (ht : HTable α) (key : List Char) (keyB : Option Nat) (data : α) : M (HTable α × Bool) := do
  match ← htGetH ht key keyB with
  | some _ => pure (ht, false)
  | none => do
    use ht.self
    useKey keyB
    let slot ← ofOption ht.slots[htHashKey key]?
    let items ← itemsH ht slot
    let b ← alloc
    use b
    let items ← vectorPushH items ⟨b, key, keyB, data⟩
    pure ({ ht with slots := ht.slots.set (htHashKey key) (some items) }, true)

/-- `if (free_func) free_func(item);` -/
def callFree (fn : Option (HItem α → M Unit)) (item : HItem α) : M Unit :=
  match fn with
  | none => pure ()
  | some fn => fn item

/-- hashtable.c:82-86 `free_ht_item`. -/
def freeItemH (fn : Option (HItem α → M Unit)) (item : HItem α) : M Unit := do
  callFree fn item
  free item.self

/-- hashtable.c:97. -/
def freeSlot (fn : Option (HItem α → M Unit)) : Option (HVec (HItem α)) → M Unit
  | none => pure ()
  | some items => freeVectorH (some (freeItemH fn)) items

/-- hashtable.c:94-98. -/
def freeSlots (fn : Option (HItem α → M Unit)) (self : Nat) : List (Option (HVec (HItem α))) → M Unit
  | [] => pure ()
  | slot :: slots => do
    use self
    freeSlot fn slot
    freeSlots fn self slots

/-- hashtable.c:91-101 `free_ht`, for a table. -/
def freeHtH (fn : Option (HItem α → M Unit)) (ht : HTable α) : M Unit := do
  freeSlots fn ht.self ht.slots
  free ht.self

def freeBlocks : List Nat → M Unit
  | [] => pure ()
  | b :: bs => do
    free b
    freeBlocks bs

def useBlocks : List Nat → M Unit
  | [] => pure ()
  | b :: bs => do
    use b
    useBlocks bs

/-- types.c:319-322 `free_dynamic_type` and scope.c:179-181 `free_ht_symbol`: the value's own blocks are read and freed. -/
def freeValue (item : HItem (List Nat)) : M Unit := do
  use item.self
  useBlocks item.data
  freeBlocks item.data

/-- types.h:30-37 `Type`, for the types that are allocated: its name, the block of the name and its own. -/
structure HType where
  name : List Char
  nameB : Nat
  self : Nat

/-- The allocated types, and `state->dynamic_refs`. -/
structure HTypes where
  types : List HType := []
  refs : Option (HTable (List Nat)) := none

/-- `type->name`, of a builtin type or an allocated one. -/
def typeNameH : Prim ⊕ HType → M (List Char × Option Nat)
  | .inl p => pure (p.name, none)
  | .inr t => do
    use t.self
    pure (t.name, some t.nameB)

/-- types.c:202. -/
def refsH : Option (HTable (List Nat)) → M (HTable (List Nat))
  | some t => pure t
  | none => makeHtH (List Nat)

/-- types.c:207-215, for a type with name `name`. -/
def newRefH (types : List HType) (refs : HTable (List Nat)) (name : List Char) (nameB : Option Nat) : M HTypes := do
  useKey nameB
  let nb ← alloc
  use nb
  useKey nameB
  let tb ← alloc
  use tb
  let r ← htAddH refs name nameB [nb, tb]
  pure { types := types ++ [⟨'&' :: name, nb, tb⟩], refs := some r.1 }

/-- types.c:199-218 `get_reference_type`, for a type; whoever asks reads the type found. -/
def getRefH (st : HTypes) (type : Prim ⊕ HType) : M HTypes := do
  let refs ← refsH st.refs
  let (name, nameB) ← typeNameH type
  match ← htGetH refs name nameB with
  | some d => do
    useBlocks d
    pure { st with refs := some refs }
  | none => newRefH st.types refs name nameB

/-- shared.c:50: `free_ht(state->dynamic_refs, free_dynamic_type)`. -/
def freeRefsH (st : HTypes) : M Unit :=
  match st.refs with
  | none => pure ()
  | some t => freeHtH (some freeValue) t

end Skull.ContHeap
