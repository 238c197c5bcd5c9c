import Verif.Model.Vector
/-
skull/common/hashtable.c: the hash table behind scopes and type tables.

A key is the list of its bytes up to the NUL, each byte given as the character with that code.
The table keeps the caller's key pointer; keys are assumed not to change while they are in the table.
A key is shorter than 2^32 bytes, so the `unsigned` loop index of ht_hash_key does not wrap, and a slot holds fewer than 2^32 items.
The outcome `none` is an access outside a vector's storage or a NULL dereference.
-/
namespace Skull

/-- hashtable.h:5 `MAX_SLOTS`. -/
def maxSlots : Nat := 64

/-- The conversion `(unsigned long long)key[i]` of a signed `char`. -/
def charToULL (c : Char) : Nat :=
  if c.toNat < 128 then c.toNat else (2 ^ 64 + c.toNat - 256) % 2 ^ 64

/-- hashtable.c:27-29: the loop from index `i` on. -/
def hashLoop (hash i : Nat) : List Char → Nat
  | [] => hash
  | c :: s => hashLoop ((hash + charToULL c * i % 2 ^ 64) % 2 ^ 64) (i + 1) s

/-- hashtable.c:22-32 `ht_hash_key`. -/
def htHashKey (key : List Char) : Nat := hashLoop 0 0 key % maxSlots

/-- hashtable.h:7-10 `HashItem`; `data` is a non-NULL pointer. -/
structure HashItem (α : Type) where
  key : List Char
  data : α
  deriving DecidableEq, Repr

/-- hashtable.h:12-14 `HashTable`: 64 slots, each NULL or a vector of items. -/
structure HashTable (α : Type) where
  slots : List (Option (CVector (HashItem α)))
  deriving DecidableEq, Repr

/-- hashtable.c:15-17 `make_ht`. -/
def makeHt (α : Type) : HashTable α := ⟨List.replicate maxSlots none⟩

/-- hashtable.c:70-74: the loop over the items from index `i`, `n` indices left. -/
def htScan (items : CVector (HashItem α)) (key : List Char) (i : Nat) : Nat → Option (Option α)
  | 0 => some none
  | n + 1 =>
    match vectorAt items i with
    | some (some item) => if item.key = key then some (some item.data) else htScan items key (i + 1) n
    | _ => none

/-- hashtable.c:64-77 `ht_get`; the table pointer may be NULL. -/
def htGet (ht : Option (HashTable α)) (key : List Char) : Option (Option α) :=
  match ht with
  | none => some none
  | some ht =>
    match ht.slots[htHashKey key]? with
    | none => none
    | some none => some none
    | some (some items) => htScan items key 0 items.length

/-- hashtable.c:43-46: the slot's vector, made on first use. -/
def itemsOrNew : Option (CVector (HashItem α)) → CVector (HashItem α)
  | some items => items
  | none => makeVector _

/-- hashtable.c:37-57 `ht_add`: the new table and the returned flag; `ptr` may be NULL. -/
def htAdd (ht : Option (HashTable α)) (key : List Char) (ptr : Option α) :
    Option (Option (HashTable α) × Bool) :=
  match ptr, ht with
  | some ptr, some ht =>
    match htGet (some ht) key with
    | none => none
    | some (some _) => some (some ht, false)
    | some none =>
      match ht.slots[htHashKey key]? with
      | none => none
      | some slot =>
        (vectorPush (itemsOrNew slot) ⟨key, ptr⟩).map fun items =>
          (some ⟨ht.slots.set (htHashKey key) (some items)⟩, true)
  | _, ht => some (ht, false)

end Skull
