import Verif.Model.ContHeap
/-
Code that uses a vector or a table as the compiler does: what it puts in is its own, and it takes care of what is not taken.
-/
namespace Skull.ContHeap
open Skull Skull.Spec

/-- What is done with a vector of pointers to blocks: push a new block, pop one and free it, look at one. -/
inductive VOp
  | push | pop | at (i : Nat)

def freePopped : Option Nat → M Unit
  | none => pure ()
  | some b => free b

def usePtr : Option Nat → M Unit
  | none => pure ()
  | some b => use b

def stepV (v : HVec Nat) : VOp → M (HVec Nat)
  | .push => do
    let b ← alloc
    vectorPushH v b
  | .pop => do
    let r ← vectorPopH v
    freePopped r.2
    pure r.1
  | .at i => do
    let r ← vectorAtH v i
    usePtr r
    pure v

def runV (v : HVec Nat) : List VOp → M (HVec Nat)
  | [] => pure v
  | op :: ops => do
    let v ← stepV v op
    runV v ops

/-- Make a vector, use it, and free it with what is in it. -/
def vectorLife (ops : List VOp) : M Unit := do
  let v ← makeVectorH Nat
  let v ← runV v ops
  freeVectorH (some free) v

/-- Make a vector, use it, take its array and free the vector: what is left is the array, and what it points to. -/
def frozenLife (ops : List VOp) : M (Option Nat × List Nat) := do
  let v ← makeVectorH Nat
  let v ← runV v ops
  let r ← vectorFreezeH v
  freeVectorH none r.1
  pure (r.2, ((v.v.elements.getD []).take v.v.length).filterMap id)

/-- What is done with a table: add a value of `n` new blocks, with a key that is in block `k` of these (or in none), look up a key that is
only there for that. -/
inductive TabOp
  | add (key : List Char) (n k : Nat)
  | get (key : List Char)

def allocs : Nat → M (List Nat)
  | 0 => pure []
  | n + 1 => do
    let b ← alloc
    let bs ← allocs n
    pure (b :: bs)

/-- A value that was not taken is freed. -/
def keepOr (taken : Bool) (bs : List Nat) : M Unit := if taken then pure () else freeBlocks bs

def stepT (t : HTable (List Nat)) : TabOp → M (HTable (List Nat))
  | .add key n k => do
    let bs ← allocs n
    let r ← htAddH t key bs[k]? bs
    keepOr r.2 bs
    pure r.1
  | .get key => do
    let b ← alloc
    let r ← htGetH t key (some b)
    free b
    useBlocks (r.getD [])
    pure t

def runT (t : HTable (List Nat)) : List TabOp → M (HTable (List Nat))
  | [] => pure t
  | op :: ops => do
    let t ← stepT t op
    runT t ops

/-- Make a table, use it, and free it with what is in it. -/
def tableLife (ops : List TabOp) : M Unit := do
  let t ← makeHtH (List Nat)
  let t ← runT t ops
  freeHtH (some freeValue) t

/-- A type that a reference is made to: a builtin one, or the one of those made before with this number. -/
inductive RefOp
  | toPrim (p : Prim)
  | toRef (i : Nat)

def stepR (st : HTypes) : RefOp → M HTypes
  | .toPrim p => getRefH st (.inl p)
  | .toRef i =>
    match st.types[i]? with
    | some t => getRefH st (.inr t)
    | none => pure st

def runR (st : HTypes) : List RefOp → M HTypes
  | [] => pure st
  | op :: ops => do
    let st ← stepR st op
    runR st ops

/-- Make types of references, read their names, and free them. -/
def typesLife (ops : List RefOp) : M (List (List Char)) := do
  let st ← runR {} ops
  useBlocks (st.types.flatMap fun t => [t.self, t.nameB])
  freeRefsH st
  pure (st.types.map (·.name))

end Skull.ContHeap
