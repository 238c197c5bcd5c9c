/-
What the containers are supposed to be: a list that can be frozen, and a map in which the first insertion of a key wins.
-/
namespace Skull.Spec

/-- The operations of a growable list. -/
inductive VecOp (α : Type)
  | push (x : α)
  | pop
  | freeze
  | at (i : Nat)

/-- What an operation returns: nothing, a pointer that may be NULL, or an array. -/
inductive VecOut (α : Type)
  | unit
  | ptr (p : Option α)
  | array (xs : List (Option α))
  deriving DecidableEq, Repr

/-- The operations on a list: append at the end, drop the last element, stop changing, index. -/
def listStep (l : List α) (frozen : Bool) : VecOp α → (List α × Bool) × VecOut α
  | .push x => ((if frozen then l else l ++ [x], frozen), .unit)
  | .pop => if frozen then ((l, frozen), .ptr none) else ((l.dropLast, frozen), .ptr l.getLast?)
  | .freeze => ((l, true), .array (l.map some))
  | .at i => ((l, frozen), .ptr l[i]?)

/-- What a sequence of operations returns on a list. -/
def listRun (l : List α) (frozen : Bool) : List (VecOp α) → List (VecOut α)
  | [] => []
  | op :: ops =>
    let r := listStep l frozen op
    r.2 :: listRun r.1.1 r.1.2 ops

/-- The value the first insertion of `k` gave it. -/
def firstValue (ins : List (List Char × α)) (k : List Char) : Option α :=
  (ins.find? fun kv => kv.1 = k).map Prod.snd

end Skull.Spec
