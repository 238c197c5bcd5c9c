import Verif.Proofs.Containers
/-
C17 and C18: the hash table and the vector.
-/
namespace Skull
open Spec

/-- One operation on a vector; `none` is an access outside its storage.
The array returned by a freeze is seen through its first `length` cells, which is how its callers use it. -/
def vecStep (v : CVector α) : VecOp α → Option (CVector α × VecOut α)
  | .push x => (vectorPush v x).map fun v' => (v', .unit)
  | .pop => (vectorPop v).map fun r => (r.1, .ptr r.2)
  | .freeze => some ((vectorFreeze v).1, .array (((vectorFreeze v).2.getD []).take v.length))
  | .at i => (vectorAt v i).map fun p => (v, .ptr p)

/-- A sequence of operations on a vector and what they return. -/
def vecRun (v : CVector α) : List (VecOp α) → Option (List (VecOut α))
  | [] => some []
  | op :: ops =>
    match vecStep v op with
    | none => none
    | some (v', out) => (vecRun v' ops).map (out :: ·)

theorem vecRun_eq {v : CVector α} {l : List α} (h : VRep v l) (ops : List (VecOp α)) :
    vecRun v ops = some (listRun l v.frozen ops) := by
  induction ops generalizing v l with
  | nil => rfl
  | cons op ops ih =>
    unfold vecRun listRun
    cases op with
    | push x =>
      cases hf : v.frozen with
      | true =>
        have : vectorPush v x = some v := by simp [vectorPush, hf]
        simp [vecStep, this, listStep, ih h, hf]
      | false =>
        obtain ⟨v', hp, hv', hf'⟩ := vrep_push h hf x
        simp [vecStep, hp, listStep, ih hv', hf']
    | pop =>
      cases hf : v.frozen with
      | true =>
        have : vectorPop v = some (v, none) := by
          unfold vectorPop; split <;> simp [hf]
        simp [vecStep, this, listStep, ih h, hf]
      | false =>
        obtain ⟨v', hp, hv', hf'⟩ := vrep_pop h hf
        simp [vecStep, hp, listStep, ih hv', hf']
    | freeze =>
      have := vrep_freeze h
      have h2 := ih this.1
      simp only [vecStep, listStep, this.2, h2, Option.map_some]
      rfl
    | «at» i => simp [vecStep, vrep_at h, listStep, ih h]

/-- C18: from a new vector, every sequence of operations stays inside the storage and returns what a list returns. -/
theorem C18_vector_is_list (ops : List (VecOp α)) :
    vecRun (makeVector α) ops = some (listRun [] false ops) :=
  vecRun_eq vrep_make ops

example : vecRun (makeVector Nat) [.push 5, .push 6, .at 1, .at 2, .pop, .freeze, .push 9, .pop] =
    some [.unit, .unit, .ptr (some 6), .ptr none, .ptr (some 6), .array [some 5], .unit, .ptr none] := by decide

/-- Insert in order, collecting the returned flags; `none` is a memory error. -/
def htAddAll (ht : Option (HashTable α)) : List (List Char × α) → Option (Option (HashTable α) × List Bool)
  | [] => some (ht, [])
  | (k, x) :: ins =>
    match htAdd ht k (some x) with
    | none => none
    | some (ht', b) => (htAddAll ht' ins).map fun r => (r.1, b :: r.2)

theorem htAddAll_eq {ht : HashTable α} (h : HRep ht before) (ins : List (List Char × α)) :
    ∃ ht' flags, htAddAll (some ht) ins = some (some ht', flags) ∧ HRep ht' (before ++ ins) ∧
      flags.length = ins.length ∧
      ∀ i (hi : i < ins.length), flags[i]? =
        some (firstValue (before ++ ins.take i) ins[i].1).isNone := by
  induction ins generalizing ht before with
  | nil => exact ⟨ht, [], rfl, by simpa using h, rfl, fun i hi => by simp at hi⟩
  | cons kv ins ih =>
    obtain ⟨k, x⟩ := kv
    obtain ⟨ht1, ha, h1⟩ := hrep_add h k x
    obtain ⟨ht2, flags, h2, h3, h4, h5⟩ := ih h1
    refine ⟨ht2, (firstValue before k).isNone :: flags, by simp [htAddAll, ha, h2], by simpa using h3,
      by simp [h4], ?_⟩
    intro i hi
    cases i with
    | zero => simp
    | succ i =>
      simp only [List.length_cons] at hi
      simp only [List.getElem?_cons_succ, List.getElem_cons_succ, List.take_succ_cons]
      rw [h5 i (by omega)]
      simp

theorem firstValue_none_iff (ins : List (List Char × α)) (k : List Char) :
    firstValue ins k = none ↔ k ∉ ins.map Prod.fst := by
  simp only [firstValue, Option.map_eq_none_iff, List.find?_eq_none, List.mem_map, decide_eq_true_eq]
  constructor
  · rintro h ⟨a, ha, he⟩; exact h a ha he
  · intro h a ha he; exact h ⟨a, ha, he⟩

/-- C17: insertions never fail, an insertion succeeds exactly when its key was not inserted before, and a lookup gives the
value of the first insertion of its key. -/
theorem C17_first_write_wins (ins : List (List Char × α)) :
    ∃ ht flags, htAddAll (some (makeHt α)) ins = some (ht, flags) ∧
      (∀ k, htGet ht k = some (firstValue ins k)) ∧
      flags.length = ins.length ∧
      ∀ i (hi : i < ins.length), flags[i]? = some (decide (ins[i].1 ∉ (ins.take i).map Prod.fst)) := by
  obtain ⟨ht, flags, h1, h2, h3, h4⟩ := htAddAll_eq (hrep_make (α := α)) ins
  refine ⟨some ht, flags, h1, fun k => hrep_get (by simpa using h2) k, h3, fun i hi => ?_⟩
  rw [h4 i hi]
  have := firstValue_none_iff (ins.take i) ins[i].1
  rw [← Option.isNone_iff_eq_none] at this
  simp only [List.nil_append, Option.some.injEq]
  rw [Bool.eq_iff_iff, this, decide_eq_true_eq]

/-- C17: adding a NULL value, or adding to no table, changes nothing and reports failure. -/
theorem C17_null_refused (ht : Option (HashTable α)) (k : List Char) (p : Option α) :
    htAdd ht k none = some (ht, false) ∧ htAdd (none : Option (HashTable α)) k p = some (none, false) := by
  constructor
  · unfold htAdd; split <;> simp_all
  · unfold htAdd; split <;> simp_all

/-- `ab` and `cb` collide. -/
example : htHashKey "ab".toList = htHashKey "cb".toList ∧
    (htAddAll (some (makeHt Nat)) [("ab".toList, 1), ("cb".toList, 2), ("ab".toList, 3)]).map Prod.snd =
      some [true, true, false] ∧
    ((htAddAll (some (makeHt Nat)) [("ab".toList, 1), ("cb".toList, 2), ("ab".toList, 3)]).bind fun r =>
      htGet r.1 "cb".toList) = some (some 2) := by decide +kernel

end Skull
