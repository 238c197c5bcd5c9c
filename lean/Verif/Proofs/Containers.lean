import Verif.Model.HashTable
import Verif.Spec.Containers
/-
The representation invariants of the vector and the hash table.
-/
namespace Skull
open Spec

/-- The vector `v` stores the list `l`. -/
def VRep (v : CVector α) (l : List α) : Prop :=
  v.length = l.length ∧ 0 < v.max ∧
    match v.elements with
    | none => l = [] ∧ v.max = vectorStartMax
    | some cells => cells.length = v.max ∧ l.length ≤ v.max ∧ ∀ i, i < l.length → cells[i]? = some l[i]?

theorem vrep_make : VRep (makeVector α) [] := by
  simp [VRep, makeVector, vectorStartMax]

theorem elementsOrNew_len {v : CVector α} (h : VRep v l) : (elementsOrNew v).length = v.max := by
  obtain ⟨_, _, h3⟩ := h
  unfold elementsOrNew
  cases hv : v.elements with
  | none => rw [hv] at h3; simp [h3.2]
  | some cells => rw [hv] at h3; exact h3.1

theorem elementsOrNew_get {v : CVector α} (h : VRep v l) (i : Nat) (hi : i < l.length) :
    (elementsOrNew v)[i]? = some l[i]? := by
  obtain ⟨_, _, h3⟩ := h
  unfold elementsOrNew
  cases hv : v.elements with
  | none => rw [hv] at h3; simp [h3.1] at hi
  | some cells => rw [hv] at h3; exact h3.2.2 i hi

theorem vrep_le {v : CVector α} (h : VRep v l) : l.length ≤ v.max := by
  obtain ⟨_, _, h3⟩ := h
  cases hv : v.elements with
  | none => rw [hv] at h3; simp [h3.1]
  | some cells => rw [hv] at h3; exact h3.2.1

theorem vrep_push {v : CVector α} (h : VRep v l) (hf : v.frozen = false) (x : α) :
    ∃ v', vectorPush v x = some v' ∧ VRep v' (l ++ [x]) ∧ v'.frozen = false := by
  have hlen := elementsOrNew_len h
  have hget := elementsOrNew_get h
  have hle := vrep_le h
  have h1 := h.1
  have h2 := h.2.1
  unfold vectorPush
  rw [hf]
  simp only [Bool.false_eq_true, if_false]
  generalize elementsOrNew v = cells at hlen hget
  by_cases hm : v.length ≥ v.max
  · simp only [hm, if_true]
    have hL : (reallocCells cells (v.max * 2)).length = v.max * 2 := by
      simp [reallocCells, hlen]; omega
    have hlt : v.length < (reallocCells cells (v.max * 2)).length := by omega
    simp only [storeCell, hlt, if_true, Option.map_some]
    refine ⟨_, rfl, ⟨?_, ?_, ?_⟩, rfl⟩
    · simp [h1]
    · simp; omega
    · refine ⟨by simp [hL], by simp; omega, ?_⟩
      intro i hi
      simp at hi
      by_cases hi2 : i < l.length
      · rw [List.getElem?_set_ne (by omega), List.getElem?_append_left hi2]
        unfold reallocCells
        rw [List.getElem?_append_left (by simp; omega), List.getElem?_take, if_pos (by omega)]
        exact hget i hi2
      · have : i = v.length := by omega
        subst this
        rw [List.getElem?_set_self (by omega)]
        simp [h1]
  · simp only [hm, if_false]
    have hlt : v.length < cells.length := by omega
    simp only [storeCell, hlt, if_true, Option.map_some]
    refine ⟨_, rfl, ⟨?_, ?_, ?_⟩, rfl⟩
    · simp [h1]
    · exact h2
    · refine ⟨by simp [hlen], by simp; omega, ?_⟩
      intro i hi
      simp at hi
      by_cases hi2 : i < l.length
      · rw [List.getElem?_set_ne (by omega), List.getElem?_append_left hi2]
        exact hget i hi2
      · have : i = v.length := by omega
        subst this
        rw [List.getElem?_set_self (by omega)]
        simp [h1]

theorem vrep_at {v : CVector α} (h : VRep v l) (i : Nat) : vectorAt v i = some l[i]? := by
  obtain ⟨h1, h2, h3⟩ := h
  unfold vectorAt
  cases hv : v.elements with
  | none => rw [hv] at h3; simp [h3.1]
  | some cells =>
    rw [hv] at h3
    by_cases hi : i ≥ v.length
    · simp only [hi, if_true]
      rw [List.getElem?_eq_none (by omega)]
    · simp only [hi, if_false]
      have := h3.2.2 i (by omega)
      have hx : l[i]? = some l[i] := List.getElem?_eq_getElem (by omega)
      simp only [loadCell, this, hx, Option.join, Option.map_some, Option.bind_some, id]

theorem vrep_pop {v : CVector α} (h : VRep v l) (hf : v.frozen = false) :
    ∃ v', vectorPop v = some (v', l.getLast?) ∧ VRep v' l.dropLast ∧ v'.frozen = false := by
  have hh := h
  obtain ⟨h1, h2, h3⟩ := h
  unfold vectorPop
  cases hv : v.elements with
  | none =>
    rw [hv] at h3
    obtain ⟨rfl, hm⟩ := h3
    exact ⟨v, rfl, hh, hf⟩
  | some cells =>
    rw [hv] at h3
    by_cases h0 : v.length = 0
    · have : l = [] := List.eq_nil_of_length_eq_zero (by omega)
      subst this
      simp only [h0, decide_true, Bool.true_or, if_true]
      exact ⟨v, rfl, hh, hf⟩
    · have hx : l[v.length - 1]? = some l[v.length - 1] := List.getElem?_eq_getElem (by omega)
      have := h3.2.2 (v.length - 1) (by omega)
      simp only [h0, hf, decide_false, Bool.or_false, Bool.false_eq_true, if_false, loadCell, this, hx,
        Option.join, Option.map_some, Option.bind_some, id]
      have hlast : l.getLast? = some l[v.length - 1] := by
        rw [List.getLast?_eq_getElem?, ← hx, h1]
      rw [hlast]
      refine ⟨_, rfl, ⟨?_, h2, ?_⟩, rfl⟩
      · simp [h1]
      · refine ⟨h3.1, by simp; omega, ?_⟩
        intro i hi
        simp at hi
        rw [h3.2.2 i (by omega), List.getElem?_dropLast, if_pos hi]

theorem vrep_freeze {v : CVector α} (h : VRep v l) :
    VRep (vectorFreeze v).1 l ∧
      ((vectorFreeze v).2.getD []).take v.length = l.map some := by
  refine ⟨h, ?_⟩
  obtain ⟨h1, h2, h3⟩ := h
  unfold vectorFreeze
  cases hv : v.elements with
  | none => rw [hv] at h3; simp [h3.1]
  | some cells =>
    rw [hv] at h3
    simp only [Option.getD_some]
    apply List.ext_getElem?
    intro i
    by_cases hi : i < l.length
    · rw [List.getElem?_take, if_pos (by omega), h3.2.2 i hi, List.getElem?_map,
        List.getElem?_eq_getElem hi]
      rfl
    · rw [List.getElem?_take, if_neg (by omega), List.getElem?_eq_none (by simp; omega)]

/-! The hash table. -/

theorem htHash_lt (k : List Char) : htHashKey k < maxSlots := Nat.mod_lt _ (by decide)

/-- The slot holds the items `l`. -/
def SlotRep (slot : Option (CVector (HashItem α))) (l : List (HashItem α)) : Prop :=
  match slot with
  | none => l = []
  | some v => VRep v l ∧ v.frozen = false

/-- The table stores the insertions `ins`. -/
def HRep (ht : HashTable α) (ins : List (List Char × α)) : Prop :=
  ht.slots.length = maxSlots ∧
    ∃ ls : Nat → List (HashItem α),
      (∀ h slot, ht.slots[h]? = some slot → SlotRep slot (ls h)) ∧
      ∀ k, ((ls (htHashKey k)).find? fun it => it.key = k).map HashItem.data = firstValue ins k

theorem htScan_eq {v : CVector (HashItem α)} (hv : VRep v l) (k : List Char) (n i : Nat)
    (h : i + n = l.length) :
    htScan v k i n = some (((l.drop i).find? fun it => it.key = k).map HashItem.data) := by
  induction n generalizing i with
  | zero => simp [htScan, List.drop_eq_nil_of_le (show l.length ≤ i by omega)]
  | succ n ih =>
    unfold htScan
    have hx : l[i]? = some l[i] := List.getElem?_eq_getElem (by omega)
    rw [vrep_at hv, hx, List.drop_eq_getElem_cons (by omega)]
    simp only [List.find?_cons]
    by_cases hk : l[i].key = k
    · simp [hk]
    · simp only [hk, if_false, decide_false]
      exact ih (i + 1) (by omega)

theorem hrep_get {ht : HashTable α} (h : HRep ht ins) (k : List Char) :
    htGet (some ht) k = some (firstValue ins k) := by
  obtain ⟨h1, ls, h2, h3⟩ := h
  have hk := htHash_lt k
  have hx : ht.slots[htHashKey k]? = some ht.slots[htHashKey k] := List.getElem?_eq_getElem (by omega)
  have hr := h2 _ _ hx
  simp only [htGet, hx, ← h3 k]
  cases hs : ht.slots[htHashKey k] with
  | none => rw [hs] at hr; simp only [SlotRep] at hr; simp [hr]
  | some v =>
    rw [hs] at hr
    simp only [SlotRep] at hr
    have := htScan_eq hr.1 k v.length 0 (by rw [hr.1.1]; omega)
    simpa using this

theorem slotRep_items {slot : Option (CVector (HashItem α))} (h : SlotRep slot l) :
    VRep (itemsOrNew slot) l ∧ (itemsOrNew slot).frozen = false := by
  cases slot with
  | none => simp only [SlotRep] at h; subst h; exact ⟨vrep_make, rfl⟩
  | some v => exact h

theorem firstValue_append_single (ins : List (List Char × α)) (k k' : List Char) (x : α) :
    firstValue (ins ++ [(k, x)]) k' =
      match firstValue ins k' with
      | some y => some y
      | none => if k = k' then some x else none := by
  unfold firstValue
  rw [List.find?_append]
  cases hf : ins.find? fun kv => kv.1 = k' with
  | some y => simp
  | none => by_cases hk : k = k' <;> simp [hk]

theorem hrep_add {ht : HashTable α} (h : HRep ht ins) (k : List Char) (x : α) :
    ∃ ht', htAdd (some ht) k (some x) = some (some ht', (firstValue ins k).isNone) ∧
      HRep ht' (ins ++ [(k, x)]) := by
  have hg := hrep_get h k
  unfold htAdd
  simp only [hg]
  cases hf : firstValue ins k with
  | some y =>
    refine ⟨ht, by simp, h.1, ?_⟩
    obtain ⟨h1, ls, h2, h3⟩ := h
    refine ⟨ls, h2, fun k' => ?_⟩
    rw [h3, firstValue_append_single]
    cases hk' : firstValue ins k' with
    | some z => rfl
    | none =>
      have : k ≠ k' := by intro e; subst e; rw [hf] at hk'; cases hk'
      simp [this]
  | none =>
    obtain ⟨h1, ls, h2, h3⟩ := h
    have hk := htHash_lt k
    have hx : ht.slots[htHashKey k]? = some ht.slots[htHashKey k] := List.getElem?_eq_getElem (by omega)
    have hr := slotRep_items (h2 _ _ hx)
    obtain ⟨v', hp, hv', hfz⟩ := vrep_push hr.1 hr.2 (⟨k, x⟩ : HashItem α)
    simp only [hx, hp, Option.map_some]
    refine ⟨_, rfl, by simp [h1], fun i => if i = htHashKey k then ls i ++ [⟨k, x⟩] else ls i, ?_, ?_⟩
    · intro i slot hs
      by_cases hi : i = htHashKey k
      · subst hi
        simp only at hs
        rw [List.getElem?_set_self (by omega)] at hs
        cases hs
        simp only [if_true, SlotRep]
        exact ⟨hv', hfz⟩
      · simp only at hs
        rw [List.getElem?_set_ne (fun e => hi e.symm)] at hs
        simp only [hi, if_false]
        exact h2 i slot hs
    · intro k'
      rw [firstValue_append_single, ← h3 k']
      by_cases hi : htHashKey k' = htHashKey k
      · simp only [hi, if_true, List.find?_append]
        cases hq : (ls (htHashKey k)).find? fun it => it.key = k' with
        | some z => simp
        | none => by_cases hkk : k = k' <;> simp [hkk]
      · have : k ≠ k' := by intro e; subst e; exact hi rfl
        simp only [hi, if_false, this]
        cases hq : ((ls (htHashKey k')).find? fun it => it.key = k').map HashItem.data <;> rfl

theorem hrep_make : HRep (makeHt α) [] := by
  refine ⟨by simp [makeHt], fun _ => [], ?_, fun k => by simp [firstValue]⟩
  intro h slot hs
  simp only [makeHt] at hs
  rw [List.getElem?_replicate] at hs
  split at hs <;> simp at hs
  subst hs
  rfl

end Skull
