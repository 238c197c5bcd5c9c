import Verif.Proofs.Types
/-
Properties of the types.
-/
namespace Skull
open Spec

/-- C32: over every sequence of type constructions, two results are the same pointer exactly when they stand for the same type, no
undefined operation is performed, and every pointer carries the spelling of its type. -/
theorem C32_reference_types (ops : List TyOp) (h : ops.length < 2 ^ 63) :
    ∃ ps ts, ptrRun {} [] ops = some (ps, ts) ∧ ps.length = ops.length ∧
      (∀ i j : Nat, (ps[i]?).join = (ps[j]?).join ↔ ((tyRun [] ops)[i]?).join = ((tyRun [] ops)[j]?).join) ∧
      (∀ (i : Nat) p, (ps[i]?).join = some p → ∃ t, ((tyRun [] ops)[i]?).join = some t ∧ typeName ts p = some (typeSpelling t)) := by
  obtain ⟨ps, ts, den, h1, h2, h3⟩ := ptrRun_inv ops {} [] [] [] tyInv_init ⟨rfl, by simp⟩ (by intro i t h; simp at h)
    (by simpa using h)
  refine ⟨ps, ts, h1, ?_, ?_, ?_⟩
  · rw [h3.1, tyRun_length]; simp
  · intro i j
    have hi := h3.2 i
    have hj := h3.2 j
    cases hp : (ps[i]?).join with
    | none =>
      rw [hp] at hi
      simp only at hi
      rw [hi]
      cases hq : (ps[j]?).join with
      | none => rw [hq] at hj; simp only at hj; simp [hj]
      | some q => rw [hq] at hj; obtain ⟨t, _, h5⟩ := hj; simp [h5]
    | some p =>
      rw [hp] at hi
      obtain ⟨t, h4, h5⟩ := hi
      rw [h5]
      cases hq : (ps[j]?).join with
      | none => rw [hq] at hj; simp only at hj; simp [hj]
      | some q =>
        rw [hq] at hj
        obtain ⟨u, h6, h7⟩ := hj
        rw [h7]
        simp only [Option.some.injEq]
        constructor
        · rintro rfl
          rw [h4] at h6; exact Option.some.inj h6
        · rintro rfl
          exact denote_inj h2 h4 h6
  · intro i p hp
    have hi := h3.2 i
    rw [hp] at hi
    obtain ⟨t, h4, h5⟩ := hi
    exact ⟨t, h5, typeName_denote h2 h4⟩

/-- Int, &Int, &Int again, &&Int, Bool, &Bool. -/
def sampleOps : List TyOp := [.builtin .int, .refTo 0, .refTo 0, .refTo 1, .builtin .bool, .refTo 4, .refTo 2]

example : (ptrRun {} [] sampleOps).map Prod.fst =
    some [some (.builtin .int), some (.dyn 0), some (.dyn 0), some (.dyn 1), some (.builtin .bool), some (.dyn 2), some (.dyn 1)] := by
  decide +kernel

example : tyRun [] sampleOps = [some (.prim .int), some (.ref (.prim .int)), some (.ref (.prim .int)), some (.ref (.ref (.prim .int))),
    some (.prim .bool), some (.ref (.prim .bool)), some (.ref (.ref (.prim .int)))] := by decide

/-- C32: the name of a builtin type finds that type, and no other name finds one. -/
theorem C32_builtin_names (name : List Char) (p : Prim) : findBuiltinType name = some p ↔ name = typeSpelling (.prim p) := by
  constructor
  · intro h
    have : ∀ l, findBuiltinLoop name l = some p → name = p.name := by
      intro l
      induction l with
      | nil => intro h; simp [findBuiltinLoop] at h
      | cons q l ih =>
        intro h
        unfold findBuiltinLoop at h
        split at h
        · cases h; assumption
        · exact ih h
    exact this _ h
  · rintro rfl
    cases p <;> decide

example : findBuiltinType "Rune".toList = some .rune ∧ findBuiltinType "rune".toList = none := by decide

end Skull
