import Verif.Spec.DebugTypes
/-
C89: debuggers know the types of variables.
-/
namespace Skull
open Spec

/-- Full statement of C89: the variables of every type are described, and rightly. -/
def C89_full : Prop := ∀ ty : Ty, ty ≠ .prim .void → ∃ d, typeToDiType ty = some d ∧ Describes d ty

/-- C89 is false in full: a `Bool` is said to have one bit, which makes no byte. -/
theorem C89_false : ¬ C89_full := by
  intro h
  obtain ⟨d, h1, _, h2, _⟩ := h (.prim .bool) (by decide)
  simp only [typeToDiType, Option.some.injEq] at h1
  subst h1
  exact absurd h2 (by decide)

theorem di_name : ∀ ty : Ty, diName ty = typeSpelling ty
  | .prim _ => rfl
  | .ref t => by rw [diName, di_name t, typeSpelling]

theorem di_shows : ∀ ty : Ty, debuggerShows (typeToLlvmDiType ty) = shownAs ty ↔ ¬ EndsInBool ty
  | .prim p => by
    cases p <;> simp only [EndsInBool, reduceCtorEq, not_false_eq_true, iff_true, not_true_eq_false, iff_false] <;> decide
  | .ref t => by
    simp only [typeToLlvmDiType, debuggerShows, shownAs, Shown.to.injEq, EndsInBool]
    exact di_shows t

/-- What holds: exactly the types that do not end in `Bool` are described rightly. -/
theorem C89_partial (ty : Ty) (h : ty ≠ .prim .void) : (∃ d, typeToDiType ty = some d ∧ Describes d ty) ↔ ¬ EndsInBool ty := by
  have e : typeToDiType ty = some (typeToLlvmDiType ty) := by
    cases ty with
    | ref _ => rfl
    | prim p => cases p <;> first | rfl | exact absurd rfl h
  constructor
  · rintro ⟨d, h1, _, _, h4⟩
    rw [e] at h1
    rw [← Option.some.inj h1] at h4
    exact (di_shows ty).1 h4
  · intro hb
    refine ⟨_, e, ?_, ?_, (di_shows ty).2 hb⟩
    · rw [← di_name]
      cases ty with
      | ref _ => rfl
      | prim p => cases p <;> rfl
    · cases ty with
      | ref _ => simp [typeToLlvmDiType, DIType.bits, storeBytes, lty]
      | prim p => cases p <;> first | rfl | exact absurd rfl h | exact absurd rfl hb

/-- Types have the same description only if they are the same. -/
theorem C89_distinct (a b : Ty) (h : a ≠ .prim .void) (he : typeToDiType a = typeToDiType b) : a = b := by
  have g : ∀ a b : Ty, typeToLlvmDiType a = typeToLlvmDiType b → a = b := by
    intro a
    induction a with
    | prim p =>
      intro b hb
      cases b with
      | prim q => cases p <;> cases q <;> first | rfl | exact absurd hb (by decide)
      | ref t => cases p <;> simp [typeToLlvmDiType, diName, Prim.name] at hb
    | ref s ih =>
      intro b hb
      cases b with
      | prim q => cases q <;> simp [typeToLlvmDiType, diName, Prim.name] at hb
      | ref t =>
        simp only [typeToLlvmDiType, DIType.pointer.injEq] at hb
        rw [ih t hb.2.2]
  have e : ∀ c : Ty, typeToDiType c = some (typeToLlvmDiType c) ∨ c = .prim .void := by
    intro c
    cases c with
    | ref _ => exact .inl rfl
    | prim p => cases p <;> first | exact .inl rfl | exact .inr rfl
  rcases e a with ha | ha
  · rcases e b with hb | hb
    · rw [ha, hb] at he
      exact g a b (Option.some.inj he)
    · subst hb
      rw [ha] at he
      cases he
  · exact absurd ha h

/- What the debugger is told about `&Str`, and about a `Bool`. -/
example : typeToDiType (.ref (.prim .str)) =
    some (.pointer "&Str".toList 64 (.pointer "Str".toList 64 (.basic "char".toList 8 .signedChar))) := by decide
example : ∃ d, typeToDiType (.ref (.prim .str)) = some d ∧ Describes d (.ref (.prim .str)) :=
  (C89_partial _ (by decide)).2 (by simp [EndsInBool])
example : typeToDiType (.prim .bool) = some (.basic "Bool".toList 1 .boolean) := by decide
example : debuggerShows (.basic "Bool".toList 8 .boolean) = shownAs (.prim .bool) := by decide
example : ¬ Describes (.basic "Int".toList 32 .signed) (.prim .int) := by rintro ⟨_, h, _⟩; exact absurd h (by decide)

end Skull
