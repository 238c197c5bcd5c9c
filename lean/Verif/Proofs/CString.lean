import Verif.Spec.CSyntax
/-
Lemmas about C strings.
-/
namespace Skull
open Spec Spec.C

theorem ite_some_le {p : Prop} [Decidable p] {a b : Option (Nat × List Char)} {n : Nat} {r : List Char} {m : Nat}
    (h : (if p then a else b) = some (n, r)) (ha : p → a = some (n, r) → r.length ≤ m) (hb : b = some (n, r) → r.length ≤ m) : r.length ≤ m := by
  by_cases hp : p
  · rw [if_pos hp] at h; exact ha hp h
  · rw [if_neg hp] at h; exact hb h

/-- Each character of a string has at least one character in the text, exactly one if it is not a backslash. -/
theorem strChar_len {s r : List Char} {n : Nat} (h : strChar s = some (n, r)) :
    (∃ c, s = c :: r ∧ n = c.toNat ∧ c ≠ '"' ∧ c ≠ '\n' ∧ c ≠ '\\') ∨ r.length + 2 ≤ s.length := by
  match s with
  | [] => cases h
  | c :: s =>
    simp only [strChar] at h
    by_cases h1 : c = '"' ∨ c = '\n'
    · rw [if_pos h1] at h; cases h
    · rw [if_neg h1] at h
      rw [not_or] at h1
      by_cases h2 : c ≠ '\\'
      · rw [if_pos h2] at h
        cases h
        exact .inl ⟨c, rfl, rfl, h1.1, h1.2, h2⟩
      · rw [if_neg h2] at h
        match s with
        | [] => cases h
        | d :: s =>
          simp only at h
          have same : ∀ k, (some (k, s) : Option (Nat × List Char)) = some (n, r) → r.length ≤ s.length := by
            intro k h
            cases h
            exact Nat.le_refl _
          refine .inr ?_
          simp only [List.length_cons]
          refine Nat.add_le_add_right (k := 2) ?_
          refine ite_some_le h (fun _ => same _) fun h => ?_
          refine ite_some_le h (fun _ => same _) fun h => ?_
          refine ite_some_le h (fun _ => same _) fun h => ?_
          refine ite_some_le h (fun _ => same _) fun h => ?_
          refine ite_some_le h (fun _ => same _) fun h => ?_
          refine ite_some_le h (fun _ => same _) fun h => ?_
          refine ite_some_le h (fun _ => same _) fun h => ?_
          refine ite_some_le h (fun _ => same _) fun h => ?_
          refine ite_some_le h (fun _ h => ?_) fun h => ?_
          · refine ite_some_le h (fun _ h => by cases h) fun h => ?_
            cases h
            exact (List.dropWhile_sublist _).length_le
          · refine ite_some_le h (fun hd h => ?_) fun h => ?_
            · cases h
              have : 1 ≤ (List.takeWhile isOctDigit (d :: List.take 2 s)).length := by simp [hd]
              simp only [List.length_drop, List.length_cons]
              omega
            · refine ite_some_le h (fun _ h => ?_) fun h => ?_
              · refine ite_some_le h (fun _ h => ?_) fun h => by cases h
                cases h
                simp
              · refine ite_some_le h (fun _ h => ?_) fun h => by cases h
                refine ite_some_le h (fun _ h => ?_) fun h => by cases h
                cases h
                simp

end Skull
