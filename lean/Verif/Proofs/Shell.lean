import Verif.Spec.Shell
import Verif.Proofs.Driver
/-
The words of the link command.
-/
namespace Skull
open Spec

theorem shWords_plain : ∀ (w : List Char) (cur : List Char) (rest : List Char), (∀ c ∈ w, plainChar c = true) →
    shWords false (some cur) (w ++ rest) = shWords false (some (cur ++ w)) rest
  | [], cur, rest, _ => by simp
  | c :: w, cur, rest, h => by
    have hc := h c (by simp)
    have h1 : c ≠ ' ' := by intro e; subst e; revert hc; decide
    have h2 : c ≠ '"' := by intro e; subst e; revert hc; decide
    rw [List.cons_append, shWords, if_neg h1, if_neg h2, if_pos hc, Option.getD_some,
      shWords_plain w _ rest (fun d hd => h d (by simp [hd])), List.append_assoc, List.singleton_append]

theorem shWords_begin {w : List Char} {rest : List Char} (h : ∀ c ∈ w, plainChar c = true) (hne : w ≠ []) :
    shWords false none (w ++ rest) = shWords false (some w) rest := by
  cases w with
  | nil => exact absurd rfl hne
  | cons c w =>
    have hc := h c (by simp)
    have h1 : c ≠ ' ' := by intro e; subst e; revert hc; decide
    have h2 : c ≠ '"' := by intro e; subst e; revert hc; decide
    rw [List.cons_append, shWords, if_neg h1, if_neg h2, if_pos hc, Option.getD_none, List.nil_append,
      shWords_plain w _ rest (fun d hd => h d (by simp [hd])), List.singleton_append]

theorem shWords_blank {cur : Option (List Char)} {rest : List Char} :
    shWords false cur (' ' :: rest) = (shWords false none rest).map (cur.toList ++ ·) := by
  rw [shWords, if_pos rfl]

theorem shWords_inside : ∀ (w : List Char) (cur : List Char) (rest : List Char), (∀ c ∈ w, specialQuoted c = false) →
    shWords true (some cur) (w ++ rest) = shWords true (some (cur ++ w)) rest
  | [], cur, rest, _ => by simp
  | c :: w, cur, rest, h => by
    have hc := h c (by simp)
    have h2 : c ≠ '"' := by intro e; subst e; revert hc; decide
    rw [List.cons_append, shWords, if_neg h2, if_neg (by simp [hc]), Option.getD_some,
      shWords_inside w _ rest (fun d hd => h d (by simp [hd])), List.append_assoc, List.singleton_append]

theorem shWords_quoted {w rest : List Char} (h : ∀ c ∈ w, specialQuoted c = false) :
    shWords false none ('"' :: w ++ '"' :: rest) = shWords false (some w) rest := by
  rw [List.cons_append, shWords, if_neg (by decide), if_pos rfl, Option.getD_none, shWords_inside w [] _ h, List.nil_append, shWords,
    if_pos rfl]

theorem shWords_joined : ∀ (a : List Char) (as : List (List Char)) (rest : List Char), (∀ x ∈ a :: as, x ≠ [] ∧ ∀ c ∈ x, plainChar c = true) →
    shWords false none (joinSpaces a as ++ ' ' :: rest) = (shWords false none rest).map ((a :: as) ++ ·)
  | a, [], rest, h => by
    have ha := h a (by simp)
    rw [joinSpaces, shWords_begin ha.2 ha.1, shWords_blank]
    rfl
  | a, b :: as, rest, h => by
    have ha := h a (by simp)
    rw [joinSpaces, List.append_assoc, shWords_begin ha.2 ha.1, List.cons_append, shWords_blank,
      shWords_joined b as rest fun x hx => h x (by simp [List.mem_cons.1 hx])]
    cases shWords false none rest <;> simp

end Skull
