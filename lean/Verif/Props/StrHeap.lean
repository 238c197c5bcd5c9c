import Verif.Spec.StrHeap
import Verif.Proofs.StrHeap
import Verif.Props.ContHeap
/-
C94: the values of string literals are there when they are read, and are freed once.
-/
namespace Skull.StrHeap
open Skull Skull.Spec
open Skull.DrvHeap (Runs)
open Skull.ContHeap (M Holds Does start tally Same.rfl')

theorem does_of {f : M α} {b : β} {g : α → β} {Q : α → Prop} {pre : List Nat} {post : α → List Nat} (h : Runs f (some b) g Q pre post) :
    Does f Q pre post := by
  intro m L hh
  obtain ⟨a, m', h1, _, h2, h3⟩ := h m L hh
  exact ⟨a, m', h1, h2, h3⟩

def blocks : List (Option AExpr × VE) → List Nat
  | [] => []
  | v :: vs => eb v.2 ++ blocks vs

/-- What was accepted can be read. -/
def Readable (x : Option AExpr × VE) : Prop := ∀ a, x.1 = some a → ReadsE a x.2

theorem check_d (cfg : Cfg) : ∀ (xs : List (Expr × SS)), (∀ x ∈ xs, validateExpr cfg x.1 x.2 ≠ .ub) → ∀ F,
    Does (checkAll cfg xs) (fun vs => ∀ v ∈ vs, Readable v) F (fun vs => blocks vs ++ F)
  | [], _, F => .pure (by simp) (Same.rfl' _)
  | x :: xs, h, F => by
    have hx := expr_r cfg x.1 x.2
    have hd : Does (exprH cfg x.1 x.2) (fun r => ∀ a, r.1.1 = some a → ReadsE a r.2) [] (fun r => eb r.2) := by
      unfold Steps at hx
      cases hc : validateExpr cfg x.1 x.2 with
      | ub => exact absurd hc (h x (by simp))
      | fail s => rw [hc] at hx; exact does_of hx
      | ok a s => rw [hc] at hx; exact does_of hx
    refine .bind (hd.frame F) fun r hr => .bind (check_d cfg xs (fun x hx => h x (by simp [hx])) _) fun vs hvs => .pure ?_ ?_
    · intro v hv
      rcases List.mem_cons.1 hv with rfl | hv
      · exact hr
      · exact hvs v hv
    · simp only [blocks]
      same

theorem split_blocks {v : Option AExpr × VE} : ∀ {vs : List (Option AExpr × VE)}, v ∈ vs → ∃ F, List.Perm (blocks vs) (eb v.2 ++ F)
  | w :: vs, h => by
    rcases List.mem_cons.1 h with rfl | h
    · exact ⟨blocks vs, .refl _⟩
    · obtain ⟨F, hF⟩ := split_blocks h
      refine ⟨eb w.2 ++ F, ((List.Perm.refl _).append hF).trans ?_⟩
      rw [← List.append_assoc, ← List.append_assoc]
      exact List.perm_append_comm.append_right F

theorem read_d {vs : List (Option AExpr × VE)} (h : ∀ v ∈ vs, Readable v) : ∀ is : List Nat,
    Does (readAll vs is) (fun _ => True) (blocks vs) (fun _ => blocks vs)
  | [] => .pure trivial (Same.rfl' _)
  | i :: is => by
    refine .bind (Q := fun _ => True) (mid := fun _ => blocks vs) ?_ fun _ _ => read_d h is
    cases hi : vs[i]? with
    | none => exact .pure trivial (Same.rfl' _)
    | some v =>
      obtain ⟨o, v⟩ := v
      cases o with
      | none => exact .pure trivial (Same.rfl' _)
      | some a =>
        have hm := List.mem_of_getElem? hi
        obtain ⟨F, hF⟩ := split_blocks hm
        exact (h _ hm a rfl F).cast (fun b => hF.count_eq b) fun _ _ b => hF.symm.count_eq b

theorem free_all : ∀ (vs : List (Option AExpr × VE)) (F : List Nat), Does (freeAll vs) (fun _ => True) (blocks vs ++ F) (fun _ => F)
  | [], _ => .pure trivial (Same.rfl' _)
  | v :: vs, F => .bind ((freeE_d v.2 (blocks vs ++ F)).cast (by simp only [blocks]; same) fun _ _ => Same.rfl' _) fun _ _ => free_all vs F

/-- The check with the memory decides what the check decides, with the same state (and diagnostics). -/
theorem C94_same (cfg : Cfg) (e : Expr) (s : SS) : (exprH cfg e s {}).map (·.1.1) = outc (validateExpr cfg e s) := by
  have h := expr_r cfg e s {} [] start
  cases ho : outc (validateExpr cfg e s) with
  | none => rw [ho] at h; rw [h]; rfl
  | some b =>
    rw [ho] at h
    obtain ⟨a, m, h1, h2, _⟩ := h
    rw [h1, ← h2]
    rfl

/-- Whatever expressions are checked in whatever states, and wherever these checks stop: every string literal of those that are accepted has
a text when a back end reads it, no text is used after it was freed, and freeing the expressions frees all texts that were made, once. -/
theorem C94 (cfg : Cfg) (xs : List (Expr × SS)) (reads : List Nat) (h : ∀ x ∈ xs, validateExpr cfg x.1 x.2 ≠ .ub) :
    ∃ mem, strLife cfg xs reads {} = some ((), mem) ∧ MemClean mem.evs := by
  have hl : Does (strLife cfg xs reads) (fun _ => True) [] (fun _ => []) :=
    .bind (check_d cfg xs h []) fun vs hvs => .bind ((read_d hvs reads).frame []) fun _ _ => free_all vs []
  obtain ⟨_, mem, h1, _, h2⟩ := hl {} [] start
  exact ⟨mem, h1, CHeap.holds_clean h2⟩

/-- The expression of a literal. -/
def lit (ty : TokType) (text : String) : Expr := .const { begin := some text.toList, len := text.length, ty := ty, line := 1, col := 1 }

/-- What was allocated and freed, and whether the checks succeeded. -/
def counts (xs : List Expr) : Option (Nat × Nat) := (strLife { filename := [] } (xs.map fun e => (e, {})) (List.range xs.length) {}).map fun r => tally r.2.evs
def accepted (e : Expr) : Bool := match validateExpr { filename := [] } e {} with | .ok .. => true | _ => false

-- the copy, its shrunk copy, the bytes, the shrunk bytes
example : accepted (lit .strConst "\"ab\"") ∧ counts [lit .strConst "\"ab\""] = some (4, 4) := by decide +kernel
-- an error in the text: only the copy is made
example : ¬ accepted (lit .strConst "\"\\q\"") ∧ counts [lit .strConst "\"\\q\""] = some (1, 1) := by decide +kernel
-- the right side is made before the types are found to be different, the left side after it
example : counts [.bin .is (lit .intConst "1") (lit .strConst "\"a\""), .bin .is (lit .strConst "\"a\"") (lit .strConst "\"b\"")] = some (12, 12) := by
  decide +kernel
-- after an error on the right side, the left side has no value
example : counts [.bin .is (lit .strConst "\"a\"") (lit .strConst "\"\\q\"")] = some (1, 1) := by decide +kernel

-- a literal without a text can not be read
example (t : Token) : readE (.const t (.str [])) (.lit t none) {} = none := rfl

end Skull.StrHeap
