import Verif.Model.StrHeap
/-
Expressions that are checked one after the other, read by a back end, and then freed.
-/
namespace Skull.StrHeap
open Skull
open Skull.ContHeap (M)

/-- Expressions with the states in which they are checked; whether a check fails makes no difference to the next one. -/
def checkAll (cfg : Cfg) : List (Expr × SS) → M (List (Option AExpr × VE))
  | [] => pure []
  | x :: xs => do
    let r ← exprH cfg x.1 x.2
    let vs ← checkAll cfg xs
    pure ((r.1.1, r.2) :: vs)

/-- A back end reads the texts of an expression that was accepted. -/
def readOne : Option (Option AExpr × VE) → M Unit
  | some (some a, v) => readE a v
  | _ => pure ()

/-- Expressions that were accepted are read in any order, and as often as it may be. -/
def readAll (vs : List (Option AExpr × VE)) : List Nat → M Unit
  | [] => pure ()
  | i :: is => do
    readOne vs[i]?
    readAll vs is

def freeAll : List (Option AExpr × VE) → M Unit
  | [] => pure ()
  | v :: vs => do
    freeVE v.2
    freeAll vs

def strLife (cfg : Cfg) (xs : List (Expr × SS)) (reads : List Nat) : M Unit := do
  let vs ← checkAll cfg xs
  readAll vs reads
  freeAll vs

end Skull.StrHeap
