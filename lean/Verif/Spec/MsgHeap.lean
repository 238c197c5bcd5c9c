import Verif.Model.MsgHeap
import Verif.Spec.Diag
/-
Code that reports diagnostics as the compiler does.
-/
namespace Skull.MsgHeap
open Skull Skull.Spec
open Skull.ContHeap (M alloc use)

/-- One call of FMT_ERROR or FMT_WARN. -/
structure Diag where
  kind : DiagKind
  code : Code
  args : List Arg

/-- The call is one that is in the compiler. -/
def Diag.Known (d : Diag) : Prop := (d.code, d.args.map Arg.kind) ∈ diagSites

/-- The message with what is given. -/
def msgOf (a : Arg) : Message := argMessage a.kind a.loc a.bytes a.chars a.num

/-- The caller makes a text for `real`, and gives it away. -/
def giveH (a : Arg) : M MsgH :=
  match a.kind with
  | .real | .locReal => do
    let b ← alloc
    use b
    pure ⟨msgOf a, some b⟩
  | _ => pure ⟨msgOf a, none⟩

def giveAllH : List Arg → M (List MsgH)
  | [] => pure []
  | a :: args => do
    let x ← giveH a
    let xs ← giveAllH args
    pure (x :: xs)

/-- Diagnostics one after the other. -/
def reportH (color : Bool) (filename : List UInt8) : List Diag → Errs → M Errs
  | [], errs => pure errs
  | d :: ds, errs => do
    let ms ← giveAllH d.args
    let errs ← fmtMessageH color filename d.kind d.code ms errs
    reportH color filename ds errs

/-- Files that are compiled one after the other (real_main.c:28-33), with the diagnostics of each of them. -/
def filesH (color quiet : Bool) : List (List UInt8 × List Diag) → M Unit
  | [] => pure ()
  | f :: fs => do
    let errs ← reportH color f.1 f.2 none
    writeAndFreeH quiet errs
    filesH color quiet fs

end Skull.MsgHeap
