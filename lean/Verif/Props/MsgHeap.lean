import Verif.Proofs.MsgHeap
import Verif.Props.ContHeap
/-
C93: the memory of diagnostics is freed once.
-/
namespace Skull.MsgHeap
open Skull Skull.Spec Skull.ContHeap

/-- Whatever diagnostics are reported for any number of files: no block is used after it was freed, and after the diagnostics of a file
were written all that was made for them, and all that was given to them, is freed, once. -/
theorem C93 (color quiet : Bool) (fs : List (List UInt8 × List Diag)) (h : ∀ f ∈ fs, ∀ d ∈ f.2, d.Known) :
    ∃ mem, filesH color quiet fs {} = some ((), mem) ∧ MemClean mem.evs := by
  obtain ⟨_, mem, h1, _, h2⟩ := files_d color quiet fs h {} [] start
  exact ⟨mem, h1, CHeap.holds_clean h2⟩

/-- Before they are written, the texts of all diagnostics are kept in the order of the reports. -/
theorem C93_kept (color : Bool) (filename : List UInt8) (ds : List Diag) (h : ∀ d ∈ ds, d.Known) (hne : ds ≠ []) :
    ∃ v mem, reportH color filename ds none {} = some (some v, mem) ∧
      (items v).map (fun m => some m.1) = ds.map fun d => fmtMessage color filename d.kind d.code (d.args.map msgOf) := by
  obtain ⟨e, mem, h1, h2, _⟩ := report_d color filename ds h (errs := none) (ts := []) rfl {} [] start
  rw [List.nil_append] at h2
  have ht : ds.map (fun d => fmtMessage color filename d.kind d.code (d.args.map msgOf)) = (ds.map (textOf color filename)).map some := by
    rw [List.map_map]
    exact List.map_congr_left fun d hd => text_some' color filename (h d hd)
  cases e with
  | none =>
    cases ds with
    | nil => exact absurd rfl hne
    | cons d ds => cases h2
  | some v =>
    obtain ⟨l, hv, hl⟩ := h2
    refine ⟨v, mem, h1, ?_⟩
    rw [fine_items hv, ht, ← hl, List.map_map]
    rfl

/-- `x` is not found, at the place. -/
def notFound : Diag := ⟨.fatal, .errVarNotFound, [⟨.locReal, ⟨1, 1⟩, ascii "x", [], 0⟩]⟩
def otherType : Diag := ⟨.fatal, .errExpectedSameType, [⟨.locType, ⟨2, 3⟩, ascii "Int", [], 0⟩, ⟨.type, ⟨0, 0⟩, ascii "Bool", [], 0⟩]⟩
def emptyFile : Diag := ⟨.warning, .warnFileEmpty, [⟨.zero, ⟨0, 0⟩, [], [], 0⟩]⟩

instance (d : Diag) : Decidable d.Known := by unfold Diag.Known; infer_instance

example : notFound.Known ∧ otherType.Known ∧ emptyFile.Known := by decide +kernel

def counts (fs : List (List UInt8 × List Diag)) : Option (Nat × Nat) := (filesH false false fs {}).map fun r => tally r.2.evs

-- the name, prefix, place, message and all of it, the vector and its array
example : counts [(ascii "a.sk", [notFound])] = some (7, 7) := by decide +kernel
-- two names, prefix, place, message, all of it
example : counts [(ascii "a.sk", [notFound, otherType])] = some (13, 13) := by decide +kernel
-- no place
example : counts [(ascii "a.sk", [emptyFile]), (ascii "b.sk", []), (ascii "c.sk", [notFound])] = some (12, 12) := by decide +kernel
example : (reportH false (ascii "a.sk") [notFound, emptyFile] none {}).map (fun r => (r.1.map items).map (·.map (·.1))) =
    some (some [ascii "a.sk: Compilation error: line 1 column 1: variable \"x\" not found\n", ascii "a.sk: Warning: file is empty\n"]) := by
  decide +kernel
-- no call in the compiler has a text behind a message without one: it would not be freed
example : counts [(ascii "a.sk", [⟨.fatal, .errNoDanglingExpr, [⟨.loc, ⟨1, 1⟩, [], [], 0⟩, ⟨.real, ⟨0, 0⟩, ascii "x", [], 0⟩]⟩])] = some (7, 6) := by
  decide +kernel

end Skull.MsgHeap
