import Verif.Proofs.CTotal
import Verif.Props.CText
/-
C68: which programs the C back end writes.
-/
namespace Skull
open Spec Spec.C

/- ### C68 -/

/-- The property as stated: every accepted program is written. -/
def C68_full : Prop :=
  ∀ (cfg : Cfg) (t : Tree) (a : ATree) (s : SS), Parsed t → semantic cfg t = .ok a s → ∀ (dbg : Option (List Char)) (fmtA : Nat → List Char),
    ∃ r, genModuleC ⟨s.syms, dbg, fmtA⟩ a = some r

/-- An accepted program is written, with debug information or without, exactly if every block has a statement that is written where it
stands.  There is no other way for the generator to run into an assertion or a null pointer.  Missing from the full statement: the other programs. -/
theorem C68_partial {cfg : Cfg} {t : Tree} {a : ATree} {s : SS} (hp : Parsed t) (h : semantic cfg t = .ok a s)
    (dbg : Option (List Char)) (fmtA : Nat → List Char) :
    (∃ r, genModuleC ⟨s.syms, dbg, fmtA⟩ a = some r) ↔ Writable 1 a :=
  genModuleC_iff hp h dbg fmtA

/-- Whether a program is written. -/
def writes (src : String) : Bool :=
  match checked sampleCfg src with
  | .ok a s => (genModuleC ⟨s.syms, none, fun _ => ['0']⟩ a).isSome
  | _ => false

/-- A function with nothing but a constant in it. -/
def constOnly : String := "f() {\nx := 1\n}\nf()\n"

theorem C68_false : ¬ C68_full := by
  intro hf
  have hacc : acceptsSrc constOnly = true := by decide +kernel
  have key : (match checked sampleCfg constOnly with
      | .ok a s => (genModuleC ⟨s.syms, none, fun _ => ['0']⟩ a).isNone
      | _ => false) = true := by decide +kernel
  split at key
  · rename_i a s hs
    obtain ⟨r, hr⟩ := hf sampleCfg _ a s (parsed_src hacc) hs none (fun _ => ['0'])
    rw [hr] at key
    cases key
  · cases key

/-- Accepted, but not written: a block with a comment only; one with a function only; a function with a constant only. -/
example : ["if true {\n# nothing\n}\n", "while false {\nf() {\nnoop\n}\n}\n", constOnly].all (fun src => acceptsSrc src && !writes src) = true := by
  decide +kernel

/-- Written: the same with a statement more, or elsewhere. -/
example : ["export x := 1\n", "if true {\n# nothing\nnoop\n}\n", "f() {\nx := 1\nnoop\n}\nf()\n",
    "f() {\nif true {\nx := 1\n}\n}\nf()\n"].all writes = true := by decide +kernel

/-- The condition tells them apart. -/
example {t : List Token} {e : Token} :
    ¬ Writable 1 (.node .none .elses t (.node .none .comment t .nil .nil) .nil) ∧
    Writable 1 (.node .none .elses t (.node .none .noop t .nil .nil) .nil) ∧
    Speaks 1 (.node (.varDef 0 (.const e (.int 1))) (.varDef [] true true false .missing) t .nil .nil) = false ∧
    Speaks 2 (.node (.varDef 0 (.const e (.int 1))) (.varDef [] true true false .missing) t .nil .nil) = true := by
  refine ⟨?_, ?_, rfl, rfl⟩
  · intro h
    unfold Writable at h
    exact absurd h.1.1 (by simp [Speaks, speaks])
  · unfold Writable
    refine ⟨⟨rfl, ?_⟩, trivial⟩
    unfold Writable
    exact ⟨trivial, trivial⟩

end Skull
