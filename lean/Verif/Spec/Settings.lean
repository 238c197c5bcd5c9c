import Verif.Model.Driver
/-
What `--quiet`, `--werror` and `--color` may change about a run.
-/
namespace Skull.Spec

/-- What a run does, but for the diagnostics it prints. -/
def work (acts : List Act) : List Act :=
  acts.filter fun
    | .diags _ => false
    | _ => true

/-- Two settings that differ in messages only. -/
structure SameWork (b b' : BuildData) : Prop where
  filename : b'.filename = b.filename
  outFile : b'.outFile = b.outFile
  extraArgs : b'.extraArgs = b.extraArgs
  cBackend : b'.cBackend = b.cBackend
  asmBackend : b'.asmBackend = b.asmBackend
  debug : b'.debug = b.debug
  preprocess : b'.preprocess = b.preprocess
  compileOnly : b'.compileOnly = b.compileOnly
  optimize1 : b'.optimize1 = b.optimize1
  optimize2 : b'.optimize2 = b.optimize2
  optimize3 : b'.optimize3 = b.optimize3
  llvmNoVerify : b'.llvmNoVerify = b.llvmNoVerify

/-- No diagnostic is printed. -/
def NothingSaid (acts : List Act) : Prop := ∀ ds, .diags ds ∉ acts

end Skull.Spec
