import Verif.Model.Driver
/-
Which runs leave memory of the settings behind.
-/
namespace Skull.Spec

/-- Settings that are not accepted, for which nothing is freed: they contradict each other, or there is no source. -/
def Dropped (b : BuildData) : Prop := buildDataValid b = false ∨ b.filename = none

/-- There is a `-o`, or a `--`. -/
def HasOwn (b : BuildData) : Prop := b.outFile.isSome ∨ b.extraArgs.isSome

/-- The command line is dropped, or it has arguments for the linker and no command was run (`acts` is what the run did). -/
def Leaks (sys : Sys) (args : List (List Char)) (acts : List Act) : Prop :=
  ∃ b, handleArgs sys.colorEnv args (handleEnv sys.colorEnv) = .run b ∧
    ((Dropped b ∧ HasOwn b) ∨ (cliMain sys.colorEnv args = .run b ∧ b.extraArgs.isSome ∧ ¬ ∃ cmd, .shell cmd ∈ acts))

end Skull.Spec
