import Verif.Proofs.Settings
import Verif.Props.Driver
/-
C86: `--quiet`, `--werror` and `--color` change messages and refusals, and nothing else.
-/
namespace Skull
open Spec

/-- The run of a command line. -/
theorem skull_run {sys : Sys} {args : List (List Char)} {b : BuildData} {acts : List Act} (hb : cliMain sys.colorEnv args = .run b) :
    skull sys args = some (0, acts) ↔ compileFile sys b (b.filename.getD []) = some (false, acts) := by
  unfold skull
  rw [hb]
  simp only [Option.map_eq_some_iff]
  constructor
  · rintro ⟨⟨e, r⟩, h1, h2⟩
    obtain ⟨h2, rfl⟩ := Prod.mk.inj h2
    cases e with
    | false => exact h1
    | true => cases h2
  · exact fun h => ⟨_, h, rfl⟩

/-- Adding `-q` and leaving out `--werror` does not make a run fail, and the run does the same but for the diagnostics; those are the same, too,
if `-q` was not added. -/
theorem C86_lenient {sys : Sys} {args args' : List (List Char)} {b b' : BuildData} {acts : List Act} (hb : cliMain sys.colorEnv args = .run b)
    (hb' : cliMain sys.colorEnv args' = .run b') (hsame : SameWork b b') (hw : b'.werror = false) (hq : b.quiet = true → b'.quiet = true)
    (h : skull sys args = some (0, acts)) :
    ∃ acts', skull sys args' = some (0, acts') ∧ work acts' = work acts ∧ (b'.quiet = b.quiet → acts' = acts) := by
  obtain ⟨acts', k1, k2⟩ := Opts.file_sim (q := b'.quiet) (w := b'.werror) (c := b'.color) ⟨hq, fun e => by rw [hw] at e; cases e⟩
    ((skull_run hb).1 h)
  rw [← Opts.SameWork.set hsame] at k1
  exact ⟨acts', (skull_run hb').2 (by rw [hsame.filename]; exact k1), k2⟩

/-- Adding `--werror` does not make a run fail that printed no diagnostics, and changes nothing about it. -/
theorem C86_strict {sys : Sys} {args args' : List (List Char)} {b b' : BuildData} {acts : List Act} (hb : cliMain sys.colorEnv args = .run b)
    (hb' : cliMain sys.colorEnv args' = .run b') (hsame : SameWork b b') (hq : b.quiet = false) (hq' : b'.quiet = false)
    (h : skull sys args = some (0, acts)) (hn : NothingSaid acts) : skull sys args' = some (0, acts) := by
  obtain ⟨acts', k1, _, k2⟩ := Opts.file_sim (q := b'.quiet) (w := b'.werror) (c := b'.color) ⟨fun e => (by rw [hq] at e; cases e), fun _ => ⟨hq, hn⟩⟩
    ((skull_run hb).1 h)
  rw [← Opts.SameWork.set hsame] at k1
  rw [k2 (hq'.trans hq.symm)] at k1
  exact (skull_run hb').2 (by rw [hsame.filename]; exact k1)

/-- Whatever these options are, runs that succeed do the same but for the diagnostics. -/
theorem C86_output {sys : Sys} {args args' : List (List Char)} {b b' : BuildData} {acts acts' : List Act} (hb : cliMain sys.colorEnv args = .run b)
    (hb' : cliMain sys.colorEnv args' = .run b') (hsame : SameWork b b') (h : skull sys args = some (0, acts)) (h' : skull sys args' = some (0, acts')) :
    work acts' = work acts := by
  obtain ⟨x, k1, k2, _⟩ := Opts.file_sim (q := true) (w := false) (c := false) ⟨fun _ => rfl, fun e => nomatch e⟩ ((skull_run hb).1 h)
  obtain ⟨x', k3, k4, _⟩ := Opts.file_sim (q := true) (w := false) (c := false) ⟨fun _ => rfl, fun e => nomatch e⟩ ((skull_run hb').1 h')
  have e : Opts.setB b' true false false = Opts.setB b true false false := by rw [Opts.SameWork.set hsame]
  rw [e, hsame.filename, k1] at k3
  cases k3
  rw [← k4, ← k2]

/-- With `-q` no diagnostic is printed, whether the run succeeds or not. -/
theorem C86_silent {sys : Sys} {args : List (List Char)} {b : BuildData} {code : Nat} {acts : List Act} (hb : cliMain sys.colorEnv args = .run b)
    (hq : b.quiet = true) (h : skull sys args = some (code, acts)) : NothingSaid acts := by
  unfold skull at h
  rw [hb] at h
  obtain ⟨r, h1, h2⟩ := Option.map_eq_some_iff.1 h
  obtain ⟨_, rfl⟩ := Prod.mk.inj h2
  exact Opts.file_quiet hq h1

/- ### Examples -/

/-- The settings of the three runs. -/
example : ∃ b b' b'', cliMain none (argv ["a.sk", "--c-backend"]) = .run b ∧ cliMain none (argv ["a.sk", "--c-backend", "--werror"]) = .run b' ∧
    cliMain none (argv ["a.sk", "--c-backend", "-q"]) = .run b'' ∧ SameWork b b' ∧ SameWork b b'' ∧ b'.werror = true ∧ b''.quiet = true :=
  ⟨_, _, _, rfl, rfl, rfl, ⟨rfl, rfl, rfl, rfl, rfl, rfl, rfl, rfl, rfl, rfl, rfl, rfl⟩, ⟨rfl, rfl, rfl, rfl, rfl, rfl, rfl, rfl, rfl, rfl, rfl, rfl⟩, rfl, rfl⟩

def saysNothing (acts : List Act) : Bool := acts.all fun a => match a with | .diags _ => false | _ => true

/-- Without warnings all runs write the file, and with a warning `--werror` refuses. -/
example : ranWith (world "return 0\n") ["a.sk", "--c-backend"] 0 (fun acts => saysNothing acts && acts.any (isWrite ".a.sk.c".toList)) = true ∧
    ranWith (world "return 0\n") ["a.sk", "--c-backend", "--werror"] 0 (fun acts => acts.any (isWrite ".a.sk.c".toList)) = true ∧
    ranWith (world "x := 1\n") ["a.sk", "--c-backend"] 0 (fun acts => !saysNothing acts && acts.any (isWrite ".a.sk.c".toList)) = true ∧
    ranWith (world "x := 1\n") ["a.sk", "--c-backend", "-q"] 0 (fun acts => saysNothing acts && acts.any (isWrite ".a.sk.c".toList)) = true ∧
    ranWith (world "x := 1\n") ["a.sk", "--c-backend", "--werror"] 1 (fun acts => !acts.any (isWrite ".a.sk.c".toList)) = true := by
  decide +kernel

/-- Leaving out `-q` may lead to a null pointer: the check for unused symbols looks into blocks behind calls, which were not checked. -/
theorem C86_needs_quiet : let src := "f(x: Int) {\ny := x\n}\nf(1) {\ng() {\nnoop\n}\n}\n"
    ranWith (world src) ["a.sk", "--c-backend", "-q"] 0 (fun acts => acts.any (isWrite ".a.sk.c".toList)) = true ∧
    (skull (world src) (argv ["a.sk", "--c-backend"])).isNone = true := by decide +kernel

end Skull
