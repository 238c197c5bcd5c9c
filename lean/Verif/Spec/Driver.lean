import Verif.Model.Driver
import Verif.Spec.Accepted
/-
What a run of `skull` is to do (docs/skull/skull.1, docs/c-integration.md).
-/
namespace Skull.Spec

/-- The file holds this program: its bytes are a text, whose tokens are parsed to `t`. -/
def ProgramIn (werror : Bool) (file : List UInt8) (t : Tree) : Prop :=
  ∃ src toks toks' s, sourceText file = some src ∧ tokenize werror src = some (.ok toks) ∧ classifyTokens toks = some toks' ∧
    parseAstTree toks' = .ok (some t) s

/-- Everything but messages. -/
def isOutput : Act → Bool
  | .say | .diags _ => false
  | _ => true

/-- Messages. -/
def isMessage (a : Act) : Bool := !isOutput a

/-- The kinds of output. -/
inductive Format
  | c | ir | asm | obj | bin
  deriving DecidableEq, Repr

/-- What the options ask for. -/
def format (b : BuildData) : Format :=
  if b.cBackend then .c else if b.preprocess then .ir else if b.asmBackend then .asm else if b.compileOnly then .obj else .bin

/-- The directory of a path, with its slash, and the name in it. -/
def dirPart (path : List Char) : List Char := (path.reverse.dropWhile (· ≠ '/')).reverse
def basePart (path : List Char) : List Char := (path.reverse.takeWhile (· ≠ '/')).reverse

/-- `.x.sk.ext` in the directory of `x.sk`. -/
def hidden (path ext : List Char) : List Char := dirPart path ++ '.' :: basePart path ++ '.' :: ext

/-- The extension of the files that are not asked for by name. -/
def Format.ext : Format → List Char
  | .c => ['c']
  | .ir => ['l', 'l']
  | .asm => ['s']
  | .obj => ['o']
  | .bin => []

/-- Where the output goes for the source `stem.sk`; `none` is stdout. -/
def outputAt (b : BuildData) (stem : List Char) : Option (List Char) :=
  match b.outFile with
  | some out => if out = ['-'] then none else some out
  | none =>
    if b.preprocess then none
    else if format b = .bin then some stem
    else some (hidden (stem ++ ".sk".toList) (format b).ext)

/-- The C text of a checked program. -/
def TextOf (sys : Sys) (b : BuildData) (a : ATree) (s : SS) (text : List Char) : Prop :=
  ∃ cfg : CCfg, ∃ main tree cs, cfg = ⟨s.syms, if b.debug then b.filename else none, sys.fmtA⟩ ∧ createMainFuncName b.filename = some main ∧
    genModuleC cfg a = some (tree, cs) ∧ text = fileC cfg main tree cs

/-- The module of a checked program, as it is when no optimization is asked for. -/
def ModuleOf (sys : Sys) (b : BuildData) (a : ATree) (s : SS) (m : LState) : Prop :=
  ∃ main, s.syms[0]? = some main ∧ codegenL ⟨s.syms, sys.fold, b.debug⟩ main.linkageName a = some m

/-- The passes that the options ask for. -/
def optimized (sys : Sys) (b : BuildData) (m : LState) : LState :=
  if b.optimize1 then sys.optimize "default<O1>".toList m
  else if b.optimize2 then sys.optimize "default<O2>".toList m
  else if b.optimize3 then sys.optimize "default<O3>".toList m
  else m

/-- Among the actions there is one that puts the output where it belongs, and none that takes it away. -/
def Delivered (sys : Sys) (b : BuildData) (stem : List Char) (a : ATree) (s : SS) (acts : List Act) : Prop :=
  (∀ p, outputAt b stem = some p → Act.remove p ∉ acts) ∧
  match format b, outputAt b stem with
  | .c, none => ∃ text, TextOf sys b a s text ∧ .stdout text ∈ acts
  | .c, some p => ∃ text, TextOf sys b a s text ∧ .write p text ∈ acts
  | .ir, none => ∃ m, ModuleOf sys b a s m ∧ .print (optimized sys b m) ∈ acts
  | .ir, some p => ∃ m, ModuleOf sys b a s m ∧ .module p (optimized sys b m) ∈ acts
  | .asm, none => ∃ m, ModuleOf sys b a s m ∧ .emit ['-'] true (optimized sys b m) ∈ acts
  | .asm, some p => ∃ m, ModuleOf sys b a s m ∧ .emit p true (optimized sys b m) ∈ acts
  | .obj, some p => ∃ m, ModuleOf sys b a s m ∧ .emit p false (optimized sys b m) ∈ acts
  | .bin, some p => ∃ m m' obj, ModuleOf sys b a s m ∧ addStart m = some m' ∧ .emit obj false (optimized sys b m') ∈ acts ∧ obj ≠ p ∧
      .shell (linkCommand obj p b.extraArgs) ∈ acts ∧ sys.wait (linkCommand obj p b.extraArgs) = 0
  | _, none => False

end Skull.Spec
