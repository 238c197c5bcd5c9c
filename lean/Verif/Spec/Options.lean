/-
The command line as options: what each spelling means and which combinations are contradictory.
-/
namespace Skull.Spec

/-- The flags. -/
inductive Flag
  | compileOnly | assembly | preprocess | debug | quiet | o1 | o2 | o3 | cBackend | werror | noVerify | color
  deriving DecidableEq, Repr

/-- How a flag is written. -/
def Flag.spelling : Flag → List Char
  | .compileOnly => "-c".toList
  | .assembly => "-S".toList
  | .preprocess => "-E".toList
  | .debug => "-g".toList
  | .quiet => "-q".toList
  | .o1 => "-O1".toList
  | .o2 => "-O2".toList
  | .o3 => "-O3".toList
  | .cBackend => "--c-backend".toList
  | .werror => "--werror".toList
  | .noVerify => "--llvm-no-verify".toList
  | .color => "--color".toList

def Flag.isLevel : Flag → Bool
  | .o1 | .o2 | .o3 => true
  | _ => false

/-- One complete item of a command line. -/
inductive Opt
  /-- A flag; whatever is attached to an optimisation level is ignored. -/
  | flag (f : Flag) (attached : List Char)
  /-- `-o path`. -/
  | out (path : List Char)
  /-- A source path. -/
  | file (path : List Char)
  /-- `-h`, `--help`, `-v`, `--version`. -/
  | info (spelling : List Char)
  /-- An argument that is none of the options. -/
  | unknown (arg : List Char)
  deriving DecidableEq, Repr

def infoSpellings : List (List Char) := ["-h".toList, "--help".toList, "-v".toList, "--version".toList]

/-- The item is what its constructor says. -/
def Opt.WF : Opt → Prop
  | .flag f a => f.isLevel = true ∨ a = []
  | .out _ => True
  | .file p => p.head? ≠ some '-'
  | .info s => s ∈ infoSpellings
  | .unknown a => a.head? = some '-' ∧ a ≠ "-o".toList ∧ a ≠ "--".toList ∧ a ∉ infoSpellings ∧
      ∀ f, a ≠ Flag.spelling f ∧ (f.isLevel = true → ¬ Flag.spelling f <+: a)

/-- How an item is written. -/
def Opt.args : Opt → List (List Char)
  | .flag f a => [f.spelling ++ a]
  | .out p => ["-o".toList, p]
  | .file p => [p]
  | .info s => [s]
  | .unknown a => [a]

/-- How a command line ends: after an item, with arguments for the linker, or in the middle of an item. -/
inductive Tail
  | none
  | extra (first : List Char) (rest : List (List Char))
  | missingOut
  | missingExtra
  deriving DecidableEq, Repr

def Tail.args : Tail → List (List Char)
  | .none => []
  | .extra a as => "--".toList :: a :: as
  | .missingOut => ["-o".toList]
  | .missingExtra => ["--".toList]

/-- The whole command line. -/
def render (opts : List Opt) (tail : Tail) : List (List Char) := opts.flatMap Opt.args ++ tail.args

def Opt.flag? : Opt → Option Flag
  | .flag f _ => some f
  | _ => Option.none

def Opt.out? : Opt → Option (List Char)
  | .out p => some p
  | _ => Option.none

def Opt.file? : Opt → Option (List Char)
  | .file p => some p
  | _ => Option.none

/-- The flags, output paths and source paths named, in order. -/
def flags (opts : List Opt) : List Flag := opts.filterMap Opt.flag?
def outs (opts : List Opt) : List (List Char) := opts.filterMap Opt.out?
def files (opts : List Opt) : List (List Char) := opts.filterMap Opt.file?

/-- Two different flags that contradict each other. -/
def conflicting : List (Flag × Flag) :=
  [(.o1, .o2), (.o1, .o3), (.o2, .o3), (.preprocess, .assembly), (.preprocess, .compileOnly), (.assembly, .compileOnly),
   (.quiet, .werror), (.assembly, .cBackend), (.noVerify, .cBackend)]

/-- The command line must be refused. -/
def Refused (colorEnv : Option (List Char)) (opts : List Opt) (tail : Tail) : Prop :=
  (∃ a, Opt.unknown a ∈ opts) ∨ tail = .missingOut ∨ tail = .missingExtra ∨
  ¬ (flags opts).Nodup ∨ (outs opts).length > 1 ∨
  (∃ p ∈ conflicting, p.1 ∈ flags opts ∧ p.2 ∈ flags opts) ∨
  (.color ∈ flags opts ∧ colorEnv ≠ Option.none)

/-- Strings joined with single spaces. -/
def joinSpaces (a : List Char) : List (List Char) → List Char
  | [] => a
  | b :: rest => a ++ ' ' :: joinSpaces b rest

end Skull.Spec
