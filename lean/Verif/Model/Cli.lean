import Verif.Model.Bytes
/-
skull/cli.c and the checks of skull/real_main.c: from the command line to the settings of a compilation.

Arguments are C strings without NUL (see Model/Bytes).
The texts printed are not modelled; `exit n` is the process ending with exit code n before any file is opened.
-/
namespace Skull

/-- build_data.h:3-20 `BuildData`; `llvm_backend` is only set later (pipeline.c:59). -/
structure BuildData where
  filename : Option (List Char) := none
  outFile : Option (List Char) := none
  extraArgs : Option (List Char) := none
  quiet : Bool := false
  cBackend : Bool := false
  asmBackend : Bool := false
  debug : Bool := false
  preprocess : Bool := false
  compileOnly : Bool := false
  werror : Bool := false
  optimize1 : Bool := false
  optimize2 : Bool := false
  optimize3 : Bool := false
  llvmNoVerify : Bool := false
  color : Bool := false
  deriving DecidableEq, Repr

/-- What the command line leads to: the process ends, it goes on with settings, or undefined behaviour. -/
inductive Cli
  | exit (code : Nat)
  | run (b : BuildData)
  | ub
  deriving DecidableEq, Repr

/-- cli.c:265-268: the size of the joined string. -/
def squashLen : List (List Char) → Nat
  | [] => 0
  | a :: as => a.length + 1 + squashLen as

/-- cli.c:275-281: copy each string with its NUL and turn that NUL into a space. -/
def squashLoop (buf : Buf) (wrote : Nat) : List (List Char) → Option (Buf × Nat)
  | [] => some (buf, wrote)
  | a :: as =>
    (strncpyTo buf wrote a (a.length + 1)).bind fun buf =>
    (putByte buf (wrote + (a.length + 1) - 1) ' ').bind fun buf =>
    squashLoop buf (wrote + (a.length + 1)) as

/-- cli.c:261-286 `squash_argv`; `memcpy` of a string with its NUL is `strncpy` of that many bytes. -/
def squashArgv (argv : List (List Char)) : Option (List Char) :=
  (squashLoop (malloc (squashLen argv)) 0 argv).bind fun r =>
  (putByte r.1 (subSize r.2 1) '\x00').bind fun buf =>
  readStr buf

/-- The character `s[i]` of a C string, the NUL at its end. -/
def charAt (s : List Char) (i : Nat) : Char := s.getD i '\x00'

/-- A flag of BUILD_DATA is set by cli.c:163-174 `set_bool_flag`: exit when it is set already, else go on. -/
def setFlag (isSet : Bool) (k : Cli) : Cli := if isSet then .exit 1 else k

/-- cli.c:230-259 `parse_long_option` followed by `k` on the new settings; `colorEnv` is the COLOR variable. -/
def parseLongOption (colorEnv : Option (List Char)) (arg : List Char) (b : BuildData) (k : BuildData → Cli) : Cli :=
  if arg = "version".toList then .exit 0
  else if arg = "help".toList then .exit 0
  else if arg = "c-backend".toList then setFlag b.cBackend (k { b with cBackend := true })
  else if arg = "werror".toList then setFlag b.werror (k { b with werror := true })
  else if arg = "llvm-no-verify".toList then setFlag b.llvmNoVerify (k { b with llvmNoVerify := true })
  else if arg = "color".toList then
    if colorEnv.isSome then .exit 1 else setFlag b.color (k { b with color := true })
  else .exit 1

/-- cli.c:66-161 `handle_args`. -/
def handleArgs (colorEnv : Option (List Char)) : List (List Char) → BuildData → Cli
  | [], b => .run b
  | arg :: rest, b =>
    if charAt arg 0 ≠ '-' then handleArgs colorEnv rest { b with filename := some arg }
    else if charAt arg 1 ≠ 'O' ∧ charAt arg 1 ≠ '\x00' ∧ charAt arg 1 ≠ '-' ∧ charAt arg 2 ≠ '\x00' then .exit 1
    else if charAt arg 1 = 'h' then .exit 0
    else if charAt arg 1 = 'v' then .exit 0
    else if charAt arg 1 = 'c' then
      setFlag b.compileOnly (handleArgs colorEnv rest { b with compileOnly := true })
    else if charAt arg 1 = 'S' then
      setFlag b.asmBackend (handleArgs colorEnv rest { b with asmBackend := true })
    else if charAt arg 1 = 'E' then
      setFlag b.preprocess (handleArgs colorEnv rest { b with preprocess := true })
    else if charAt arg 1 = 'g' then
      setFlag b.debug (handleArgs colorEnv rest { b with debug := true })
    else if charAt arg 1 = 'q' then
      setFlag b.quiet (handleArgs colorEnv rest { b with quiet := true })
    else if charAt arg 1 = 'O' then
      if charAt arg 2 = '1' then setFlag b.optimize1 (handleArgs colorEnv rest { b with optimize1 := true })
      else if charAt arg 2 = '2' then setFlag b.optimize2 (handleArgs colorEnv rest { b with optimize2 := true })
      else if charAt arg 2 = '3' then setFlag b.optimize3 (handleArgs colorEnv rest { b with optimize3 := true })
      else .exit 1
    else if charAt arg 1 = 'o' then
      setFlag b.outFile.isSome <|
        match rest with
        | [] => .exit 1
        | p :: rest => handleArgs colorEnv rest { b with outFile := some p }
    else if charAt arg 1 = '-' then
      if charAt arg 2 ≠ '\x00' then
        parseLongOption colorEnv (arg.drop 2) b fun b => handleArgs colorEnv rest b
      else
        match rest with
        | [] => .exit 1
        | p :: rest =>
          match squashArgv (p :: rest) with
          | none => .ub
          | some s => .run { b with extraArgs := some s }
    else .exit 1

/-- cli.c:291-330 `build_data_valid`. -/
def buildDataValid (b : BuildData) : Bool :=
  if b.optimize1.toNat + b.optimize2.toNat + b.optimize3.toNat > 1 then false
  else if b.cBackend && b.llvmNoVerify then false
  else if b.quiet && b.werror then false
  else if b.asmBackend && b.cBackend then false
  else if b.preprocess.toNat + b.asmBackend.toNat + b.compileOnly.toNat > 1 then false
  else true

/-- str.c:215-219: look for `sub` at offset `i` and below. -/
def strrstrFrom (str sub : List Char) : Nat → Option Nat
  | 0 => if str.take sub.length = sub then some 0 else none
  | i + 1 => if (str.drop (i + 1)).take sub.length = sub then some (i + 1) else strrstrFrom str sub i

/-- str.c:207-222 `strrstr`: the offset of the last occurrence.
The pointer compared against the start may lie before it, as on every platform with flat addresses. -/
def strrstr (str sub : List Char) : Option Nat :=
  if sub.length ≤ str.length then strrstrFrom str sub (str.length - sub.length) else none

/-- cli.c:61-64 `handle_env`. -/
def handleEnv (colorEnv : Option (List Char)) : BuildData :=
  { color := match colorEnv with
      | some v => charAt v 0 = '1'
      | none => false }

/-- cli.c:38-51: the checks after the arguments were read. -/
def checkSettings (b : BuildData) : Cli :=
  if !buildDataValid b then .exit 1
  else
    match b.filename with
    | none => .exit 1
    | some f => if (strrstr f ".sk".toList).isNone then .exit 1 else .run b

/-- cli.c:30-59 `main` up to the call of `real_main`; `args` is argv without the program name. -/
def cliMain (colorEnv : Option (List Char)) (args : List (List Char)) : Cli :=
  match args with
  | [] => .exit 0
  | _ :: _ =>
    match handleArgs colorEnv args (handleEnv colorEnv) with
    | .run b => checkSettings b
    | r => r

/-- real_main.c:42-48: `compile_file` goes on to open the file. -/
def compilesPath (path : List Char) : Bool :=
  if (strrstr path ".sk".toList).isNone then false
  else if strrstr path ".sk".toList = some 0 || (strrstr path "/.sk".toList).isSome then false
  else true

end Skull
