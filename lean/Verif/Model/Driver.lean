import Verif.Model.Cli
import Verif.Model.Paths
import Verif.Model.Utf8
import Verif.Model.Classify
import Verif.Model.Parser
import Verif.Model.CodegenC
import Verif.Model.CodegenLLVM
/-
skull/real_main.c, pipeline.c, codegen/backend.c, codegen/c/write.c and codegen/llvm/write.c: from the command line to the files.

What a run does is a list of actions and an exit code.  `none` is an undefined operation.

The world is a parameter (`Sys`): the files that can be read and written, what LLVM's library answers, and what `/bin/sh` gives.
`real_main` is modelled for the one file that `main` gives it.

Left out: the debug information itself in LLVM modules (of `-g` only what it adds to the instructions), freeing (see `Model/DrvHeap`), and the texts of messages (see C57).
-/
namespace Skull

/-- The world of a run. -/
structure Sys where
  colorEnv : Option (List Char) := none              -- the variable COLOR
  read : List Char → Option (List UInt8)             -- the file, if it can be opened and read
  canWrite : List Char → Bool                        -- whether the file can be opened for writing
  isDir : List Char → Bool := fun _ => false
  strtod : List Char → Nat × Bool := fun _ => (0, false)
  openDir : List Char → Bool := fun _ => true
  openFile : List Char → List Char → Bool := fun _ _ => true
  fmtA : Nat → List Char := fun _ => []              -- `printf("%a")`
  fold : LOp → LVal → LVal → Option LVal := fun _ _ _ => none
  verifies : LState → Bool := fun _ => true          -- `LLVMVerifyModule`
  hasShim : Bool := true                             -- `LLVMParseIRInContext` and `LLVMLinkModules2` on the run time
  hasTarget : Bool := true                           -- a target machine can be made
  optimize : List Char → LState → LState := fun _ m => m   -- `LLVMRunPasses`
  emits : List Char → Bool → Bool                    -- `LLVMTargetMachineEmitToFile` to this file, as assembly or not
  wait : List Char → Nat                             -- what `wait` says of `/bin/sh -c` with this command

/-- What a run does, as others can see it. -/
inductive Act
  | say                                              -- a message of the compiler itself on stderr
  | diags (codes : List Code)                        -- the diagnostics, on stderr
  | stdout (text : List Char)
  | print (m : LState)                               -- the text of the module, on stdout
  | printErr (m : LState)                            -- the same on stderr
  | write (path text : List Char)
  | module (path : List Char) (m : LState)           -- the text of the module into a file
  | emit (path : List Char) (asm : Bool) (m : LState)   -- an object file, or assembly; LLVM takes `-` for stdout
  | shell (cmd : List Char)
  | remove (path : List Char)

/-- What happens next: `next` goes on (`PHASE_NEXT`), `done` stops with an exit code that is not 0 if `err`. -/
inductive Phase (α : Type)
  | next (a : α) (acts : List Act)
  | done (err : Bool) (acts : List Act)

/-- The result of a part of a run: whether it failed, and what it did. -/
abbrev Ran := Bool × List Act

/-- write.c:28-46 `write_file_c`.  Writing to a file that could not be opened is undefined. -/
def writeFileC (sys : Sys) (b : BuildData) (filename : List Char) (text : List Char) : Option Ran :=
  match getNewFilename b.outFile b.preprocess b.cBackend filename ['c'] with
  | none => none
  | some out =>
    if out = ['-'] then some (false, [.stdout text])
    else if sys.canWrite out then some (false, [.write out text])
    else none

/-- backend.c:7-23 `run_backend` with `c_backend`. -/
def runBackendC (sys : Sys) (b : BuildData) (filename : List Char) (syms : List Symbol) (a : ATree) : Option Ran :=
  let cfg : CCfg := { syms := syms, debug := if b.debug then some (b.filename.getD []) else none, fmtA := sys.fmtA }
  match genModuleC cfg a, createMainFuncName b.filename with
  | some (tree, s), some main => writeFileC sys b filename (fileC cfg main tree s)
  | _, _ => none

/-- write.c:334-340 `will_build_binary`. -/
def willBuildBinary (b : BuildData) : Bool := !(b.preprocess || b.compileOnly || b.asmBackend)

/-- write.c:347-405 `add_start_shim`, without the run time: `_start` calls the main function and gives its value to `exit`. -/
def addStart (m : LState) : Option LState :=
  (m.funcRef 0).map fun f =>
    { m with
      funcs := m.funcs ++ [
        ⟨"_start".toList, [], .prim .void, false,
          [[.call m.nextReg f [], .call (m.nextReg + 1) (m.funcs.length + 1) [.reg m.nextReg], .retVoid]]⟩,
        ⟨"exit".toList, [.prim .int], .prim .void, false, []⟩]
      nextReg := m.nextReg + 2 }

/-- write.c:93-116 `optimize_llvm`. -/
def optimizeL (sys : Sys) (b : BuildData) (m : LState) : Phase LState :=
  if b.optimize1 || b.optimize2 || b.optimize3 then
    if !sys.hasTarget then .done true [.say]
    else
      let passes := if b.optimize1 then "default<O1>".toList else if b.optimize2 then "default<O2>".toList else "default<O3>".toList
      .next (sys.optimize passes m) []
  else .next m []

/-- write.c:118-149 `output_llvm_ir`.  The name compared with `-` is that of the source (122). -/
def outputIR (sys : Sys) (b : BuildData) (filename : List Char) (m : LState) : Option Ran :=
  if filename = ['-'] then some (false, [.printErr m])
  else
    match getNewFilename b.outFile b.preprocess b.cBackend filename "ll".toList with
    | none => none
    | some out =>
      if out = ['-'] then some (false, [.print m])   -- LLVM takes this for stdout
      else if sys.canWrite out then some (false, [.module out m])
      else some (true, [.say])

/-- write.c:295-332 `emit_stage_1`; gives `BUILD_DATA.out_file`. -/
def emitStage1 (sys : Sys) (b : BuildData) (filename : List Char) (m : LState) : Option (Phase (List Char)) :=
  if b.preprocess then (outputIR sys b filename m).map fun r => .done r.1 r.2
  else if !sys.hasTarget then some (.done true [.say])
  else
    match b.outFile <|> genFilename (b.filename.getD []) (if b.asmBackend then ['s'] else ['o']) with
    | none => none
    | some out =>
      if !b.asmBackend && out = ['-'] then some (.done true [.say])
      else if !sys.emits out b.asmBackend then some (.done true [.say])
      else if b.compileOnly || b.asmBackend then some (.done false [.emit out b.asmBackend m])
      else some (.next out [.emit out b.asmBackend m])

/-- write.c:151-157 `get_binary_name`; a name without a dot is undefined. -/
def binaryName (filename : List Char) : Option (List Char) :=
  if '.' ∈ filename then some (filename.reverse.dropWhile (· ≠ '.')).reverse.dropLast else none

/-- write.c:189-194: the command. -/
def linkCommand (out binary : List Char) (extra : Option (List Char)) : List Char :=
  "cc -nostartfiles \"".toList ++ out ++ "\" -o \"".toList ++ binary ++ "\" ".toList ++ extra.getD [] ++
  " -I/usr/include/skull -lm".toList

/-- write.c:209-230 `sh`: `WEXITSTATUS` of what `wait` says; the low bits, which tell of signals, are not looked at. -/
def wexitstatus (status : Nat) : Nat := status / 256 % 256

/-- write.c:183-207 `emit_native_binary`. -/
def emitNative (sys : Sys) (b : BuildData) (out : List Char) : Option Ran :=
  match binaryName (b.filename.getD []) with
  | none => none
  | some name =>
    if sys.isDir name then some (true, [.say])
    else
      let cmd := linkCommand out name b.extraArgs
      some (wexitstatus (sys.wait cmd) ≠ 0, [.shell cmd, .remove out])

/-- write.c:54-71 `write_llvm`. -/
def writeL (sys : Sys) (b : BuildData) (filename : List Char) (m : LState) : Option Ran :=
  match if willBuildBinary b then (addStart m).map fun m => (m, sys.hasShim) else some (m, true) with
  | none => none
  | some (_, false) => some (true, [.say])
  | some (m, true) =>
    if !b.llvmNoVerify && !sys.verifies m then some (true, [.say])
    else
      match optimizeL sys b m with
      | .done err acts => some (err, acts)
      | .next m _ =>
        match emitStage1 sys b filename m with
        | none => none
        | some (.done err acts) => some (err, acts)
        | some (.next out acts) => (emitNative sys b out).map fun r => (r.1, acts ++ r.2)

/-- backend.c:7-23 `run_backend` with `llvm_backend`. -/
def runBackendL (sys : Sys) (b : BuildData) (filename : List Char) (syms : List Symbol) (a : ATree) : Option Ran :=
  match syms[0]? with
  | none => none
  | some main =>
    match codegenL ⟨syms, sys.fold, b.debug⟩ main.linkageName a with
    | none => none
    | some m => writeL sys b filename m

/-- The part of BUILD_DATA and of the world that the check looks at. -/
def checkCfg (sys : Sys) (b : BuildData) : Cfg :=
  { filename := b.filename.getD [], quiet := b.quiet, werror := b.werror, strtod := sys.strtod, openDir := sys.openDir,
    openFile := sys.openFile }

/-- errors.c:248-253 `write_and_free_errors` and 262-265 `write_error_msg`: with `-q` nothing is printed. -/
def flush (b : BuildData) (diags : List Code) : List Act := if b.quiet || diags.isEmpty then [] else [.diags diags]

/-- The code of a diagnostic of the tokenizer. -/
def TokErr.code : TokErr → Code
  | .noClosingComment => .errNoClosingComment
  | .noClosingQuote => .errNoClosingQuote
  | .invalidCommentStart => .errInvalidCommentStart
  | .nestedBlockComment => .errNestedBlockComment
  | .bom => .warnNoBom

/-- A byte order mark is warned about (token.c:51-55). -/
def bomDiags (src : List Char) : List Code := if src.head? = some bomChar then [.warnNoBom] else []

/-- pipeline.c:53-66: the check and the back ends.  `before` are the diagnostics so far. -/
def checkAndGenerate (sys : Sys) (b : BuildData) (filename : List Char) (before : List Code) (t : Tree) : Option Ran :=
  match semantic (checkCfg sys b) t with
  | .ub => none
  | .fail s => some (true, flush b (before ++ s.diags.reverse.map PDiag.code))
  | .ok a s =>
    let ds := flush b (before ++ s.diags.reverse.map PDiag.code)
    (if b.cBackend then runBackendC sys b filename s.syms a else runBackendL sys b filename s.syms a).map fun r => (r.1, r.2 ++ ds)

/-- pipeline.c:24-76 `run_pipeline`, and writing the diagnostics (real_main.c:31); `contents` is a C string. -/
def runPipeline (sys : Sys) (b : BuildData) (filename : List Char) (contents : List UInt8) : Option Ran :=
  match mbstoc32s contents with
  | none => some (true, flush b [.errIllegalSeqAt])
  | some src =>
    match tokenize b.werror src with
    | none | some .ub => none
    | some (.err e _ _) => some (true, flush b (bomDiags src ++ if e = .bom then [] else [e.code]))
    | some (.ok toks) =>
      match classifyTokens toks with
      | none => none
      | some toks =>
      match parseAstTree toks with
      | .ub | .fuel => none
      | .ok none s => some (true, flush b (bomDiags src ++ s.diags.reverse.map PDiag.code))
      | .ok (some (.node .unknown _ _ .nil _)) _ => some (true, flush b (bomDiags src ++ [.warnFileEmpty]))
      | .ok (some t) _ => checkAndGenerate sys b filename (bomDiags src) t

/-- real_main.c:41-64 `compile_file`, and writing the diagnostics (31). -/
def compileFile (sys : Sys) (b : BuildData) (filename : List Char) : Option Ran :=
  if !compilesPath filename then some (true, [.say])
  else
    match sys.read filename with
    | none => some (true, [.say])
    | some file =>
      match fileToString file with
      | none => some (b.werror, flush b [.warnFileEmpty])
      | some bytes => runPipeline sys b filename (cString bytes)

/-- cli.c:30-59 `main` with real_main.c:21-36 `real_main`: the exit code and what was done.  Messages about the command line, and the
texts of `-h` and `-v`, are one `say`. -/
def skull (sys : Sys) (args : List (List Char)) : Option (Nat × List Act) :=
  match cliMain sys.colorEnv args with
  | .ub => none
  | .exit code => some (code, [.say])
  | .run b => (compileFile sys b (b.filename.getD [])).map fun r => (r.1.toNat, r.2)

end Skull
