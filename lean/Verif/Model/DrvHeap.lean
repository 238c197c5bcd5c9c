import Verif.Model.ContHeap
import Verif.Model.Driver
/-
skull/cli.c, real_main.c, pipeline.c, codegen/backend.c, codegen/c/write.c and codegen/llvm/write.c with the memory that they allocate, and
who frees it.  What is decided and done is that of `Model/Driver`.

The parts of the compiler with memory of their own give one block each: the tokens (see `Model/TokHeap`), the tree (`Model/ParseHeap`), the
state of the check (`Model/SemHeap`) and that of the back end (`Model/CHeap`).  The file that is read is a block until it is closed.

Left out: the memory of LLVM's library and of messages, and the file that the C back end writes, which is not closed.
-/
namespace Skull.DrvHeap
open Skull
open Skull.ContHeap (M alloc use free ofOption)

/-- The pointers in BUILD_DATA to memory of its own: `out_file` and `extra_args`. -/
structure Ptrs where
  out : Option Nat := none
  extra : Option Nat := none

/-- `free` of a pointer that may be null. -/
def freeOpt : Option Nat → M Unit
  | none => pure ()
  | some b => free b

/-- Reading a string that may not be there. -/
def useOpt : Option Nat → M Unit
  | none => pure ()
  | some b => use b

/-- What the command line leads to. -/
inductive CliH
  | exit (code : Nat) (left : Ptrs)                  -- `left` is what was not freed
  | run (b : BuildData) (p : Ptrs)

/-- cli.c:332-340 `bail` and `cleanup`. -/
def bailH (p : Ptrs) (code : Nat) : M CliH := do
  freeOpt p.out
  freeOpt p.extra
  pure (.exit code {})

/-- cli.c:163-174. -/
def setFlagH (isSet : Bool) (p : Ptrs) (k : M CliH) : M CliH := if isSet then bailH p 1 else k

/-- cli.c:230-259 `parse_long_option`, and 139-141. -/
def parseLongOptionH (colorEnv : Option (List Char)) (arg : List Char) (b : BuildData) (p : Ptrs) (k : BuildData → M CliH) : M CliH :=
  if arg = "version".toList then bailH p 0
  else if arg = "help".toList then bailH p 0
  else if arg = "c-backend".toList then setFlagH b.cBackend p (k { b with cBackend := true })
  else if arg = "werror".toList then setFlagH b.werror p (k { b with werror := true })
  else if arg = "llvm-no-verify".toList then setFlagH b.llvmNoVerify p (k { b with llvmNoVerify := true })
  else if arg = "color".toList then
    if colorEnv.isSome then bailH p 1 else setFlagH b.color p (k { b with color := true })
  else bailH p 1

/-- cli.c:66-161 `handle_args`. -/
def handleArgsH (colorEnv : Option (List Char)) : List (List Char) → BuildData → Ptrs → M CliH
  | [], b, p => pure (.run b p)
  | arg :: rest, b, p =>
    if charAt arg 0 ≠ '-' then handleArgsH colorEnv rest { b with filename := some arg } p
    else if charAt arg 1 ≠ 'O' ∧ charAt arg 1 ≠ '\x00' ∧ charAt arg 1 ≠ '-' ∧ charAt arg 2 ≠ '\x00' then bailH p 1
    else if charAt arg 1 = 'h' then bailH p 0
    else if charAt arg 1 = 'v' then bailH p 0
    else if charAt arg 1 = 'c' then
      setFlagH b.compileOnly p (handleArgsH colorEnv rest { b with compileOnly := true } p)
    else if charAt arg 1 = 'S' then
      setFlagH b.asmBackend p (handleArgsH colorEnv rest { b with asmBackend := true } p)
    else if charAt arg 1 = 'E' then
      setFlagH b.preprocess p (handleArgsH colorEnv rest { b with preprocess := true } p)
    else if charAt arg 1 = 'g' then
      setFlagH b.debug p (handleArgsH colorEnv rest { b with debug := true } p)
    else if charAt arg 1 = 'q' then
      setFlagH b.quiet p (handleArgsH colorEnv rest { b with quiet := true } p)
    else if charAt arg 1 = 'O' then
      if charAt arg 2 = '1' then setFlagH b.optimize1 p (handleArgsH colorEnv rest { b with optimize1 := true } p)
      else if charAt arg 2 = '2' then setFlagH b.optimize2 p (handleArgsH colorEnv rest { b with optimize2 := true } p)
      else if charAt arg 2 = '3' then setFlagH b.optimize3 p (handleArgsH colorEnv rest { b with optimize3 := true } p)
      else bailH p 1
    else if charAt arg 1 = 'o' then
      setFlagH b.outFile.isSome p <|
        match rest with
        | [] => bailH p 1
        | q :: rest => do
          freeOpt p.out
          let o ← alloc
          handleArgsH colorEnv rest { b with outFile := some q } { p with out := some o }
    else if charAt arg 1 = '-' then
      if charAt arg 2 ≠ '\x00' then
        parseLongOptionH colorEnv (arg.drop 2) b p fun b => handleArgsH colorEnv rest b p
      else
        match rest with
        | [] => bailH p 1
        | q :: rest => do
          let s ← ofOption (squashArgv (q :: rest))
          let e ← alloc
          use e
          pure (.run { b with extraArgs := some s } { p with extra := some e })
    else bailH p 1

/-- cli.c:38-51: the checks after the arguments were read; only the last one frees. -/
def checkSettingsH (b : BuildData) (p : Ptrs) : M CliH :=
  if !buildDataValid b then pure (.exit 1 p)
  else
    match b.filename with
    | none => pure (.exit 1 p)
    | some f => if (strrstr f ".sk".toList).isNone then bailH p 1 else pure (.run b p)

def thenCheckH : CliH → M CliH
  | .run b p => checkSettingsH b p
  | r => pure r

/-- cli.c:30-51 `main`. -/
def cliMainH (colorEnv : Option (List Char)) : List (List Char) → M CliH
  | [] => pure (.exit 0 {})
  | a :: args => do
    let r ← handleArgsH colorEnv (a :: args) (handleEnv colorEnv) {}
    thenCheckH r

/-- shared.c:9-20 `get_new_filename`, for the caller to free. -/
def getNewFilenameH (b : BuildData) (p : Ptrs) (filename ext : List Char) : M (List Char × Nat) := do
  let out ← ofOption (getNewFilename b.outFile b.preprocess b.cBackend filename ext)
  useOpt p.out
  let n ← alloc
  use n
  pure (out, n)

def writeToC (sys : Sys) (out text : List Char) : Option Ran :=
  if out = ['-'] then some (false, [.stdout text])
  else if sys.canWrite out then some (false, [.write out text])
  else none

/-- write.c:28-46 `write_file_c`; `state` is the back end's. -/
def writeFileCH (sys : Sys) (b : BuildData) (p : Ptrs) (filename : List Char) (state : Nat) (text : List Char) : M Ran := do
  let (out, n) ← getNewFilenameH b p filename ['c']
  use n
  let r ← ofOption (writeToC sys out text)
  free n
  use state
  let name ← alloc
  use name
  use state
  free name
  pure r

/-- backend.c:7-23 `run_backend` with `c_backend`. -/
def runBackendCH (sys : Sys) (b : BuildData) (p : Ptrs) (filename : List Char) (syms : List Symbol) (a : ATree) : M Ran := do
  let cfg : CCfg := { syms := syms, debug := if b.debug then some (b.filename.getD []) else none, fmtA := sys.fmtA }
  let state ← alloc
  let (tree, s) ← ofOption (genModuleC cfg a)
  use state
  let main ← ofOption (createMainFuncName b.filename)
  let r ← writeFileCH sys b p filename state (fileC cfg main tree s)
  use state
  free state
  pure r

def printIR (sys : Sys) (out : List Char) (m : LState) : Ran :=
  if out = ['-'] then (false, [.print m])
  else if sys.canWrite out then (false, [.module out m])
  else (true, [.say])

/-- write.c:118-149 `output_llvm_ir`. -/
def outputIRH (sys : Sys) (b : BuildData) (p : Ptrs) (filename : List Char) (m : LState) : M Ran :=
  if filename = ['-'] then pure (false, [.printErr m])
  else do
    let (out, n) ← getNewFilenameH b p filename "ll".toList
    use n
    free n
    pure (printIR sys out m)

/-- write.c:302-307: `BUILD_DATA.out_file`, if there was none. -/
def outPtr (b : BuildData) (p : Ptrs) : M Ptrs :=
  if b.outFile.isSome then pure p
  else do
    let o ← alloc
    use o
    pure { p with out := some o }

def emitWith (sys : Sys) (b : BuildData) (out : List Char) (m : LState) : Phase (List Char) :=
  if !b.asmBackend && out = ['-'] then .done true [.say]
  else if !sys.emits out b.asmBackend then .done true [.say]
  else if b.compileOnly || b.asmBackend then .done false [.emit out b.asmBackend m]
  else .next out [.emit out b.asmBackend m]

/-- write.c:295-332 `emit_stage_1`. -/
def emitStage1H (sys : Sys) (b : BuildData) (p : Ptrs) (filename : List Char) (m : LState) : M (Phase (List Char) × Ptrs) :=
  if b.preprocess then do
    let r ← outputIRH sys b p filename m
    pure (.done r.1 r.2, p)
  else if !sys.hasTarget then pure (.done true [.say], p)
  else do
    let out ← ofOption (b.outFile <|> genFilename (b.filename.getD []) (if b.asmBackend then ['s'] else ['o']))
    let p ← outPtr b p
    useOpt p.out
    pure (emitWith sys b out m, p)

/-- write.c:183-207 `emit_native_binary`, with 159-175 `check_directory`; whether `extra_args` was freed. -/
def emitNativeH (sys : Sys) (b : BuildData) (p : Ptrs) (out : List Char) : M (Ran × Bool) := do
  let name ← ofOption (binaryName (b.filename.getD []))
  let n ← alloc
  use n
  if sys.isDir name then do
    use n
    free n
    pure ((true, [.say]), false)
  else do
    useOpt p.out
    use n
    useOpt p.extra
    let shim ← alloc
    use shim
    free n
    use shim
    useOpt p.out
    free shim
    freeOpt p.extra
    let cmd := linkCommand out name b.extraArgs
    pure ((decide (wexitstatus (sys.wait cmd) ≠ 0), [.shell cmd, .remove out]), true)

/-- What a back end leaves: what it did, the pointers of BUILD_DATA, and whether `extra_args` was freed (the pointer is not set to null). -/
abbrev Left := Ran × Ptrs × Bool

/-- write.c:68-70: after `emit_stage_1`. -/
def afterEmit (sys : Sys) (b : BuildData) : Phase (List Char) × Ptrs → M Left
  | (.done err acts, p) => pure ((err, acts), p, false)
  | (.next out acts, p) => do
    let r ← emitNativeH sys b p out
    pure ((r.1.1, acts ++ r.1.2), p, r.2)

/-- write.c:62-70: after the module was verified. -/
def optimizeAndEmit (sys : Sys) (b : BuildData) (p : Ptrs) (filename : List Char) (m : LState) : M Left :=
  match optimizeL sys b m with
  | .done err acts => pure ((err, acts), p, false)
  | .next m _ => do
    let r ← emitStage1H sys b p filename m
    afterEmit sys b r

/-- The module with what a binary needs. -/
def startOf (sys : Sys) (b : BuildData) (m : LState) : Option (LState × Bool) :=
  if willBuildBinary b then (addStart m).map fun m => (m, sys.hasShim) else some (m, true)

/-- write.c:54-71 `write_llvm`. -/
def writeLH (sys : Sys) (b : BuildData) (p : Ptrs) (filename : List Char) (m : LState) : M Left := do
  let (m, ok) ← ofOption (startOf sys b m)
  if !ok then pure ((true, [.say]), p, false)
  else if !b.llvmNoVerify && !sys.verifies m then pure ((true, [.say]), p, false)
  else optimizeAndEmit sys b p filename m

/-- backend.c:7-23 `run_backend` with `llvm_backend`. -/
def runBackendLH (sys : Sys) (b : BuildData) (p : Ptrs) (filename : List Char) (syms : List Symbol) (a : ATree) : M Left := do
  let main ← ofOption syms[0]?
  let state ← alloc
  let m ← ofOption (codegenL ⟨syms, sys.fold, b.debug⟩ main.linkageName a)
  use state
  let r ← writeLH sys b p filename m
  use state
  free state
  pure r

/-- pipeline.c:61-66. -/
def runBackendH (sys : Sys) (b : BuildData) (p : Ptrs) (filename : List Char) (syms : List Symbol) (a : ATree) : M Left :=
  if b.cBackend then do
    let r ← runBackendCH sys b p filename syms a
    pure (r, p, false)
  else runBackendLH sys b p filename syms a

/-- The blocks of a run: the text, the text as code points, the tokens, the tree, and the state of the check. -/
structure Bufs where
  text : Nat
  text32 : Nat
  toks : Nat
  tree : Nat
  state : Nat

/-- The check and the back ends read all of them: tokens point into the text, nodes to tokens, and symbols to nodes. -/
def useBufs (k : Bufs) : M Unit := do
  use k.text32
  use k.toks
  use k.tree
  use k.state

/-- pipeline.c:55-66. -/
def checkAndGenerateH (sys : Sys) (b : BuildData) (p : Ptrs) (k : Bufs) (filename : List Char) (before : List Code) (t : Tree) : M Left := do
  useBufs k
  match semantic (checkCfg sys b) t with
  | .ub => fun _ => none
  | .fail s => pure ((true, flush b (before ++ s.diags.reverse.map PDiag.code)), p, false)
  | .ok a s => do
    let r ← runBackendH sys b p filename s.syms a
    useBufs k
    pure ((r.1.1, r.1.2 ++ flush b (before ++ s.diags.reverse.map PDiag.code)), r.2)

/-- pipeline.c:53-75. -/
def compileTreeH (sys : Sys) (b : BuildData) (p : Ptrs) (filename : List Char) (before : List Code) (text text32 toks tree : Nat) (t : Tree) : M Left := do
  let state ← alloc
  let r ← checkAndGenerateH sys b p ⟨text, text32, toks, tree, state⟩ filename before t
  free tree
  free toks
  free text32
  free text
  free state
  pure r

/-- pipeline.c:38-51: what is freed if there is no tree, or an empty one. -/
def noTree (text text32 toks : Nat) : M Unit := do
  free toks
  free text32
  free text

/-- pipeline.c:36-75. -/
def parseAndCompileH (sys : Sys) (b : BuildData) (p : Ptrs) (filename src : List Char) (text text32 tb : Nat) (toks : List Token) : M Left :=
  match parseAstTree toks with
  | .ub | .fuel => fun _ => none
  | .ok none s => do
    noTree text text32 tb
    pure ((true, flush b (bomDiags src ++ s.diags.reverse.map PDiag.code)), p, false)
  | .ok (some (.node .unknown _ _ .nil _)) _ => do
    let tree ← alloc
    use tree
    noTree text text32 tb
    free tree
    pure ((true, flush b (bomDiags src ++ [.warnFileEmpty])), p, false)
  | .ok (some t) _ => do
    let tree ← alloc
    compileTreeH sys b p filename (bomDiags src) text text32 tb tree t

/-- pipeline.c:34-75. -/
def classifyAndCompileH (sys : Sys) (b : BuildData) (p : Ptrs) (filename src : List Char) (text text32 : Nat) (toks : List Token) : M Left := do
  let tb ← alloc
  use text32
  use tb
  let toks ← ofOption (classifyTokens toks)
  parseAndCompileH sys b p filename src text text32 tb toks

/-- pipeline.c:27-75, with the text as code points. -/
def tokenizeAndCompileH (sys : Sys) (b : BuildData) (p : Ptrs) (filename src : List Char) (text text32 : Nat) : M Left :=
  match tokenize b.werror src with
  | none | some .ub => fun _ => none
  | some (.err e _ _) => do
    use text32
    free text32
    free text
    pure ((true, flush b (bomDiags src ++ if e = .bom then [] else [e.code])), p, false)
  | some (.ok toks) => classifyAndCompileH sys b p filename src text text32 toks

/-- pipeline.c:24-76 `run_pipeline`, which owns the text. -/
def runPipelineH (sys : Sys) (b : BuildData) (p : Ptrs) (filename : List Char) (text : Nat) (contents : List UInt8) : M Left := do
  use text
  match mbstoc32s contents with
  | none => do
    free text
    pure ((true, flush b [.errIllegalSeqAt]), p, false)
  | some src => do
    let text32 ← alloc
    tokenizeAndCompileH sys b p filename src text text32

/-- real_main.c:41-64 `compile_file`. -/
def compileFileH (sys : Sys) (b : BuildData) (p : Ptrs) (filename : List Char) : M Left :=
  if !compilesPath filename then pure ((true, [.say]), p, false)
  else
    match sys.read filename with
    | none => pure ((true, [.say]), p, false)
    | some file => do
      let f ← alloc
      use f
      match fileToString file with
      | none => do
        free f
        pure ((b.werror, flush b [.warnFileEmpty]), p, false)
      | some bytes => do
        let text ← alloc
        use text
        free f
        runPipelineH sys b p filename text (cString bytes)

/-- cli.c:53-58. -/
def afterCli (sys : Sys) : CliH → M ((Nat × List Act) × Ptrs)
  | .exit code left => pure ((code, [.say]), left)
  | .run b p => do
    let name ← alloc
    use name
    let r ← compileFileH sys b p (b.filename.getD [])
    free name
    freeOpt r.2.1.out
    pure ((r.1.1.toNat, r.1.2), ⟨none, if r.2.2 then none else r.2.1.extra⟩)

/-- cli.c:30-59 `main`; also gives what was not freed. -/
def skullH (sys : Sys) (args : List (List Char)) : M ((Nat × List Act) × Ptrs) := do
  let r ← cliMainH sys.colorEnv args
  afterCli sys r

end Skull.DrvHeap
