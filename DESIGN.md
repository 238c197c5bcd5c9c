# Formal model of the skull compiler: design

Source: `/repo` (dosisod/skull at the pinned commit), read as text only.
Model and proofs: Lean 4.33, `lean/Verif`.  Properties: `properties.jsonl`.  Status per property: `MANIFEST.json`.

## Layout

* `Verif/Model/*`   definitions that transcribe the C code, function by function.  Each cites file and lines.
* `Verif/Spec/*`    small specifications that do not use the model (grammars, maps, typing rules, semantics).
* `Verif/Proofs/*`  helper lemmas.
* `Verif/Props/*`   the property theorems, named `C01_...`, each with an `example` showing its hypotheses can be met.

## Trusted base

* Lean's kernel.  Axioms: at most `propext`, `Classical.choice`, `Quot.sound`; no axioms of our own, no `sorry`, no `native_decide`.
* The transcription from C to Lean (by hand; the comments give the lines so it can be reviewed).
* The C standard library: `strtoll`, `strtod`, `mbrtoc32`, `c32rtomb`, `strncpy`, `strlen`, `memcpy`, `strrchr` behave as
  the C standard says, in a UTF-8 locale.  `strtoll`, `mbrtoc32`, `c32rtomb`, `strncpy` are modelled by functions of
  their specified behaviour; `strtod` is an uninterpreted parameter.  `mbrtoc32` and `c32rtomb` accept exactly the Unicode scalar
  values.  `%s` of `printf` writes the characters up to the terminator; the texts given to diagnostics are not null.
* `malloc` never fails (the code exits on failure), sizes, keys and paths do not exceed the address space.  Addresses are flat: a
  pointer before the start of a string is compared as a number (`strrstr`).  Freeing memory is modelled for the parser and
  the semantic check only.
* `Spec/Machine` says what LLVM code does, as far as the back end uses it.  A `poison` value is treated as undefined behaviour: code that
  comes to one does not run on.  The constant folder of LLVM is a parameter; what is asked of it is `FoldSound`.
* `Spec/Run` says what programs mean.  The documentation says little about this; where it is silent, the interpreter evaluates from left to
  right, all operands, and takes integers that do not fit in 64 bits for undefined.
* `Spec/Direct` says what programs mean as they are written, with the same choices.  Literals are read by the functions of `Model/Literal`
  (which C11 to C15 are about).
* `Spec/CSyntax` and `Spec/CValue` say how C expressions are read and what their values are, where `int` has 32 bits, `int64_t` is `long`
  and `>>` of a negative number keeps the sign.  `Spec/CProgram` says how statements and declarations are read, as far as the back end
  writes them; `bool` is taken for a type.  `Spec/CRun` says what C programs do and which ones C takes: an order of evaluation that could
  matter, values that do not fit and anything C calls undefined have no result.  Storage durations, scopes and constant initialisers are
  those of C; linkage is not looked at, so `__asm__` names that clash are not seen.
* LLVM's optimiser and assembler, the linker and file system calls are not modelled; the model of the driver
  takes their answers as a parameter, and that of the verifier, too.
* `Spec/DebugTypes` takes from LLVM that the size of a basic type is written in whole bytes, rounded down.
* `Spec/Verified` says what the verifier asks of a module, for the instructions the back end makes and opaque pointers (LLVM 15 and 16); it
  follows the language reference.  What it asks of locations and of descriptions of variables is in `Spec/DebugInfo`.
* `Spec/Shell` says how a shell reads a command without special characters.

## What is modelled

| source | model | left out |
|--------|-------|----------|
| `parse/token.c`, `token.h` | `Model/Token`; with pointers and memory: `Model/TokHeap`; `free_tokens` is also in `Model/ParseHeap` | nothing |
| `parse/classify.c` | `Model/Classify` | |
| `parse/ast_node.c`, `ast_node.h` | `Model/Ast`, `Model/Parser`; the memory: `Model/ParseHeap`, of `value.str`: `Model/StrHeap` | `parent` pointers |
| `semantic/types.c` (literals) | `Model/Literal` | `strtod` is a parameter |
| `semantic/mangle.c`, `codegen/abi.c`, `common/io.c` (file names) | `Model/Paths` | |
| `common/str.c` | `Model/Str`, `Model/Utf8`, `Model/Bytes` | |
| `common/io.c` (reading) | `Model/Utf8` | system calls |
| `common/vector.c`, `hashtable.c` | `Model/Vector`, `Model/HashTable`; the memory: `Model/ContHeap` | |
| `common/errors.c`, and every use of it | `Model/Errors`; the memory: `Model/MsgHeap` | writing to the terminal |
| `cli.c`, `real_main.c` (checks) | `Model/Cli` | the texts printed |
| `real_main.c`, `pipeline.c`, `codegen/backend.c`, `codegen/c/write.c`, `codegen/llvm/write.c` | `Model/Driver`; the memory: `Model/DrvHeap` | what system calls, LLVM's library and the linker answer is a parameter (`Sys`); memory of LLVM |
| `semantic/types.c` (types) | `Model/Types`; the memory: `Model/ContHeap` | the builtin types' back end fields |
| `semantic/scope.c`, `symbol.c`, `variable.c`, `shared.c` | `Model/Scope`; the memory: `Model/SemHeap`, of types `Model/ContHeap` | |
| `semantic/entry.c`, `expr.c`, `assign.c`, `flow.c`, `func.c`, `import.c`, `unused.c` | `Model/Semantic` | opening files is a parameter |
| `codegen/llvm/*.c` | `Model/CodegenLLVM`, `Model/DebugInfo` (scopes, locations, descriptions of variables), `Model/DebugTypes` (descriptions of types) | LLVM's own library (folding of constants is a parameter), the names LLVM makes up; of debug information files, the compile unit, names |
| `codegen/c/*.c` | `Model/CodegenC`; the memory: `Model/CHeap` | `%a` is a parameter; that `FILE`s are not closed |
| run time functions in `codegen/c/write.c` and `shim.ll` | `Model/Runtime` | `_float_pow` |

Everything else of the repository is not modelled yet.

## Conventions

* A C pointer into a NUL terminated string is the list of the characters from there to the terminator.  Reading at the
  terminator gives NUL; moving past the terminator is `ub`.
* A `Token *` is the list of the tokens from there on; null is the empty list, and reading through it is `ub`.
* Undefined behaviour (null dereference, out of bounds access, reading a union through the wrong member, shifting too far) is a
  result of its own (`Res.ub` or a similar constructor), never identified with success or failure.
* Loops that are not structurally recursive take fuel.  Running out of fuel is a result of its own and is proved not to happen.
* When a property is false of the code, `Cxx_full` is the statement wanted (or the statement is given in the theorem), `Cxx_false`
  proves its negation with a concrete witness, and a `Cxx_..._partial` theorem has the condition under which it holds.

## Properties, and how each is proved

| id | modelled | proof |
|----|----------|-------|
| C01 | `Model/Token` tokenizer state machine on string suffixes | invariant: cursor is a suffix; fuel bounded by length |
| C02 | same | partition invariant relating emitted tokens, open token, cursor and source |
| C03 | same | invariant line = 1 + newlines consumed |
| C04 | same | false (quoted literals do not advance the column); partial for lines without quotes/comments |
| C05 | same + `Spec/Lexical` grammar | soundness and completeness by induction on the source |
| C06 | same | false (`##}`; glued text); partial |
| C07 | `Model/Classify`, `Spec/Words` | false (`0_1`); recogniser = grammar for every other word |
| C08-C10 | same | recogniser = grammar, by induction |
| C11 | `Model/Literal` (`eval_integer`, `strip_underscore_num`, `strtoll`) | false (prefixed literal followed by `c_`); digit-fold value lemma; range split |
| C12 | same | exact text given to `strtod` |
| C13 | `Model/Literal`, `Model/Str` (`c32sunescape`) | induction on literal body; escape/unescape round trip |
| C14 | same | false (several quoted parts; above U+00FF); iff for one part |
| C15 | `Model/Literal` at buffer level | false for prefixed integers (reads two characters past the token); partial |
| C16 | `Model/Utf8` | false (NUL bytes); decode/encode inverse, per length class |
| C17 | `Model/HashTable` | refinement to association list, any history |
| C18 | `Model/Vector` | refinement to list with capacity invariant |
| C19, C21 | `Model/Paths` at buffer level | exact contents and in-bounds |
| C20 | `Model/Cli` | false (substring test); partial |
| C22, C23 | `Model/Cli` | characterisation of accepted vectors; permutation invariance |
| C24 | `Model/Parser` | progress of every function gives a linear fuel bound |
| C25 | same; `Spec/Defined` for the check | false (null token at the end of a file; six causes in the check, `C25_semantic_false_more`); no undefined operation in the parser when two newlines end the tokens, since expressions consume no newline and only one token is skipped as separator. The check: every function of it is defined in a state that agrees with the rules (`SInv`), with a current function that is one (`FuncsOk`), on statements that are written as in the source (`PlacedIn`, `Real`) |
| C26 | same, `Spec/Grammar` | soundness and completeness of the five mutually recursive functions against chains of operands |
| C27 | same | false (`a is b + c * d`); shape invariant of the spine that `attach` rebuilds |
| C28 | same | false (`(1 + 2) * 3`); trees that keep their parentheses, erased |
| C29 | same, `Model/Semantic`, `Spec/Silent` (declarations that can be refused without a word) | false (`if` at the end; a second namespace of the same name); in the parser and in the check failing adds a diagnostic; for the check by an invariant on where the symbols in scope come from |
| C30, C31 | same, `Spec/Statements` | false; each statement function is sound for `Written`, blocks by induction for `Nests` |
| C32 | `Model/Types` interning table | invariant: table entry determined by name |
| C33 | `Model/Scope`, `Spec/ScopeRun` | invariant `SInv`: the scope graph represents the list of declarations in force; lookup = first hit on the chain |
| C34 | `Model/Semantic`, `Spec/Program` (declarative rules over environments without scopes) | false (alias without a type); from `semantic_sound` |
| C35 | same | `C35_scopes` in general; for whole programs false (block behind a call), partial |
| C36 | same | false (falls through to outer names); exact meaning of dotted names |
| C37, C38, C42-C44, C46, C47 | same | false (block behind a call is not checked); partial for programs without such blocks |
| C39 | `Spec/Typing` | false (65537 arguments); iff for every other expression; uniqueness of types |
| C40 | same | false (number of arguments wraps at 16 bits); partial |
| C41, C45 | same | false (returns inside an `if`; nested functions); partial |
| C58 | same | false; soundness and completeness of the whole check against the rules, each under conditions |
| C48, C49 | `Model/Semantic`, `Spec/Uses` | false (`err &=`; function bodies); the marks of symbols are exactly the uses in the checked tree |
| C50 | `Model/CodegenC`, `Spec/CSyntax` (C's tokens and grammar of expressions), `Spec/CReads` | false (`int := 1`); the grammar is unambiguous (`G.uniq`), and the text reads as the tree by induction on the checked expression (`semantic_wt`) |
| C51 | same | false (backslash); iff by lengths of text and string |
| C52, C53 | `Model/Runtime` | loop invariants on BitVec 64 |
| C54 | `Model/CodegenLLVM`, `Model/CodegenC`, `Spec/CValue` (values of C expressions), `Spec/Machine` | false (`7 / 2`, `2147483647 + 1`); by induction on the reading of the C text (C50), and on the code of the expression |
| C55 | `Model/CodegenLLVM`, `Spec/Flow` (where the code of statements is) | false (a loop before a `break`); by induction on the run of the generator the code of every statement is laid out |
| C56 | same | false (`return` in a namespace); invariant: the blocks still open are the current one and those the generator will come back to; the check makes functions end as their types say |
| C57 | `Model/Errors` | formatting lemma; false for four diagnostics without location |
| C59 | `Spec/Run` (an interpreter of checked programs), `Spec/Machine` (what LLVM code does), `Model/CodegenLLVM` | false (`5 ^ 0`, `7 / 2`, a variable set in a loop, a loop before a `break`); simulation by induction on the steps of the interpreter, over the layout of C55; the machine is deterministic |
| C60 | `Model/Semantic`, `Spec/Declared` | invariant of the scopes: a state represents an environment, and the declarations that names can reach in it are those of the statements before in blocks around |
| C61 | `Model/CodegenLLVM`, `Spec/Generates` (what can be compared) | false (`a is b` on references); by induction on the checked tree: what is named has been declared (C60), so it has a place; conversely the code of an expression says how it compares |
| C62, C64 | `Model/Driver` (a run is a list of actions and an exit code), `Spec/Driver` | case analysis of the run: refused, empty, or given to a back end |
| C63 | same | false (`-o` for a binary; a linker ended by a signal); partial |
| C65 | same, `Spec/Shell` (how a shell reads words) | false (an argument with a blank); partial |
| C66 | `Model/Driver`, and C29 | false (as C29); case analysis of the run |
| C67 | `Model/Driver`, `Spec/Exit` (a process ends by calling `exit`), and C59, C63 | false (`5 ^ 0`); more functions in a module change no run; code that runs to its end calls no `exit` |
| C68 | `Model/CodegenC`, `Spec/CWritable` | false (a block with a comment only); induction on the checked tree |
| C69 | `Model/CodegenC`, `Spec/CProgram` (C's grammar of programs), `Spec/CProgReads` (when a C program is that of a checked tree) | false (`x := "\n"`); the grammar is unambiguous (`GUnit.uniq`); what the generator writes reads as the tree by induction on the checked tree (`yields_nodes`) |
| C70 | `Model/CodegenC`, `Spec/CRun` (what C programs do), `Spec/CFits` (programs whose C form does what they say), `Spec/Run` (what programs do) | false (`counter`); a simulation of the interpreter of the source by the interpreter of C (`CSim.simAt`, induction on the steps), and an invariant of programs that fit (`CSim.Good`, `CSim.top_ok`) that gives what the simulation wants to know of the whole file |
| C71 | those of C59 and C70 | false (`counter`); from C59 and C70, since both arithmetics are restrictions of the documented one (`run_less`) |
| C72 | `Model/CodegenC`, `Spec/CLines` (lines of C files and the places told about them) | false (`directiveSrc`); two runs of the generator side by side (`CDebug.Twin`), with a relation between the lines of their texts (`CDebug.Deb`) |
| C73 | `Model/SemHeap` (the check with a log of its memory), `Spec/Heap` | an invariant on symbols, tables and scopes that says which blocks are live (`SemHeap.Ok`, after errors `SemHeap.Bad`); the check with the log does what the one without does (`Outcome`); parameters in sources are not named like types (`parsed_params`) |
| C74 | `Model/SemHeap`, `Spec/Heap` | false (`leakSrc`); all scopes can be reached from the first one, and all symbols from the scopes (`owned_freed`) |
| C75 | `Model/Parser`, `Spec/Source` (programs as they are written, with their tokens and trees) | false (`x := 1 # comment`); every statement function takes the statements of its kind and leaves the others alone, then by induction on the program |
| C76 | `Model/ParseHeap` (the parser with a log of its memory, and the functions that free), `Spec/Heap` | every block that is there is in the tree, in the context, lost, or a token, and in one of them only (`PHeap.Holds`, `Inv`); the parser with the log does what the one without does, in the same induction (`PHeap.TSpec`) |
| C77 | those of C76, `Spec/ParseMemory` (a block right after another one) | false (`blocksSrc`); what is lost is nothing, or the block that hung on the head before (`Inv.lost`, `Found`) |
| C78 | `Spec/Direct` (what programs do as they are written, with names), `Model/Semantic` | false (`outerUsed`); a relation between what is written and what the check makes of it, with an environment of declarations (`Elab.ElT`), which every accepting run establishes (`Elab.accepted_el`); then a simulation in which the things declared while running belong to symbols (`Elab.run_same`) |
| C79 | those of C67, C70 and C78 | false (`5 ^ 0`); composition |
| C80 | those of C59 and C61 | false (`readsParam`); from C59 and C61, which are about code with and without `-g` |
| C81 | `Model/CHeap` (the C back end with a log of its memory), `Spec/Heap` | every generator makes the text that the one without memory makes, and turns the blocks it is given into the block of its result (`CHeap.Does`); whoever gets a string owns it |
| C82 | `Model/CodegenLLVM`, `Spec/Verified` (what LLVM asks of a module, and a condition on programs: expressions that are used have values, `return` gives what the function returns, no address of a constant of a function) | false (`C82_needs_returns` and seven others); an invariant of the generator (`LVer.Good`, `LVer.GenGood`): registers are numbered in the order in which they are made, and what a statement may use is set at the beginning of the block that is written to, on every way; ways to a block are followed by induction (`way_sets`) |
| C83 | `Model/TokHeap` (the tokenizer with tokens that point to each other, and a log of their memory), `Spec/Heap` | the blocks form a chain whose first part is the list that `Model/Token` has (`THeap.chain`, `THeap.Rel`); where the last token is popped, `ctx->last` is the one before it (`THeap.LastOk`) |
| C84 | `Model/DebugInfo` (the LLVM generator with the scope, locations and descriptions), `Spec/DebugInfo` | the generator with debug information goes along with the one without (`DInfo.Does`), and keeps that the scope is of the current function, that locations are of values or places in it, and that calls have them (`DInfo.Ready`); `DInfo.Adds` counts the descriptions |
| C85 | those of C84 | false (`C85_assignment`, `C85_condition`); `DInfo.Locs` keeps for each location the statement it was set for |
| C86 | `Model/Driver`, `Model/Semantic`, `Spec/Settings` | what the check does with one setting it does with another, unless that turns a warning into an error (`Opts.Sim`); then along the driver |
| C87 | `Model/Parser`, `Spec/Relabel` | the parser commutes with every replacement of tokens that keeps kinds (`Relab.nat5`), by recursion over its fuel |
| C88 | `Model/Driver`, `Model/Literal`, `Spec/Reformat` | the check, both back ends and the driver commute with every replacement of tokens by ones that mean the same (`Reform.Comm`, `Reform.run_eq`); a chosen token stands for all that mean the same (`Reform.canon`); kind and text settle the meaning (`Reform.meaning`) |
| C89 | `Model/DebugTypes`, `Spec/DebugTypes` (how a debugger reads a description) | false (`Bool`); induction on the type |
| C90 | `Model/ContHeap`, `Spec/ContHeap` (code that uses a vector or a table) | the blocks that are allocated are those that the container points to, after every step (`ContHeap.Does`) |
| C91 | `Model/ContHeap`, `Spec/ContHeap` | as C90, and the keys of the table are names of types that the table owns (`ContHeap.ROk`) |
| C92 | `Model/DrvHeap`, `Spec/DrvHeap` (which runs leak) | false (`-o x`); the driver with its memory follows the one without (`DrvHeap.Runs`), with the blocks that are allocated at each step |
| C93 | `Model/MsgHeap`, `Spec/MsgHeap` (reports of diagnostics, file after file) | every call gives texts only to messages that have no other, and behind none without text (`MsgHeap.shape_of`); the rest as C90 |
| C94 | `Model/StrHeap`, `Spec/StrHeap` (expressions that are checked, read by a back end in any order, then freed) | the check with the memory follows the one without and leaves what can be read (`StrHeap.expr_r`), and the texts allocated are those of the literals of the expression |
| C95 | `Model/Semantic`, `Spec/OwnNames` | what the names of tokens are (C09, C21), which tokens name things (`OwnNames.StmtNames`), and that no step of the check makes or changes a symbol otherwise (`OwnNames.Kept`) |

## What was found

Behaviour of the code that contradicts a property or surprised us.  Each is a theorem or an `example` in `Props`.

* C04: the column does not advance over quoted literals and comments.
* C06: `##}` and text glued to a comment.
* C07: decimals that begin with `0_` are not integers.
* C10: a file of blanks only (or a lone byte order mark) makes the classifier read through a null pointer.
* C11, C15: after an integer literal with a base prefix the evaluator reads up to two characters past the token.
* C14: `'\n'b'c'` is a rune; above U+00FF `iscntrl` is undefined.
* C16: a file is cut at its first NUL byte.
* C20: `a.sk.txt` is compiled.
* C23: with `-h` or `-v` the order matters for what is printed.
* C25: `x :=`, `x =`, `export`, `external` at the end of a file, and `x: Int` even with a newline after it, read through null.
* C25: `x := f` and `f = 1` for a function `f`, or with a namespace, fail the assertion in `scope_find_var` (scope.c:92); `x := -` reads through the missing operand; a function in a block behind a call (`f(1) { g() { noop } }`) has no symbol when unused symbols are looked for (unused.c:42).
* C27: precedence goes wrong after two operators of decreasing level; `c * - a ^ b` differs from `- a ^ b`.
* C28: `(1 + 2) * 3` is `1 + (2 * 3)`; parentheses only group when they are not the first operand or hold tighter operators.
* C29: `if`, `elif`, `while`, `namespace` as the very last token are refused without a diagnostic.
  So are: a second namespace of the same name (also `namespace a.b` where `a` has a namespace `b`), and an alias without a type
  (`X: Int = Bool`) that is declared again.  C66: then the exit code is all one gets.
* C30: `x: Int foo 5` declares `x` as 5.
* C31: `{ noop } if true` hangs the block on the `if`; `namespace {` takes the brace for the name.
* C34: `X: Int = Bool` declares an alias without a type; it may be declared again or shadowed.
* C35, C37, C38, C42-C44, C46, C47: a block behind a call statement (`f(1) { ... }`) is accepted and never looked at.
* C36: `ns.x` finds names declared outside `ns`; a variable whose own name has a dot is accepted and can never be used.
* C40: numbers of arguments and parameters are kept in 16 bits, so 65537 arguments are taken for one.
* C41: a function without return type may return a value from inside an `if`.
* C45, C58: after a function inside a function the check takes the wrong one for the current function; the function that is open
  after an external declaration is the external one.
* Names of functions and namespaces used as variables make `scope_find_var` read the wrong member of a union.
* C48: with `--werror` a warning inside a block clears all errors before it, so the program is compiled.
* C49: nothing inside functions is ever reported as unused.
* C50: a variable named `int` gives C text that is not C; the least integer is written as minus a constant that fits in no signed type.
* C51: the C back end writes strings without escapes, so a backslash and an `n` become a newline.
* C52: `x ^ 0` and negative exponents give `x`.
* C54: `2147483647 + 1` is an `int` operation in C and overflows; `- 8 >> 1` is -4 in C and a large number in LLVM.
* C57: four diagnostics have no location; `if -` at the end prints a literal `%s`.
* C55: after a loop inside a loop, a `break` or `continue` of the outer one becomes a branch to a null block.
* C56: a `return`, `break`, `continue` or `unreachable` directly in a namespace leaves instructions behind a jump.
* C59: `7 / 2` is an exact division, which has no value; `5 ^ 0` gives 5; `mut x := 0` in a loop outside functions is set only once,
  before the program starts.
* C61: `a is b` on two references (or on two calls without a value) passes the check and runs into an assertion of the LLVM back end;
  `&a is &b` compares by the type that `a` refers to, so it works for references to numbers and crashes for references to references.
* C62: an empty file is compiled to nothing, with a warning and exit code 0.  With `-q` errors are not printed either.
* C63: `skull -o out a.sk` writes an object file to `out`, links it to `a` and removes `out`.  Only `WEXITSTATUS` is looked at, so a
  linker that a signal ends counts as success.  When the name of the binary is a directory, the object file stays behind.
  A file that the C back end cannot open for writing is written through a null pointer.
* C64: `-o` may name the source, which is then overwritten, and removed.
* C65: arguments after `--` are split at blanks and expanded by a shell; so are dollars and backticks in the names of files.
* C67: functions of the program named `exit` or `_start` clash with those that a binary needs.
* C68: `if x { # comment }`, or a function with nothing but `x := 1` in it, makes the C back end give a null pointer to `%s`.
* C69: characters of strings are written to C as they are, so a newline in a string gives a file that is no C.  `bool` is used, but
  `stdbool.h` is not included, so before C23 no program with a variable of type `Bool` compiles.
* C70: variables outside of the blocks of a function become static C objects: they are initialised once, shared by all calls (also
  recursive ones), and two functions with variables of the same name give a file that is no C.  A constant that refers to another
  variable, or has `^` or a comparison of strings in it, is no constant expression in C.  A function in a namespace, or a variable of a
  block that a function uses, is out of sight in C.
* C95: an alias is named by the first token of its statement, so `export X := Int` declares a type with the name `export`; a namespace
  is named by the token behind its keyword, whatever that is (`namespace 1 {`).
* C72: a string with a newline and `#line 7` in it is a directive in the file (which is no C anyway).  The directive of an exported
  function stands before its declaration, so its definition is one line too far.
* C73: `validate_func_params` frees the name of a parameter that cannot be added, which the message of `symbol_already_exists` has freed
  already.  It takes a parameter with the name of a type (`scope_add_var` has refused other names before), and the classifier does not
  let `Int:` through, so no source text has one.
* C74: when an exported variable cannot be added (a function of its name is there) its linkage name is not freed; nor is the name of a
  namespace that is there already.
* C75: after a definition the parser takes nothing but a newline or the end of the file: `x := 1 # comment` and `if true { x := 1 }` are
  refused, though other statements may be followed by a comment or a brace.  An external function needs the newline even at the end
  of the file.
* C77: a block at the beginning of a list of statements hangs on its head; a second one that follows takes its place, and the first one
  is neither compiled nor freed (`{ noop } { noop }`).  After an error in the right operand of an operator, in an argument or in
  parentheses the expressions before it are lost.  A namespace may be called `}`.
* C78: a function in a function may use local variables of the outer one; the code for it then uses values of another function.
* C80: `*p` of a parameter loads twice from what was passed for it, since a parameter is taken for a place that holds its value.  With
  `-g` parameters have such places, so `*p` is right with `-g` only, and `&p` is something else with and without it.  A `noop` takes up
  stack with `-g`, each time it is run.
* C81 found nothing wrong with the memory of the C back end.  What is next to it: `skull_type_to_c_type` is marked as pure in types.c though it
  allocates (no caller can see that); and `write_file_c` does not close the file it writes.
* C82: the check accepts programs that LLVM then refuses ("error while verifying LLVM"): `return 1` in a branch of a function without a
  result (only the last statement is looked at), parameters and variables of type Void, `&x` of a constant of a function (constants have no
  place in memory; the value is used instead), comparing with `&y` where `y` is a reference to a Float (the type of `&y` is made while
  generating, and the operation is looked up for the type that `y` refers to), variables of the function around, and the jumps of C56.
* C84, C85: stores have the location of the definition of their variable, since `assign_value_to_var` uses the symbol's.  `if x {` after
  `x := f()` moves the call to the line of the `if`.  Jumps, loads, arithmetic and the return that is added at the end of a function have
  no location; the one added to the main function has that of the first statement of the file.  Constants of functions are described with
  `#dbg_declare`, which takes an address, but given their value.  The function for that, `LLVMDIBuilderInsertDeclareRecordAtEnd`, is one of
  LLVM 19, while the README asks for 15 or 16.  If `getcwd` fails, the scope is never set.
* C86: with `-q` the check for unused symbols is left out, and with it the null pointer that it reads for a function in a block behind a
  call.  So there are programs that are compiled with `-q` only.
* C88: `x := 0x1` before a line that begins with an underscore makes the compiler step over the end of a buffer; with a space behind the
  number, it is compiled.
* C89: a `Bool` is described to debuggers with a size of one bit, which LLVM writes as no bytes at all; other languages say 8.
* C90 found nothing wrong with the memory of vectors and tables.  `ht_add` does not take a value whose key is there already; it is still the
  caller's then.
* C91: keys of the table of types are names of other types in it, and dangle while it is freed; nothing reads them then.
* C92: `main` returns without `cleanup` if the settings contradict each other or there is no source, so `out_file` and `extra_args` leak; only `emit_native_binary` frees `extra_args`, so they leak in every run that does not link (`skull a.sk -c -- -lm`, or any error).
