import Verif.Model.Semantic
/-
skull/codegen/c/expr.c, assign.c, flow.c, func.c, core.c, shared.c, types.c: the C back end.

The texts are lists of characters.  `symbol` pointers are numbers into the list of symbols that the semantic check leaves.  `none`
is an undefined operation: a null pointer dereferenced or given to `%s`, or an assertion that fails.

Left out: freeing.  `%a` is a parameter.
-/
namespace Skull

/-- The digits of a number in the given base, in front of `acc`. -/
def digitsFuel (base : Nat) : Nat → Nat → List Char → List Char
  | 0, _, acc => acc
  | f + 1, n, acc =>
    let c := Char.ofNat (if n % base < 10 then 48 + n % base else 55 + n % base)
    if n < base then c :: acc else digitsFuel base f (n / base) (c :: acc)

/-- `%lu` -/
def decText (n : Nat) : List Char := digitsFuel 10 (n + 1) n []

/-- `%li` -/
def signedDecimal (i : Int) : List Char := if i < 0 then '-' :: decText i.natAbs else decText i.natAbs

/-- `%X` -/
def upperHex (n : Nat) : List Char := digitsFuel 16 (n + 1) n []

/-- shared.h:5-12 `SkullStateC` without the field `tree`. -/
structure CState where
  globals : Option (List Char) := none
  calledIntPow : Bool := false
  calledFloatPow : Bool := false
  calledStrcmp : Bool := false
  indent : Nat := 0

/-- What the generator needs to know: the symbols, `printf("%a")` on the bits of a double, and the name of the file if there is to be
debug information. -/
structure CCfg where
  syms : List Symbol
  debug : Option (List Char) := none
  fmtA : Nat → List Char := fun _ => []

/-- A step of the generator. -/
abbrev CGen (α : Type) : Type := CState → Option (α × CState)

def CGen.bind (m : CGen α) (f : α → CGen β) : CGen β := fun s =>
  match m s with
  | some (a, s) => f a s
  | none => none

instance : Monad CGen where
  pure a := fun s => some (a, s)
  bind := CGen.bind

/-- An undefined operation. -/
def CGen.ub : CGen α := fun _ => none

/-- Change the state. -/
def CGen.modify (f : CState → CState) : CGen Unit := fun s => some ((), f s)

/-- `symbol->var` -/
def CCfg.var (cfg : CCfg) (id : Nat) : Option Variable :=
  match cfg.syms[id]? with
  | some { kind := .var v, .. } => some v
  | _ => none

/-- `symbol->func`, with the symbol. -/
def CCfg.func (cfg : CCfg) (id : Nat) : Option (Symbol × Func) :=
  match cfg.syms[id]? with
  | some sym => match sym.kind with | .func f => some (sym, f) | _ => none
  | none => none

/-- A value that may be undefined. -/
def CGen.ofOption : Option α → CGen α
  | some a => pure a
  | none => CGen.ub

/-- expr.c:58-87 `gen_expr_const_c`. -/
def genConstC (cfg : CCfg) : Value → List Char
  | .int i => if i > 2147483647 ∨ i < -2147483648 then signedDecimal i ++ ['L'] else signedDecimal i
  | .float bits => if bits = 0 then "0.0".toList else cfg.fmtA bits
  | .bool b => if b then ['1'] else ['0']
  | .rune r => '0' :: 'x' :: upperHex r
  | .str s => '"' :: s.map Char.ofNat ++ ['"']

/-- The C operator between the operands (expr.c:93-130), for the formats of the form `(%s op %s)`. -/
def infixC : Oper → Option (List Char)
  | .add => some "+".toList
  | .sub => some "-".toList
  | .mult => some "*".toList
  | .div => some "/".toList
  | .mod => some "%".toList
  | .lshift => some "<<".toList
  | .rshift => some ">>".toList
  | .is => some "==".toList
  | .isnt => some "!=".toList
  | .lessThan => some "<".toList
  | .gtrThan => some ">".toList
  | .lessThanEq => some "<=".toList
  | .gtrThanEq => some ">=".toList
  | .and => some "&&".toList
  | .or => some "||".toList
  | .xor => some "^".toList
  | _ => none

/-- The text before and between the operands, and after them: the format of a binary expression (expr.c:93-130), split at its
`%s`.  `lhs` and `type` are the types of the left operand and of the expression. -/
def formatC (o : Oper) (lhs type : Ty) : CGen (List Char × List Char) :=
  let strs := lhs = .prim .str
  match o with
  | .is =>
    if strs then do
      CGen.modify fun s => { s with calledStrcmp := true }
      pure ("_strcmp(".toList, ", ".toList)
    else pure ("(".toList, " == ".toList)
  | .isnt =>
    if strs then do
      CGen.modify fun s => { s with calledStrcmp := true }
      pure ("!_strcmp(".toList, ", ".toList)
    else pure ("(".toList, " != ".toList)
  | .pow =>
    if type = .prim .int then do
      CGen.modify fun s => { s with calledIntPow := true }
      pure ("_int_pow(".toList, ", ".toList)
    else if type = .prim .float then do
      CGen.modify fun s => { s with calledFloatPow := true }
      pure ("_float_pow(".toList, ", ".toList)
    else CGen.ub                                     -- 137: the format is null
  | o =>
    match infixC o with
    | some op => pure ("(".toList, ' ' :: op ++ " ".toList)
    | none => CGen.ub                                -- 131: assert(false)

/-- expr.c:146-155: the texts around the operand of a unary expression. -/
def prefixC : Oper → Option (List Char × List Char)
  | .unaryNeg => some ("-(".toList, ")".toList)
  | .not => some ("!".toList, [])
  | .ref => some ("&".toList, [])
  | .deref => some ("*".toList, [])
  | _ => none

/-- expr.c:179-194: the texts of the arguments with commas between. -/
def joinArgs : List (List Char) → List Char
  | [] => []
  | [a] => a
  | a :: as => a ++ ", ".toList ++ joinArgs as

mutual

/-- expr.c:21-56 `gen_expr_c`, with `gen_expr_binary_c` (89-143), `gen_expr_unary_c` (145-163) and `gen_expr_func_call_c`
(165-200). -/
def genExprC (cfg : CCfg) : AExpr → CGen (List Char)
  | .const _ v => pure (genConstC cfg v)
  | .ident _ id _ _ => do
    let v ← CGen.ofOption (cfg.var id)
    pure v.name
  | .bin o l r ty _ => do
    let f ← formatC o l.type ty
    let lt ← genExprC cfg l
    let rt ← genExprC cfg r
    pure (f.1 ++ lt ++ f.2 ++ rt ++ ")".toList)
  | .un o r _ _ => do
    let f ← CGen.ofOption (prefixC o)
    let rt ← genExprC cfg r
    pure (f.1 ++ rt ++ f.2)
  | .call _ args id _ => do
    let f ← CGen.ofOption (cfg.func id)
    let as ← genArgsC cfg f.2.numParams args
    pure (f.1.name ++ "(".toList ++ joinArgs as ++ ")".toList)

/-- expr.c:179-194, the loop over the parameters. -/
def genArgsC (cfg : CCfg) : Nat → AArgs → CGen (List (List Char))
  | 0, _ => pure []
  | n + 1, .cons _ e next => do
    let t ← genExprC cfg e
    let rest ← genArgsC cfg n next
    pure (t :: rest)
  | _ + 1, _ => CGen.ub                              -- 180: no such parameter

end

/-- shared.c:16-31 `get_indentation`. -/
def indentation (s : CState) : List Char := List.replicate (if s.indent ≥ 64 then 63 else s.indent) '\t'

/-- types.c:7-27 `skull_type_to_c_type`. -/
def typeC : Ty → List Char
  | .prim .int => "int64_t".toList
  | .prim .float => "double".toList
  | .prim .rune => "char32_t".toList
  | .prim .str => "char*".toList
  | .prim .bool => "bool".toList
  | .prim .void => "void".toList
  | .ref inner => typeC inner ++ ['*']

/-- Append to `state->globals`; the empty text stands for null (assign.c:83, 93, 138, 151). -/
def appendGlobal (text : List Char) : CGen Unit :=
  CGen.modify fun s => { s with globals := some (s.globals.getD [] ++ '\n' :: text) }

/-- assign.c:53-63 `gen_stmt_var_assign_c_`. -/
def assignC (cfg : CCfg) (name : List Char) (e : AExpr) : CGen (List Char) := do
  let t ← genExprC cfg e
  pure (name ++ " = ".toList ++ t ++ ";".toList)

/-- `__asm__("%s")` -/
def asmName (link : List Char) : List Char := " __asm__(\"".toList ++ link ++ "\")".toList

/-- assign.c:119-159 `gen_stmt_constexpt_global_var`. -/
def constGlobalC (cfg : CCfg) (v : Variable) (e : AExpr) : CGen Unit := do
  let t ← genExprC cfg e
  if v.isExported then
    if v.isConst then
      appendGlobal ("const ".toList ++ typeC v.type ++ ' ' :: v.name ++ asmName v.linkageName ++ " = ".toList ++ t ++ ";".toList)
    else CGen.ub                                     -- 129: assert(var->is_const)
  else
    appendGlobal ((if v.isConst then "static const ".toList else "static ".toList) ++ typeC v.type ++ ' ' :: v.name ++
      " = ".toList ++ t ++ ";".toList)

/-- assign.c:65-101 `gen_stmt_global_var`. -/
def globalVarC (cfg : CCfg) (v : Variable) (e : AExpr) : CGen (Option (List Char)) := do
  if e.isConstExpr then
    constGlobalC cfg v e
    pure none
  else
    if v.isExported then appendGlobal (typeC v.type ++ ' ' :: v.name ++ asmName v.linkageName ++ ";".toList)
    else appendGlobal ("static ".toList ++ typeC v.type ++ ' ' :: v.name ++ ";".toList)
    let t ← assignC cfg v.name e
    pure (some t)

/-- assign.c:103-117 `gen_stmt_stack_var`. -/
def stackVarC (cfg : CCfg) (v : Variable) (e : AExpr) : CGen (List Char) := do
  let t ← genExprC cfg e
  pure ((if v.isConst then "const ".toList else []) ++ typeC v.type ++ ' ' :: v.name ++ " = ".toList ++ t ++ ";".toList)

/-- assign.c:34-51 `gen_stmt_var_def_c`, when there is a symbol. -/
def varDefC (cfg : CCfg) (id : Nat) (e : AExpr) : CGen (Option (List Char)) := do
  let v ← CGen.ofOption (cfg.var id)
  let s ← fun s => some (s, s)
  if s.indent = 1 then globalVarC cfg v e
  else do
    let t ← stackVarC cfg v e
    pure (some t)

/-- func.c:116-124 `gen_param_c`. -/
def paramC (cfg : CCfg) (id : Nat) : CGen (List Char) := do
  let v ← CGen.ofOption (cfg.var id)
  pure (typeC v.type ++ ' ' :: v.name)

def mapGen (f : α → CGen β) : List α → CGen (List β)
  | [] => pure []
  | a :: as => do
    let b ← f a
    let bs ← mapGen f as
    pure (b :: bs)

/-- A `%s` whose argument must not be null. -/
def notNull : Option (List Char) → CGen (List Char)
  | some t => pure t
  | none => CGen.ub

/-- func.c:46-65: the parameters. -/
def paramsC (cfg : CCfg) (f : Func) (params : List Nat) : CGen (List Char) := do
  let ps ← mapGen (paramC cfg) (params.take f.numParams)
  pure (if f.numParams = 0 then "void".toList else joinArgs ps)

/-- debug.c:8-21 `apply_debug_info`. -/
def debugC (cfg : CCfg) (tok : List Token) (t : List Char) : CGen (List Char) :=
  match cfg.debug with
  | some file =>
    match tok with
    | tok :: _ => pure ("#line ".toList ++ decText tok.line ++ " \"".toList ++ file ++ "\"\n".toList ++ t)
    | [] => CGen.ub
  | none => pure t

/-- func.c:38-114 `gen_function_prototype_c`; `body` generates the statements of the function. -/
def prototypeC (cfg : CCfg) (id : Nat) (params : List Nat) (tok : List Token) (body : CGen (Option (List Char))) : CGen (List Char) := do
  let (sym, f) ← CGen.ofOption (cfg.func id)
  let ps ← paramsC cfg f params
  let head := typeC f.returnType ++ ' ' :: sym.name ++ '(' :: ps ++ [')']
  let fwd := head ++ asmName sym.linkageName ++ ";\n".toList
  if f.isExternal then pure (if f.isExport then fwd else head ++ [';'])
  else do
    let s ← fun s => some (s, s)
    CGen.modify fun s => { s with indent := 0 }
    let tree ← body
    CGen.modify fun t => { t with indent := s.indent }
    let tree ← notNull tree
    debugC cfg tok ((if f.isExport then fwd else "static ".toList) ++ head ++ " {\n".toList ++ tree ++ "\n}".toList)

/-- func.c:25-36 `gen_function_def_c`. -/
def functionDefC (cfg : CCfg) (id : Nat) (params : List Nat) (tok : List Token) (body : CGen (Option (List Char))) : CGen Unit := do
  let text ← prototypeC cfg id params tok body
  CGen.modify fun s => { s with globals := some (match s.globals with | some g => g ++ '\n' :: text | none => text) }

/-- flow.c:78-92 `gen_control_block_c`; `word` is the format up to the condition. -/
def controlC (cfg : CCfg) (word : List Char) (e : AExpr) (body : CGen (Option (List Char))) : CGen (List Char) := do
  let t ← genExprC cfg e
  let tree ← body
  let s ← fun s => some (s, s)
  let tree ← notNull tree
  pure (word ++ t ++ ") {\n".toList ++ tree ++ '\n' :: indentation s ++ ['}'])

/-- flow.c:54-60 `gen_control_else_c` and flow.c:66-76 `gen_control_namespace_c`; `word` is the format up to the block. -/
def plainBlockC (word : List Char) (body : CGen (Option (List Char))) : CGen (List Char) := do
  let tree ← body
  let s ← fun s => some (s, s)
  let tree ← notNull tree
  pure (word ++ "{\n".toList ++ tree ++ '\n' :: indentation s ++ ['}'])

/-- core.c:48-75, the switch of `gen_node_c`; `body` generates the statements of the block. -/
def genStmtC (cfg : CCfg) (ann : Ann) (stmt : Stmt) (tok : List Token) (body : CGen (Option (List Char))) : CGen (Option (List Char)) :=
  match stmt with
  | .varDef .. =>
    match ann with
    | .varDef id e => varDefC cfg id e
    | .none => pure none                             -- assign.c:35
    | _ => CGen.ub
  | .varAssign _ =>
    match ann with
    | .varAssign id e => do                          -- assign.c:26-32
      let v ← CGen.ofOption (cfg.var id)
      let t ← assignC cfg v.name e
      pure (some t)
    | _ => CGen.ub
  | .ret _ =>                                        -- flow.c:14-22
    match ann with
    | .none => pure (some "return;".toList)
    | .expr e => do
      let t ← genExprC cfg e
      pure (some ("return ".toList ++ t ++ ";".toList))
    | _ => CGen.ub
  | .noop => pure (some "(void)0;".toList)
  | .expr _ =>                                       -- func.c:17-23
    match ann with
    | .expr e => do
      let t ← genExprC cfg e
      pure (some (t ++ ";".toList))
    | _ => CGen.ub
  | .ifs _ =>
    match ann with
    | .expr e => do
      let t ← controlC cfg "if (".toList e body
      pure (some t)
    | _ => CGen.ub
  | .elifs _ =>
    match ann with
    | .expr e => do
      let t ← controlC cfg "else if (".toList e body
      pure (some t)
    | _ => CGen.ub
  | .elses => do
    let t ← plainBlockC "else ".toList body
    pure (some t)
  | .whiles _ =>
    match ann with
    | .expr e => do
      let t ← controlC cfg "while (".toList e body
      pure (some t)
    | _ => CGen.ub
  | .unreachable => pure (some "while (1) {}".toList)
  | .funcProto _ =>
    match ann with
    | .func id params => do
      functionDefC cfg id params tok body
      pure none
    | _ => CGen.ub
  | .namespaces =>
    match ann with
    | .ns id => do
      let sym ← CGen.ofOption cfg.syms[id]?
      let t ← plainBlockC ('"' :: sym.name ++ "\"; ".toList) body
      pure (some t)
    | _ => CGen.ub
  | .breaks => pure (some "break;".toList)
  | .continues => pure (some "continue;".toList)
  | .unknown | .imports | .comment => pure none

/-- core.c:72-74 and 77-83 `apply_indentation`. -/
def indentC (cfg : CCfg) (tok : List Token) (t : Option (List Char)) : CGen (Option (List Char)) :=
  match t with
  | none => pure none
  | some t => do
    let s ← fun s => some (s, s)
    let t ← debugC cfg tok (indentation s ++ t)
    pure (some t)

/-- core.c:28-37: the text so far, and the text of the next statement. -/
def joinStmts (a b : Option (List Char)) : Option (List Char) :=
  match a, b with
  | a, none => a
  | none, b => b
  | some a, some b => some (a ++ '\n' :: b)

/-- core.c:20-46, the loop of `gen_tree_c`. -/
def genNodesC (cfg : CCfg) (acc : Option (List Char)) : ATree → CGen (Option (List Char))
  | .nil => pure acc
  | .unchecked _ => CGen.ub
  | .node ann stmt tok child next => do
    let body : CGen (Option (List Char)) := do
      CGen.modify fun s => { s with indent := s.indent + 1 }
      let t ← genNodesC cfg none child
      CGen.modify fun s => { s with indent := s.indent - 1 }
      pure t
    let t ← genStmtC cfg ann stmt tok body
    let t ← indentC cfg tok t
    genNodesC cfg (joinStmts acc t) next

/-- core.c:16-18 `gen_module_c` and 20-46 `gen_tree_c`: the text of `tree`, and the state with the text of `globals`. -/
def genModuleC (cfg : CCfg) (t : ATree) : Option (Option (List Char) × CState) :=
  (do
    CGen.modify fun s => { s with indent := s.indent + 1 }
    let t ← genNodesC cfg none t
    CGen.modify fun s => { s with indent := s.indent - 1 }
    pure t : CGen (Option (List Char))) {}

/-- write.c:92-94. -/
def headersC : List Char := "#include <stdint.h>\n#include <uchar.h>\n".toList

/-- write.c:96-107. -/
def strcmpC : List Char :=
  "_Bool _strcmp(const char *a, const char *b) {\n\twhile (*a && *b) {\n\t\tif (*a != *b) {\n\t\t\treturn 0;\n\t\t}\n\t\ta++;\n\t\tb++;\n\t}\n\n\treturn !*a && !*b;\n}\n".toList

/-- write.c:110-112. -/
def floatPowC : List Char := "#include <math.h>\ndouble (*_float_pow)(double, double) = pow;\n".toList

/-- write.c:114-119. -/
def intPowC : List Char :=
  "int64_t _int_pow(int64_t base, int64_t exp) {\n\tint64_t result = base;\n\tfor (int64_t i = 1; i < exp; i++) result *= base;\n\treturn result;\n}\n".toList

/-- write.c:61-90 `print_main_shim`: with debug information the function comes from line 1 of the file. -/
def lineOne : Option (List Char) → List Char
  | some file => "#line 1 \"".toList ++ file ++ "\"\n".toList
  | none => []

/-- write.c:28-46 `write_file_c`: the contents of the file; `main` is what `create_main_func_name` gives. -/
def fileC (cfg : CCfg) (main : List Char) (tree : Option (List Char)) (s : CState) : List Char :=
  headersC ++ ['\n'] ++
  (if s.calledStrcmp then strcmpC ++ ['\n'] else []) ++
  (if s.calledIntPow then intPowC ++ ['\n'] else []) ++
  (if s.calledFloatPow then floatPowC ++ ['\n'] else []) ++
  (match s.globals with | some g => g ++ "\n\n".toList | none => []) ++
  lineOne cfg.debug ++ "static int init(void) __asm__(\"".toList ++ main ++ "\");\nstatic int init(void) {\n".toList ++ tree.getD [] ++
  "\n\treturn 0;\n}\n".toList ++ lineOne cfg.debug ++ "int main(void) { return init(); }\n".toList

end Skull
