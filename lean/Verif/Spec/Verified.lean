import Verif.Spec.Flow
import Verif.Spec.Declared
/-
What LLVM asks of a module (`LLVMVerifyModule`, write.c:73-90; LLVM's language reference and lib/IR/Verifier.cpp): blocks end with their
only jump, operands have the types that the instructions take, registers belong to the function and are set on every way to their uses,
jumps lead to blocks of the function other than the first one.

Pointers are opaque (LLVM 15 and 16): a pointer does not say what it points to.  Of the logical operations only those on `i1`, of the
signed comparisons only those on `i64` are allowed here, which is less than LLVM allows.
-/
namespace Skull.Spec

/-- LLVM's types. -/
inductive LTy
  | void | i1 | i32 | i64 | double | ptr
  deriving DecidableEq, Repr

/-- types.c:13-41 `type_to_llvm_type` -/
def lty : Ty → LTy
  | .prim .void => .void
  | .prim .bool => .i1
  | .prim .rune => .i32
  | .prim .int => .i64
  | .prim .float => .double
  | .prim .str => .ptr
  | .ref _ => .ptr

/-- The type of the result of an operation. -/
def opGives : LOp → LTy
  | .add | .sub | .mul | .sdiv | .srem | .shl | .lshr => .i64
  | .fadd | .fsub | .fmul | .fdiv | .frem => .double
  | _ => .i1

/-- The types of operands that an operation takes. -/
def opTakes : LOp → LTy → Bool
  | .add, .i64 | .sub, .i64 | .mul, .i64 | .sdiv, .i64 | .srem, .i64 | .shl, .i64 | .lshr, .i64 => true
  | .fadd, .double | .fsub, .double | .fmul, .double | .fdiv, .double | .frem, .double => true
  | .and, .i1 | .or, .i1 | .xor, .i1 => true
  | .ieq, .i1 | .ieq, .i32 | .ieq, .i64 | .ieq, .ptr => true
  | .islt, .i64 | .isgt, .i64 | .isle, .i64 | .isge, .i64 => true
  | .foeq, .double | .folt, .double | .fogt, .double | .fole, .double | .foge, .double => true
  | _, _ => false

/-- The types of the operands and of the result of the functions of the run time, expr.c:300-321, 414-428 and 434-468. -/
def builtinTakes : LBuiltin → LTy
  | .intPow => .i64
  | .floatPow => .double
  | .strcmp => .ptr

def builtinGives : LBuiltin → LTy
  | .intPow => .i64
  | .floatPow => .double
  | .strcmp => .i1

/-- The number and the type of the result of an instruction. -/
def resultOf (M : List LFunc) : LInstr → Option (Nat × LTy)
  | .bin r op _ _ => some (r, opGives op)
  | .load r ty _ => some (r, lty ty)
  | .alloca r _ => some (r, .ptr)
  | .call r g _ => (M[g]?).map fun x => (r, lty x.ret)
  | .builtin r g _ _ => some (r, builtinGives g)
  | _ => none

/-- A value has a type, in function `f`; `P` says which registers have which types. -/
def ValIs (M : List LFunc) (G : List LGlobal) (f : Nat) (P : Nat → LTy → Prop) : LVal → LTy → Prop
  | .int _, τ => τ = .i64
  | .float _, τ => τ = .double
  | .bool _, τ => τ = .i1
  | .rune _, τ => τ = .i32
  | .str _, τ => τ = .ptr
  | .poison, τ => τ ≠ .void
  | .null ty, τ => τ = lty ty
  | .global g, τ => g < G.length ∧ τ = .ptr
  | .param i, τ => ∃ x ty, M[f]? = some x ∧ x.params[i]? = some ty ∧ τ = lty ty
  | .reg r, τ => P r τ

/-- The arguments of a call have the types of the parameters. -/
inductive ArgsAre (M : List LFunc) (G : List LGlobal) (f : Nat) (P : Nat → LTy → Prop) : List LVal → List Ty → Prop
  | nil : ArgsAre M G f P [] []
  | cons {v vs ty tys} : ValIs M G f P v (lty ty) → ArgsAre M G f P vs tys → ArgsAre M G f P (v :: vs) (ty :: tys)

/-- A block of a function, but not its first one. -/
def TargetOk (M : List LFunc) (f b : Nat) : Prop := b ≠ 0 ∧ ∃ code, blockOf M f b = some code

/-- The operands of an instruction of function `f` have the types that it takes. -/
def InstrIs (M : List LFunc) (G : List LGlobal) (f : Nat) (P : Nat → LTy → Prop) : LInstr → Prop
  | .bin _ op a b => ∃ τ, opTakes op τ = true ∧ ValIs M G f P a τ ∧ ValIs M G f P b τ
  | .load _ ty p => lty ty ≠ .void ∧ ValIs M G f P p .ptr
  | .store v p => (∃ τ, τ ≠ .void ∧ ValIs M G f P v τ) ∧ ValIs M G f P p .ptr
  | .alloca _ ty => lty ty ≠ .void
  | .call _ g args => ∃ x, M[g]? = some x ∧ ArgsAre M G f P args x.params
  | .builtin _ g a b => ValIs M G f P a (builtinTakes g) ∧ ValIs M G f P b (builtinTakes g)
  | .br t => ∃ b, t = some b ∧ TargetOk M f b
  | .condBr c t e => ValIs M G f P c .i1 ∧ TargetOk M f t ∧ TargetOk M f e
  | .ret v => ∃ x, M[f]? = some x ∧ lty x.ret ≠ .void ∧ ValIs M G f P v (lty x.ret)
  | .retVoid => ∃ x, M[f]? = some x ∧ lty x.ret = .void
  | .unreachable => True

/-- An instruction of the function gives the register, with this type. -/
def Defined (M : List LFunc) (f r : Nat) (τ : LTy) : Prop := ∃ b code i, blockOf M f b = some code ∧ i ∈ code ∧ resultOf M i = some (r, τ)

/-- The operands of an instruction. -/
def operandsOf : LInstr → List LVal
  | .bin _ _ a b => [a, b]
  | .load _ _ p => [p]
  | .store v p => [v, p]
  | .alloca .. => []
  | .call _ _ args => args
  | .builtin _ _ a b => [a, b]
  | .br _ => []
  | .condBr c _ _ => [c]
  | .ret v => [v]
  | .retVoid | .unreachable => []

/-- Where an instruction may jump to. -/
def targets : LInstr → List Nat
  | .br (some b) => [b]
  | .condBr _ t e => [t, e]
  | _ => []

/-- Ways through a function: from the start of its first block to instruction `k` of block `b`.  `D` are the registers that were set. -/
inductive Way (M : List LFunc) (f : Nat) : Nat → Nat → List Nat → Prop
  | start : Way M f 0 0 []
  | step {b k D code i} : Way M f b k D → blockOf M f b = some code → code[k]? = some i →
      Way M f b (k + 1) (((resultOf M i).map (·.1)).toList ++ D)
  | jump {b k D code i t} : Way M f b k D → blockOf M f b = some code → code[k]? = some i → t ∈ targets i → Way M f t 0 D

/-- Two instructions do not have the same number for their results. -/
def Apart (M : List LFunc) (i j : LInstr) : Prop := ∀ r τ τ', resultOf M i = some (r, τ) → resultOf M j ≠ some (r, τ')

/-- What LLVM asks of a module. -/
structure Verified (M : List LFunc) (G : List LGlobal) : Prop where
  /-- Every block has one jump, at its end. -/
  ends : WellEnded M
  /-- Operands have types that fit, registers are of the same function, jumps lead to blocks of the same function. -/
  types : ∀ f b code, blockOf M f b = some code → ∀ i ∈ code, InstrIs M G f (Defined M f) i
  /-- Registers are set on every way to where they are used. -/
  order : ∀ f b k D, Way M f b k D → ∀ code i r, blockOf M f b = some code → code[k]? = some i → .reg r ∈ operandsOf i → r ∈ D
  /-- No register is set by two instructions. -/
  once : ∀ f b code, blockOf M f b = some code → code.Pairwise (Apart M) ∧
    ∀ f' b' code', blockOf M f' b' = some code' → (f', b') ≠ (f, b) → ∀ i ∈ code, ∀ j ∈ code', Apart M i j
  /-- Globals start with a constant of their type. -/
  globals : ∀ g ∈ G, lty g.ty ≠ .void ∧ g.init.isConstant = true ∧ ∀ f, ValIs M G f (fun _ _ => False) g.init (lty g.ty)
  /-- No parameter is void, and a function without code is not private. -/
  funcs : ∀ x ∈ M, (∀ ty ∈ x.params, lty ty ≠ .void) ∧ (x.blocks = [] → x.isPrivate = false)

/-- LLVM's constant folder: only operations on constants have a known value, which is a constant of the type of the operation. -/
def FoldTyped (fold : LOp → LVal → LVal → Option LVal) : Prop :=
  ∀ op a b v, fold op a b = some v → a.isConstant = true ∧ b.isConstant = true ∧ v.isConstant = true ∧
    ∀ M G f P τ, opTakes op τ = true → ValIs M G f P a τ → ValIs M G f P b τ → ValIs M G f P v (opGives op)

/- ### Programs that the check should not accept, but does -/

/-- Whether the variable cannot be changed. -/
def isConstVar (syms : List Symbol) (id : Nat) : Bool :=
  match syms[id]? with
  | some sym => match sym.kind with | .var v => v.isConst | _ => false
  | none => false

/-- The expression is `&x`. -/
def isAddress : AExpr → Bool
  | .un .ref _ _ _ => true
  | _ => false

mutual
/-- The expression has a value; no constant of the function is an operand of `&`, and nothing is compared with `&x`. -/
def soundE (syms : List Symbol) (own : List Nat) : AExpr → Bool
  | .ident _ _ ty _ => decide (ty ≠ .prim .void)
  | .const .. => true
  | .call _ args _ ty => decide (ty ≠ .prim .void) && soundA syms own args
  | .un .ref (.ident _ id _ _) _ _ => !(own.contains id && isConstVar syms id)
  | .un _ r ty _ => decide (ty ≠ .prim .void) && soundE syms own r
  | .bin _ l r _ _ => soundE syms own l && soundE syms own r && !isAddress r
/-- The arguments have values. -/
def soundA (syms : List Symbol) (own : List Nat) : AArgs → Bool
  | .cons _ e next => soundE syms own e && soundA syms own next
  | _ => true
end

/-- The function that a statement is in: whether there is one, the type of what it returns (of the program: `Int`), its parameters and
variables. -/
structure Around where
  inFunc : Bool := false
  ret : Ty := .prim .int
  own : List Nat := []

def returnTypeOf (syms : List Symbol) (id : Nat) : Ty :=
  match syms[id]? with
  | some sym => match sym.kind with | .func f => f.returnType | _ => .prim .void
  | none => .prim .void

def paramTypesOf (syms : List Symbol) (id : Nat) : List Ty :=
  match syms[id]? with
  | some sym => match sym.kind with | .func f => f.paramTypes | _ => []
  | none => []

/-- Of a statement: expressions have values, what is returned is what the function returns, functions are not in functions and have no
parameters of type Void. -/
def soundAnn (syms : List Symbol) (K : Around) (stmt : Stmt) : Ann → Bool
  | .varDef _ e | .varAssign _ e => soundE syms K.own e
  | .expr e =>
    match stmt with
    | .ret _ => soundE syms K.own e && decide (e.type = K.ret)
    | .expr _ => match e with | .call _ args _ _ => soundA syms K.own args | _ => true
    | _ => soundE syms K.own e
  | .none => match stmt with | .ret _ => decide (K.ret = .prim .void) | _ => true
  | .func id _ => !K.inFunc && (paramTypesOf syms id).all (fun ty => decide (ty ≠ .prim .void))
  | .ns _ => true

/-- In the block of a statement. -/
def Around.enter (syms : List Symbol) (K : Around) (child : ATree) : Ann → Around
  | .func id ps => ⟨true, returnTypeOf syms id, ps ++ child.defs⟩
  | _ => K

/-- Of all statements. -/
def soundT (syms : List Symbol) (K : Around) : ATree → Bool
  | .node ann stmt _ child next => soundAnn syms K stmt ann && soundT syms (K.enter syms child ann) child && soundT syms K next
  | _ => true

end Skull.Spec
