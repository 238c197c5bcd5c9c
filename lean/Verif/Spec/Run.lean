import Verif.Model.Semantic
/-
What programs do: an interpreter of checked trees.

Names are resolved (the checker's part), so variables and functions are symbols.  Variables declared outside functions are shared by all
functions; variables of a function are there until the end of their block, those of a namespace until the end of the block around it.
Expressions are evaluated from left to right, with all operands.  What functions that are only declared do is a parameter (`ext`), as is
the state `ω` of the world they act on, and the arithmetic of floats.

`none` is an undefined operation, or that the first argument (the number of steps allowed) is too small.  Undefined are: arithmetic
without a result, variables and functions that are not there, falling off the end of a function with a return type, `unreachable`, and
what this interpreter does not know: references, blocks behind calls, and more arguments than parameters.
-/
namespace Skull.Spec

/-- Values.  `unit` is what functions without a return type give. -/
inductive Val
  | int (i : Int)
  | float (bits : Nat)
  | bool (b : Bool)
  | rune (r : Nat)
  | str (s : List Nat)
  | unit
  deriving DecidableEq, Repr

/-- The value of a literal. -/
def Val.ofConst : Value → Val
  | .int i => .int i
  | .float bits => .float bits
  | .bool b => .bool b
  | .rune r => .rune r
  | .str s => .str s

/-- Arithmetic of floats. -/
structure Floats where
  add : Nat → Nat → Nat
  sub : Nat → Nat → Nat
  mul : Nat → Nat → Nat
  div : Nat → Nat → Nat
  rem : Nat → Nat → Nat
  pow : Nat → Nat → Nat
  neg : Nat → Nat
  eq : Nat → Nat → Bool
  lt : Nat → Nat → Bool
  gt : Nat → Nat → Bool
  le : Nat → Nat → Bool
  ge : Nat → Nat → Bool

/-- What operators give, by the type of their operands. -/
structure Arith where
  un : Oper → Ty → Val → Option Val
  bin : Oper → Ty → Val → Val → Option Val

/-- An integer of 64 bits. -/
def int64 (i : Int) : Option Val := if -(2 ^ 63 : Int) ≤ i ∧ i < 2 ^ 63 then some (.int i) else none

/-- The integer of 64 bits with these bits. -/
def wrap64 (i : Int) : Int := (i + 2 ^ 63) % 2 ^ 64 - 2 ^ 63

/-- Operators with one operand, as documented (docs/expressions.md). -/
def docUn (F : Floats) : Oper → Ty → Val → Option Val
  | .unaryNeg, .prim .int, .int a => int64 (-a)
  | .unaryNeg, .prim .float, .float a => some (.float (F.neg a))
  | .not, .prim .bool, .bool a => some (.bool !a)
  | _, _, _ => none

/-- `is`. -/
def docIs (F : Floats) : Ty → Val → Val → Option Bool
  | .prim .int, .int a, .int b => some (a = b)
  | .prim .float, .float a, .float b => some (F.eq a b)
  | .prim .bool, .bool a, .bool b => some (a = b)
  | .prim .rune, .rune a, .rune b => some (a = b)
  | .prim .str, .str a, .str b => some (a = b)
  | _, _, _ => none

/-- Operators with two operands, as documented (docs/expressions.md, docs/skull/codegen/llvm/expr.md).  Division rounds towards zero;
`>>` is a logical shift; `and` and `or` take both operands. -/
def docBin (F : Floats) : Oper → Ty → Val → Val → Option Val
  | .add, .prim .int, .int a, .int b => int64 (a + b)
  | .sub, .prim .int, .int a, .int b => int64 (a - b)
  | .mult, .prim .int, .int a, .int b => int64 (a * b)
  | .div, .prim .int, .int a, .int b => if b = 0 then none else int64 (a.tdiv b)
  | .mod, .prim .int, .int a, .int b => if b = 0 then none else int64 (a.tmod b)
  | .pow, .prim .int, .int a, .int b => if b < 0 then none else int64 (a ^ b.toNat)
  | .lshift, .prim .int, .int a, .int b => if 0 ≤ b ∧ b < 64 then some (.int (wrap64 (a * 2 ^ b.toNat))) else none
  | .rshift, .prim .int, .int a, .int b => if 0 ≤ b ∧ b < 64 then some (.int (wrap64 (a % 2 ^ 64 / 2 ^ b.toNat))) else none
  | .lessThan, .prim .int, .int a, .int b => some (.bool (a < b))
  | .gtrThan, .prim .int, .int a, .int b => some (.bool (b < a))
  | .lessThanEq, .prim .int, .int a, .int b => some (.bool (a ≤ b))
  | .gtrThanEq, .prim .int, .int a, .int b => some (.bool (b ≤ a))
  | .add, .prim .float, .float a, .float b => some (.float (F.add a b))
  | .sub, .prim .float, .float a, .float b => some (.float (F.sub a b))
  | .mult, .prim .float, .float a, .float b => some (.float (F.mul a b))
  | .div, .prim .float, .float a, .float b => some (.float (F.div a b))
  | .mod, .prim .float, .float a, .float b => some (.float (F.rem a b))
  | .pow, .prim .float, .float a, .float b => some (.float (F.pow a b))
  | .lessThan, .prim .float, .float a, .float b => some (.bool (F.lt a b))
  | .gtrThan, .prim .float, .float a, .float b => some (.bool (F.gt a b))
  | .lessThanEq, .prim .float, .float a, .float b => some (.bool (F.le a b))
  | .gtrThanEq, .prim .float, .float a, .float b => some (.bool (F.ge a b))
  | .and, .prim .bool, .bool a, .bool b => some (.bool (a && b))
  | .or, .prim .bool, .bool a, .bool b => some (.bool (a || b))
  | .xor, .prim .bool, .bool a, .bool b => some (.bool (a != b))
  | .is, ty, x, y => (docIs F ty x y).map .bool
  | .isnt, ty, x, y => (docIs F ty x y).map fun b => .bool !b
  | _, _, _, _ => none

/-- The documented arithmetic. -/
def docArith (F : Floats) : Arith := ⟨docUn F, docBin F⟩

/-- Operations for which the LLVM back end gives the documented value: divisions without remainder, remainders
with a quotient in range (of the least integer by -1 it is not), powers with a positive exponent, and negations of floats that are the same as subtracting from zero. -/
def safeUn (F : Floats) : Oper → Val → Bool
  | .unaryNeg, .float a => F.neg a == F.sub 0 a
  | _, _ => true

def safeBin : Oper → Val → Val → Bool
  | .div, .int a, .int b => a.tmod b == 0
  | .mod, .int a, .int b => (int64 (a.tdiv b)).isSome
  | .pow, .int _, .int b => 1 ≤ b && b < 2 ^ 63
  | _, _, _ => true

/-- The documented arithmetic, where it is safe. -/
def safeArith (F : Floats) : Arith where
  un o ty x := if safeUn F o x then docUn F o ty x else none
  bin o ty x y := if safeBin o x y then docBin F o ty x y else none

/-- Variables and their values. -/
abbrev Vars := Nat → Option Val

def Vars.set (L : Vars) (id : Nat) (v : Val) : Vars := fun i => if i = id then some v else L i

/-- The variables of `L'` that `L` has, too. -/
def Vars.only (L L' : Vars) : Vars := fun i => if (L i).isSome then L' i else none

/-- The variables outside functions, and the world. -/
structure SState (ω : Type) where
  vars : Vars
  world : ω

/-- What a program depends on. -/
structure RunCtx (ω : Type) where
  arith : Arith
  ext : List Char → List Val → ω → Option (Val × ω)
  syms : List Symbol
  prog : ATree

/-- The functions of a program: the symbol, its parameters, and the statements.  A block behind a function that is only declared is
not run. -/
def decls : ATree → List (Nat × List Nat × ATree)
  | .node (.func id ps) (.funcProto p) _ child next => (id, ps, child) :: ((if p.isExternal then [] else decls child) ++ decls next)
  | .node _ _ _ child next => decls child ++ decls next
  | _ => []

/-- How statements end, with the variables of the function. -/
inductive Out
  | normal (L : Vars)
  | broke (L : Vars)
  | continued (L : Vars)
  | returned (v : Option Val)

/-- At the end of a block. -/
def Out.close (L : Vars) : Out → Out
  | .normal L' => .normal (L.only L')
  | .broke L' => .broke (L.only L')
  | .continued L' => .continued (L.only L')
  | .returned v => .returned v

/-- The statements behind the `elif`s and the `else` of an `if`. -/
def afterChain : ATree → ATree
  | .node _ (.elifs _) _ _ next => afterChain next
  | .node _ .elses _ _ next => next
  | .node _ .comment _ _ next => afterChain next
  | t => t

/-- The parameters with the arguments. -/
def bindParams (ps : List Nat) (vs : List Val) : Vars := fun id => (ps.zip vs).lookup id

/-- What a call gives. -/
def Out.result (ty : Ty) : Out → Option Val
  | .normal _ | .returned none => if ty = .prim .void then some .unit else none
  | .returned (some v) => if ty = .prim .void then none else some v
  | _ => none

mutual
/-- The value of an expression. -/
def evalE {ω : Type} (c : RunCtx ω) : Nat → AExpr → Vars → SState ω → Option (Val × SState ω)
  | 0, _, _, _ => none
  | n + 1, e, L, S =>
    match e with
    | .ident _ id _ _ =>
      match L id with
      | some v => some (v, S)
      | none => match S.vars id with | some v => some (v, S) | none => none
    | .const _ v => some (.ofConst v, S)
    | .call _ args id _ =>
      match evalA c n args L S with
      | some (vs, S) => callF c n id vs S
      | none => none
    | .un o r _ _ =>
      match evalE c n r L S with
      | some (x, S) => match c.arith.un o r.type x with | some z => some (z, S) | none => none
      | none => none
    | .bin o l r _ _ =>
      match evalE c n l L S with
      | some (x, S) =>
        match evalE c n r L S with
        | some (y, S) => match c.arith.bin o r.type x y with | some z => some (z, S) | none => none
        | none => none
      | none => none
/-- The values of arguments. -/
def evalA {ω : Type} (c : RunCtx ω) : Nat → AArgs → Vars → SState ω → Option (List Val × SState ω)
  | 0, _, _, _ => none
  | n + 1, args, L, S =>
    match args with
    | .nil => some ([], S)
    | .unchecked _ => none
    | .cons _ e next =>
      match evalE c n e L S with
      | some (v, S) => match evalA c n next L S with | some (vs, S) => some (v :: vs, S) | none => none
      | none => none
/-- A call. -/
def callF {ω : Type} (c : RunCtx ω) : Nat → Nat → List Val → SState ω → Option (Val × SState ω)
  | 0, _, _, _ => none
  | n + 1, id, vs, S =>
    match (decls c.prog).find? (·.1 = id), c.syms[id]? with
    | some (_, ps, body), some ⟨_, linkage, _, _, .func f⟩ =>
      if ps.length = vs.length then
        if f.isExternal then
          match c.ext linkage vs S.world with
          | some (v, w) => some (v, ⟨S.vars, w⟩)
          | none => none
        else
          match execT c n false false body (bindParams ps vs) S with
          | some (o, S) => match o.result f.returnType with | some v => some (v, S) | none => none
          | none => none
      else none
    | _, _ => none
/-- Statements.  `top`: outside functions; `chain`: behind an `if` whose conditions so far were all false. -/
def execT {ω : Type} (c : RunCtx ω) : Nat → Bool → Bool → ATree → Vars → SState ω → Option (Out × SState ω)
  | 0, _, _, _, _, _ => none
  | n + 1, top, chain, t, L, S =>
    match t with
    | .nil => some (.normal L, S)
    | .unchecked _ => none
    | .node ann stmt _ child next =>
      match stmt, ann with
      | .comment, _ => execT c n top chain next L S
      | .noop, _ | .imports, _ | .funcProto _, _ => execT c n top false next L S
      | .varDef .., .none => execT c n top false next L S
      | .varDef .., .varDef id e =>
        match evalE c n e L S with
        | some (v, S) =>
          if top then execT c n top false next L { S with vars := S.vars.set id v }
          else execT c n top false next (L.set id v) S
        | none => none
      | .varAssign _, .varAssign id e =>
        match evalE c n e L S with
        | some (v, S) =>
          if (L id).isSome then execT c n top false next (L.set id v) S
          else if (S.vars id).isSome then execT c n top false next L { S with vars := S.vars.set id v }
          else none
        | none => none
      | .expr _, .expr (.call t args id ty) =>
        match child with
        | .nil =>
          match evalE c n (.call t args id ty) L S with
          | some (_, S) => execT c n top false next L S
          | none => none
        | _ => none
      | .ret _, .none => some (.returned none, S)
      | .ret _, .expr e => match evalE c n e L S with | some (v, S) => some (.returned (some v), S) | none => none
      | .breaks, _ => some (.broke L, S)
      | .continues, _ => some (.continued L, S)
      | .ifs _, .expr e =>
        match evalE c n e L S with
        | some (.bool true, S) => andThen c n top child (afterChain next) L S
        | some (.bool false, S) => execT c n top true next L S
        | _ => none
      | .elifs _, .expr e =>
        if chain then
          match evalE c n e L S with
          | some (.bool true, S) => andThen c n top child (afterChain next) L S
          | some (.bool false, S) => execT c n top true next L S
          | _ => none
        else none
      | .elses, _ => if chain then andThen c n top child next L S else none
      | .whiles _, .expr e =>
        match loopW c n top e child L S with
        | some (.normal L, S) => execT c n top false next L S
        | r => r
      | .namespaces, _ =>
        match execT c n top false child L S with
        | some (.normal L, S) => execT c n top false next L S
        | r => r
      | _, _ => none
/-- A block, then other statements. -/
def andThen {ω : Type} (c : RunCtx ω) : Nat → Bool → ATree → ATree → Vars → SState ω → Option (Out × SState ω)
  | 0, _, _, _, _, _ => none
  | n + 1, top, child, next, L, S =>
    match execT c n top false child L S with
    | some (o, S) =>
      match o.close L with
      | .normal L => execT c n top false next L S
      | o => some (o, S)
    | none => none
/-- A loop. -/
def loopW {ω : Type} (c : RunCtx ω) : Nat → Bool → AExpr → ATree → Vars → SState ω → Option (Out × SState ω)
  | 0, _, _, _, _, _ => none
  | n + 1, top, e, child, L, S =>
    match evalE c n e L S with
    | some (.bool false, S) => some (.normal L, S)
    | some (.bool true, S) =>
      match execT c n top false child L S with
      | some (o, S) =>
        match o.close L with
        | .normal L | .continued L => loopW c n top e child L S
        | .broke L => some (.normal L, S)
        | .returned v => some (.returned v, S)
      | none => none
    | _ => none
end

/-- Made of literals and operators. -/
def literalOnly : AExpr → Bool
  | .const .. => true
  | .un _ r _ _ => literalOnly r
  | .bin _ l r _ _ => literalOnly l && literalOnly r
  | _ => false

/-- No variable that can be changed is declared outside functions in a loop, with an initial value made of literals and operators. -/
def NoLoopInit (syms : List Symbol) : Bool → ATree → Prop
  | loop, .node ann stmt _ child next =>
    (∀ id e sym v, ann = .varDef id e → syms[id]? = some sym → sym.kind = .var v → loop = true → literalOnly e = true → v.isConst = true) ∧
    (match stmt with
      | .funcProto _ => True
      | .whiles _ => NoLoopInit syms true child
      | _ => NoLoopInit syms loop child) ∧ NoLoopInit syms loop next
  | _, _ => True

/-- Running a program: what it returns, and the world afterwards. -/
def runProgram {ω : Type} (c : RunCtx ω) (n : Nat) (w : ω) : Option (Int × ω) :=
  match execT c n true false c.prog (fun _ => none) ⟨fun _ => none, w⟩ with
  | some (.normal _, S) => some (0, S.world)
  | some (.returned (some (.int i)), S) => some (i, S.world)
  | _ => none

end Skull.Spec
