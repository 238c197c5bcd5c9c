import Verif.Model.ContHeap
import Verif.Model.Semantic
/-
The values of string literals: skull/semantic/expr.c and types.c, which make them, and parse/ast_node.c, which frees them.  What is decided
is that of `Model/Semantic`.

Left out: the memory of the expressions themselves (see `Model/ParseHeap`), and of messages (`Model/MsgHeap`).
-/
namespace Skull.StrHeap
open Skull
open Skull.ContHeap (M alloc use free)

mutual
/-- An expression, with the field `value.str` of literals (ast_node.h:176-182): null, or a block. -/
inductive VE
  | other
  | lit (tok : Token) (str : Option Nat)
  | call (params : VA)
  | un (rhs : VE)
  | bin (lhs rhs : VE)
inductive VA
  | nil
  | cons (expr : VE) (next : VA)
end

mutual
/-- As the parser leaves it: zeroed (ast_node.c uses Calloc). -/
def blank : Expr → VE
  | .missing | .ident _ => .other
  | .const t => .lit t none
  | .call _ ps _ => .call (blankA ps)
  | .un _ r => .un (blank r)
  | .bin _ l r => .bin (blank l) (blank r)
def blankA : Args → VA
  | .nil => .nil
  | .cons _ e n => .cons (blank e) (blankA n)
end

/-- What a step of the check gives: a result, or nothing if it failed, and the state. -/
abbrev Out (α : Type) : Type := Option α × SS

def outc : SRes α → Option (Out α)
  | .ok a s => some (some a, s)
  | .fail s => some (none, s)
  | .ub => none

/-- The last step, which makes no memory. -/
def endH (c : Chk β) (s : SS) (t : τ) : M (Out β × τ) :=
  match c s with
  | .ub => fun _ => none
  | .fail s => pure ((none, s), t)
  | .ok b s => pure ((some b, s), t)

/-- A step that makes no memory, and what follows if it succeeds. -/
def andThen (c : Chk α) (s : SS) (stop : τ) (k : α → SS → M (Out β × τ)) : M (Out β × τ) :=
  match c s with
  | .ub => fun _ => none
  | .fail s => pure ((none, s), stop)
  | .ok a s => k a s

/-- What follows a step, if it succeeded. -/
def goOn (stop : σ → τ) (k : α → SS → σ → M (Out β × τ)) : Out α × σ → M (Out β × τ)
  | ((none, s), v) => pure ((none, s), stop v)
  | ((some a, s), v) => k a s v

def afterH (f : M (Out α × σ)) (stop : σ → τ) (k : α → SS → σ → M (Out β × τ)) : M (Out β × τ) := do
  let r ← f
  goOn stop k r

def toConst (t : Token) (str : List Nat) : Chk AExpr := do
  let v ← toBytes t (str.takeWhile (· ≠ 0))
  pure (.const t v)

/-- expr.c:183-189, with str.c:55-84 `c32stombs`; `copy` is the text from `eval_str`. -/
def bytesH (t : Token) (str : List Nat) (copy : Nat) (s : SS) : M (Out AExpr × VE) := do
  let ret ← alloc
  use ret
  use copy
  if (str.takeWhile (· ≠ 0)).all isScalar then do
    free ret
    let ret ← alloc
    use ret
    free copy
    endH (toConst t str) s (.lit t (some ret))
  else do
    free ret
    free copy
    endH (toConst t str) s (.lit t none)

/-- types.c:146-171 `eval_str`, and what follows. -/
def strH (t : Token) (s : SS) : M (Out AExpr × VE) := do
  let copy ← alloc
  use copy
  match (evalStr t).getD .ub with
  | .ub => fun _ => none
  | .ok str => do
    free copy
    let copy ← alloc
    bytesH t str copy s
  | e => do
    free copy
    endH (do toConst t (← evalLit t e)) s (.lit t none)

/-- expr.c:154-197 `validate_const_expr`. -/
def constH (cfg : Cfg) (t : Token) (s : SS) : M (Out AExpr × VE) :=
  if t.ty = .strConst then strH t s else endH (do pure (.const t (← validateConst cfg t))) s (.lit t none)

mutual
/-- expr.c:36-54 `validate_expr`. -/
def exprH (cfg : Cfg) : Expr → SS → M (Out AExpr × VE)
  | .missing, _ => fun _ => none
  | .ident t, s => endH (validateExpr cfg (.ident t)) s .other
  | .const t, s => constH cfg t s
  | .call name ps num, s =>
    andThen (findFuncByToken name) s (.call (blankA ps)) fun id s =>
    andThen (funcAt id) s (.call (blankA ps)) fun f s =>
    andThen (updFunc id fun f => { f with wasCalled := true }) s (.call (blankA ps)) fun _ s =>
    andThen (checkCount f name ps num) s (.call (blankA ps)) fun _ s =>
    afterH (argsH cfg f.paramTypes ps s) .call fun args s v => endH (pure (.call name args id f.returnType)) s (.call v)
  | .un o rhs, s =>
    andThen (operFits (isPrefixOper o)) s (.un (blank rhs)) fun _ s =>
    afterH (exprH cfg rhs s) .un fun r s v =>
    endH (do
      validateRestrictions o r r.token
      let ty ← exprType o r.type
      pure (.un o r ty r.isConstExpr)) s (.un v)
  | .bin o lhs rhs, s =>
    andThen (operFits (isInfixOper o)) s (.bin (blank lhs) (blank rhs)) fun _ s =>
    afterH (exprH cfg rhs s) (.bin (blank lhs)) fun r s vr =>
    afterH (exprH cfg lhs s) (fun vl => .bin vl vr) fun l s vl =>
    endH (do
      sameTypes l r
      validateRestrictions o r l.token
      let ty ← exprType o r.type
      pure (.bin o l r ty (l.isConstExpr && r.isConstExpr))) s (.bin vl vr)

/-- expr.c:346-372 `validate_func_call_params`. -/
def argsH (cfg : Cfg) : List Ty → Args → SS → M (Out AArgs × VA)
  | [], .nil, s => endH (pure .nil) s .nil
  | [], .cons first e next, s => endH (pure (.unchecked (.cons first e next))) s (.cons (blank e) (blankA next))
  | _ :: _, .nil, _ => fun _ => none
  | ty :: tys, .cons first e next, s =>
    afterH (exprH cfg e s) (fun v => .cons v (blankA next)) fun a s v =>
    if a.type ≠ ty then endH (Chk.error .errFuncTypeMismatch first) s (.cons v (blankA next))
    else
      afterH (argsH cfg tys next s) (.cons v) fun rest s vs => endH (pure (.cons first a rest)) s (.cons v vs)
end

mutual
/-- The back ends read the texts of literals (codegen/c/expr.c:83, codegen/llvm/expr.c:156); a text that is not there is a null pointer. -/
def readE : AExpr → VE → M Unit
  | .ident .., .other => pure ()
  | .const _ (.str _), .lit _ (some b) => use b
  | .const _ (.str _), _ => fun _ => none
  | .const .., .lit .. => pure ()
  | .call _ args _ _, .call v => readA args v
  | .un _ r _ _, .un v => readE r v
  | .bin _ l r _ _, .bin vl vr => do
    readE l vl
    readE r vr
  | _, _ => fun _ => none
/-- Arguments that were not checked are not read here. -/
def readA : AArgs → VA → M Unit
  | .nil, .nil => pure ()
  | .cons _ e n, .cons v vs => do
    readE e v
    readA n vs
  | .unchecked _, _ => pure ()
  | _, _ => fun _ => none
end

def freeOpt : Option Nat → M Unit
  | none => pure ()
  | some b => free b

mutual
/-- ast_node.c:992-1016 `free_expr_node`: a value is freed if the token is a string literal. -/
def freeVE : VE → M Unit
  | .other => pure ()
  | .lit t o => if t.ty = .strConst then freeOpt o else pure ()
  | .call ps => freeVA ps
  | .un r => freeVE r
  | .bin l r => do
    freeVE l
    freeVE r
def freeVA : VA → M Unit
  | .nil => pure ()
  | .cons e n => do
    freeVE e
    freeVA n
end

end Skull.StrHeap
