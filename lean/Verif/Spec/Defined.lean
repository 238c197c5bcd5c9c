import Verif.Spec.Program
import Verif.Spec.PathSpec
/-
Which names a program uses as variables.
-/
namespace Skull.Spec

/-- A name may stand for a variable: it denotes no function and no namespace. -/
def VarFits (E : Env) (u : Token) : Prop :=
  ∀ x, Text u x → (∀ ps τ, E.decl x ≠ some (.func ps τ)) ∧ ∀ members, E.decl x ≠ some (.ns members)

/-- A statement uses a name as a variable: as an operand, or as the target of an assignment. -/
inductive UsesVar (E : Env) : Stmt → List Token → List Token → Token → Prop
  | operand {stmt tok tokEnd e u} : stmtExpr stmt = some e → ¬ IsAlias E stmt tokEnd → SubExpr (.ident u) e →
      UsesVar E stmt tok tokEnd u
  | target {e t ts tokEnd} : UsesVar E (.varAssign e) (t :: ts) tokEnd t

/-- Nowhere in a program is a function or a namespace used as a variable. -/
def VarsOnly (W : World) (program : Tree) : Prop :=
  ∀ c E before stmt tok tokEnd child next u, At W program c E before (.node stmt tok tokEnd child next) →
    UsesVar E stmt tok tokEnd u → VarFits E u

mutual
/-- No operand of an operator is missing. -/
def whole : Expr → Bool
  | .missing => false
  | .ident _ | .const _ => true
  | .call _ args _ => wholeArgs args
  | .un _ e => whole e
  | .bin _ l r => whole l && whole r
def wholeArgs : Args → Bool
  | .nil => true
  | .cons _ e next => whole e && wholeArgs next
end

/-- No operand of an operator is missing, anywhere in the statements. -/
def noneMissing : Tree → Bool
  | .nil => true
  | .node stmt _ _ child next =>
    (match stmt with
      | .ret .missing => true
      | _ => (stmtExpr stmt).all whole) && noneMissing child && noneMissing next

/-- What the compiler can evaluate (see C15): with an integer that has a base prefix, the second character behind it is no underscore;
the first character of a rune is at most U+00FF. -/
def litFits (t : Token) : Bool :=
  match t.ty, t.begin with
  | .intConst, some b =>
    match b.take t.len with
    | '0' :: x :: _ => !(x == 'x' || x == 'b' || x == 'o') || (b.drop t.len)[1]? != some '_'
    | _ => true
  | .runeConst, some (_ :: c :: _) => c.toNat ≤ 255
  | _, _ => true

/-- The path of a source file: a directory, the name of a module and `.sk`; together with the longest name in the file, the name of the
module fits into the address space. -/
def FileFits (path : List Char) (longest : Nat) : Prop :=
  ∃ dir m, path = dir ++ (m ++ ".sk".toList) ∧ IsDir dir ∧ IsBase m ∧ NulFree m ∧ m.length + longest + 3 < 2 ^ 64

/-- No function is declared. -/
def noFuncs : Tree → Bool
  | .nil => true
  | .node (.funcProto _) _ _ _ _ => false
  | .node _ _ _ child next => noFuncs child && noFuncs next

/-- No function is declared in a block behind a call. -/
def callsNoFuncs : Tree → Bool
  | .nil => true
  | .node (.expr (.call ..)) _ _ child next => noFuncs child && callsNoFuncs next
  | .node _ _ _ child next => callsNoFuncs child && callsNoFuncs next

/- ### A condition on the names alone -/

mutual
/-- The operands that are names. -/
def usedNames : Expr → List Token
  | .missing | .const _ => []
  | .ident t => [t]
  | .call _ args _ => usedArgs args
  | .un _ e => usedNames e
  | .bin _ l r => usedNames l ++ usedNames r
def usedArgs : Args → List Token
  | .nil => []
  | .cons _ e next => usedNames e ++ usedArgs next
end

/-- The names used as variables, anywhere in the statements. -/
def varUses : Tree → List Token
  | .nil => []
  | .node stmt tok _ child next =>
    (match stmt with | .varAssign _ => tok.take 1 | _ => []) ++ ((stmtExpr stmt).map usedNames).getD [] ++ varUses child ++ varUses next

/-- The names of all functions and namespaces. -/
def calledNames : Tree → List (Option (List Char))
  | .nil => []
  | .node stmt tok _ child next =>
    (match stmt with
      | .funcProto p => [tokenToString p.name]
      | .namespaces => (tok.tail.take 1).map tokenToString
      | _ => []) ++ calledNames child ++ calledNames next

/-- No name that is used as a variable ends in the name of a function or namespace. -/
def namesApart (t : Tree) : Bool :=
  (varUses t).all fun u => (tokenToString u).all fun x => (path x).getLast?.all fun y => !(calledNames t).contains (some y)

end Skull.Spec
