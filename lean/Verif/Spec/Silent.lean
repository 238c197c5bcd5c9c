import Verif.Spec.Program
/-
Declarations that can be refused without a diagnostic.
-/
namespace Skull.Spec

/-- The statements of a program with their first tokens, in the order in which they are written. -/
def statements : Tree → List (Stmt × List Token)
  | .nil => []
  | .node stmt tok _ child next => (stmt, tok) :: (statements child ++ statements next)

/-- The statement gives this name to something. -/
def Declares (x : List Char) : Stmt × List Token → Prop
  | (.varDef name .., tok) => ∃ u, (name.head? = some u ∨ tok.head? = some u) ∧ Text u x
  | (.funcProto p, _) => Text p.name x ∨ ∃ q ∈ p.params, Text q.name x
  | (.namespaces, tok) => ∃ u, tok.tail.head? = some u ∧ Text u x
  | _ => False

/-- The statement is written as `x: T = e` or `export x := e`, where `e` is a name or something after an ampersand. -/
def Odd : Stmt × List Token → Prop
  | (.varDef _ isConst isImplicit isExported e, _) =>
    isConst = true ∧ (isImplicit = false ∨ isExported = true) ∧ IsTypeExpr e
  | _ => False

/-- A name with a dot is declared, or two statements declare the same name and both are namespaces or the first is a definition of
something that could be a type, with a type or exported. -/
def Redeclares (l : List (Stmt × List Token)) : Prop :=
  (∃ e x, e ∈ l ∧ Declares x e ∧ '.' ∈ x) ∨
    ∃ a b x, [a, b].Sublist l ∧ Declares x a ∧ Declares x b ∧ ((a.1 = .namespaces ∧ b.1 = .namespaces) ∨ Odd a)

end Skull.Spec
