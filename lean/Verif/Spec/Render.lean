import Verif.Model.Classify
import Verif.Model.Ast
/-
Texts of trees, to write down concrete cases.
-/
namespace Skull.Spec

/-- The text of a token. -/
def tokText (t : Token) : String := match t.begin with | none => "" | some s => String.ofList (s.take t.len)

/-- The sign of an operator. -/
def operText : Oper → String
  | .add => "+" | .sub => "-" | .unaryNeg => "-" | .mult => "*" | .div => "/" | .mod => "mod" | .lshift => "<<" | .rshift => ">>"
  | .pow => "^" | .not => "not " | .is => "is" | .isnt => "isnt" | .lessThan => "<" | .gtrThan => ">" | .lessThanEq => "<="
  | .gtrThanEq => ">=" | .and => "and" | .or => "or" | .xor => "xor" | .ref => "&" | .deref => "*" | _ => "?"

mutual
/-- A tree with all its parentheses. -/
def exprText : Expr → String
  | .missing => "?"
  | .ident t => tokText t
  | .const t => tokText t
  | .call n as _ => tokText n ++ "(" ++ argsText as ++ ")"
  | .un o e => "(" ++ operText o ++ exprText e ++ ")"
  | .bin o l r => "(" ++ exprText l ++ " " ++ operText o ++ " " ++ exprText r ++ ")"
def argsText : Args → String
  | .nil => ""
  | .cons _ e r => exprText e ++ "," ++ argsText r
end

/-- The kind of a statement and its expression. -/
def stmtText : Stmt → String
  | .unknown => "unknown"
  | .varDef n _ _ _ e => "def " ++ (match n with | [] => "" | t :: _ => tokText t) ++ " " ++ exprText e
  | .varAssign e => "assign " ++ exprText e
  | .funcProto p => "func " ++ tokText p.name
  | .expr e => "expr " ++ exprText e
  | .ret e => "return " ++ exprText e
  | .unreachable => "unreachable"
  | .ifs e => "if " ++ exprText e
  | .elifs e => "elif " ++ exprText e
  | .elses => "else"
  | .whiles e => "while " ++ exprText e
  | .imports => "import"
  | .namespaces => "namespace"
  | .comment => "comment"
  | .noop => "noop"
  | .breaks => "break"
  | .continues => "continue"

/-- The statements of a tree with their blocks. -/
def treeText : Tree → String
  | .nil => ""
  | .node st _ _ ch nx => "[" ++ stmtText st ++ treeText ch ++ "]" ++ treeText nx

/-- The classified tokens of a source text; none when it has no tokens or is refused. -/
def lexed (src : String) : List Token :=
  match tokenize false src.toList with
  | some (.ok ts) => (classifyTokens ts).getD []
  | _ => []

end Skull.Spec
