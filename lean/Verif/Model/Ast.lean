import Verif.Model.Token
/-
skull/parse/ast_node.h: the syntax tree.
-/
namespace Skull

/-- ast_node.h:136-162 `ExprType`. -/
inductive Oper
  | unknown
  | add | sub | unaryNeg | mult | div | mod | lshift | rshift | pow | not
  | is | isnt | lessThan | gtrThan | lessThanEq | gtrThanEq | and | or | xor
  | identifier | const | func | ref | deref
  deriving DecidableEq, Repr

mutual
/-- ast_node.h:163-188 `AstNodeExpr`, as the parser leaves it (`symbol`, `value`, `type` and `is_const_expr` are
set by the semantic check).  `missing` is the null pointer, which the parser leaves where the operand of a
unary operator is not there. -/
inductive Expr
  | missing
  | ident (tok : Token)
  | const (tok : Token)
  | call (name : Token) (params : Args) (numValues : Nat)
  | un (oper : Oper) (rhs : Expr)
  | bin (oper : Oper) (lhs rhs : Expr)
/-- The list of nodes behind `AstNodeFunctionCall.params`: the first token (`node->token`) and the expression
of every argument.  (The C list has one more empty node at its end.) -/
inductive Args
  | nil
  | cons (first : Token) (expr : Expr) (next : Args)
end

/-- ast_node.h:99-104 `AstNodeFunctionParam`.  `name` is the token behind `param_name` and `location`; `type` is the pointer
`type_name`: the list of tokens from there on. -/
structure Param where
  name : Token
  type : List Token
  deriving DecidableEq, Repr

/-- ast_node.h:109-122 `AstNodeFunctionProto`. -/
structure FuncProto where
  name : Token
  returnType : Option (List Token)
  isExternal : Bool
  isExport : Bool
  params : List Param
  numParams : Nat
  deriving DecidableEq, Repr

/-- `NodeType` (ast_node.h:8-33) with the data of the union in `AstNode` (ast_node.h:67-74). -/
inductive Stmt
  | unknown
  | varDef (name : List Token) (isConst isImplicit isExported : Bool) (expr : Expr)
  | varAssign (expr : Expr)
  | funcProto (proto : FuncProto)
  | expr (expr : Expr)
  | ret (expr : Expr)
  | unreachable
  | ifs (cond : Expr)
  | elifs (cond : Expr)
  | elses
  | whiles (cond : Expr)
  | imports
  | namespaces
  | comment
  | noop
  | breaks
  | continues

/-- ast_node.h:57-76 `AstNode` with its `child` and `next` pointers; `nil` is the null pointer.  `tok` and `tokEnd` are the
pointers `token` and `token_end`: lists of the tokens from there on, `[]` for null. -/
inductive Tree
  | nil
  | node (stmt : Stmt) (tok tokEnd : List Token) (child next : Tree)

end Skull
