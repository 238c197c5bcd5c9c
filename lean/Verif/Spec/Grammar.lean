import Verif.Model.Ast
/-
Expressions as they are written, independently of the parser: their tokens, and the tree they ought to have.
-/
namespace Skull.Spec

/-- The level of a binary operator: a smaller level binds more tightly. -/
def binLevel : TokType → Option Nat
  | .operPow => some 2
  | .operStar | .operDiv | .operMod => some 4
  | .operPlus | .operDash => some 5
  | .operAnd | .operOr | .operXor | .operLshift | .operRshift => some 6
  | .operIs | .operIsnt | .operLessThan | .operGtrThan | .operLessThanEq | .operGtrThanEq => some 7
  | _ => none

/-- The level of a prefix operator. -/
def unLevel : TokType → Option Nat
  | .operDash | .operStar | .operNot => some 3
  | .operRef => some 0
  | _ => none

/-- What the operator tokens mean between two operands. -/
def binOf : TokType → Oper
  | .operPlus => .add
  | .operDash => .sub
  | .operStar => .mult
  | .operDiv => .div
  | .operMod => .mod
  | .operPow => .pow
  | .operLshift => .lshift
  | .operRshift => .rshift
  | .operIs => .is
  | .operIsnt => .isnt
  | .operLessThan => .lessThan
  | .operGtrThan => .gtrThan
  | .operLessThanEq => .lessThanEq
  | .operGtrThanEq => .gtrThanEq
  | .operAnd => .and
  | .operOr => .or
  | .operXor => .xor
  | _ => .unknown

/-- What the operator tokens mean before an operand. -/
def unOf : TokType → Oper
  | .operDash => .unaryNeg
  | .operStar => .deref
  | .operNot => .not
  | .operRef => .ref
  | _ => .unknown

/-- Names. -/
def isName (t : Token) : Bool := t.ty = .identifier || t.ty = .dotIdentifier

/-- Literals. -/
def isLiteral (t : Token) : Bool :=
  t.ty = .intConst || t.ty = .floatConst || t.ty = .boolConst || t.ty = .runeConst || t.ty = .strConst

/- ### The grammar: chains of operands and operators -/

mutual
/-- A name or literal, a call, or an expression in parentheses. -/
inductive Atom
  | leaf (t : Token)
  | call (name opn : Token) (args : Seq) (close : Token)
  | group (opn : Token) (c : Chain) (close : Token)
/-- An atom, possibly after one prefix operator.  `bare` is a prefix operator whose operand is not there. -/
inductive Operand
  | plain (a : Atom)
  | pre (t : Token) (a : Atom)
  | bare (t : Token)
/-- Operands with binary operators between them. -/
inductive Chain
  | one (o : Operand)
  | more (c : Chain) (op : Token) (o : Operand)
/-- The arguments of a call; a comma may follow the last one. -/
inductive Seq
  | nil
  | last (c : Chain)
  | cons (c : Chain) (comma : Token) (rest : Seq)
end

mutual
/-- The tokens of an atom, in order. -/
def Atom.tokens : Atom → List Token
  | .leaf t => [t]
  | .call n o as c => n :: o :: (as.tokens ++ [c])
  | .group o c cl => o :: (c.tokens ++ [cl])
def Operand.tokens : Operand → List Token
  | .plain a => a.tokens
  | .pre t a => t :: a.tokens
  | .bare t => [t]
def Chain.tokens : Chain → List Token
  | .one o => o.tokens
  | .more c t o => c.tokens ++ t :: o.tokens
def Seq.tokens : Seq → List Token
  | .nil => []
  | .last c => c.tokens
  | .cons c t r => c.tokens ++ t :: r.tokens
end

mutual
/-- The tokens stand where tokens of their type may stand. -/
def Atom.WF : Atom → Prop
  | .leaf t => isName t = true ∨ isLiteral t = true
  | .call n o as c => isName n = true ∧ o.ty = .parenOpen ∧ as.WF ∧ c.ty = .parenClose
  | .group o c cl => o.ty = .parenOpen ∧ c.WF ∧ cl.ty = .parenClose
def Operand.WF : Operand → Prop
  | .plain a => a.WF
  | .pre t a => (unLevel t.ty).isSome = true ∧ a.WF
  | .bare t => (unLevel t.ty).isSome = true
def Chain.WF : Chain → Prop
  | .one o => o.WF
  | .more c t o => c.WF ∧ (binLevel t.ty).isSome = true ∧ o.WF
def Seq.WF : Seq → Prop
  | .nil => True
  | .last c => c.WF
  | .cons c t r => c.WF ∧ t.ty = .comma ∧ r.WF
end

mutual
/-- Every prefix operator has its operand. -/
def Atom.Full : Atom → Prop
  | .leaf _ => True
  | .call _ _ as _ => as.Full
  | .group _ c _ => c.Full
def Operand.Full : Operand → Prop
  | .plain a => a.Full
  | .pre _ a => a.Full
  | .bare _ => False
def Chain.Full : Chain → Prop
  | .one o => o.Full
  | .more c _ o => c.Full ∧ o.Full
def Seq.Full : Seq → Prop
  | .nil => True
  | .last c => c.Full
  | .cons c _ r => c.Full ∧ r.Full
end

/- ### Trees over the written tokens -/

mutual
/-- A tree over written tokens that keeps its parentheses. -/
inductive G
  | leaf (t : Token)
  | call (name opn : Token) (args : GSeq) (close : Token)
  | group (opn : Token) (g : G) (close : Token)
  | bare (t : Token)
  | un (t : Token) (g : G)
  | bin (t : Token) (l r : G)
inductive GSeq
  | nil
  | last (g : G)
  | cons (g : G) (comma : Token) (rest : GSeq)
end

mutual
/-- The tokens of a tree, from left to right. -/
def G.tokens : G → List Token
  | .leaf t => [t]
  | .call n o as c => n :: o :: (as.tokens ++ [c])
  | .group o g c => o :: (g.tokens ++ [c])
  | .bare t => [t]
  | .un t g => t :: g.tokens
  | .bin t l r => l.tokens ++ t :: r.tokens
def GSeq.tokens : GSeq → List Token
  | .nil => []
  | .last g => g.tokens
  | .cons g t r => g.tokens ++ t :: r.tokens
end

mutual
/-- The tokens of a tree stand where tokens of their type may stand. -/
def G.WF : G → Prop
  | .leaf t => isName t = true ∨ isLiteral t = true
  | .call n o as c => isName n = true ∧ o.ty = .parenOpen ∧ as.WF ∧ c.ty = .parenClose
  | .group o g c => o.ty = .parenOpen ∧ g.WF ∧ c.ty = .parenClose
  | .bare t => (unLevel t.ty).isSome = true
  | .un t g => (unLevel t.ty).isSome = true ∧ g.WF
  | .bin t l r => (binLevel t.ty).isSome = true ∧ l.WF ∧ r.WF
def GSeq.WF : GSeq → Prop
  | .nil => True
  | .last g => g.WF
  | .cons g t r => g.WF ∧ t.ty = .comma ∧ r.WF
end

/-- The first token of a tree. -/
def G.first : G → Token
  | .leaf t => t
  | .call n _ _ _ => n
  | .group o _ _ => o
  | .bare t => t
  | .un t _ => t
  | .bin _ l _ => l.first

mutual
/-- Identifiers and functions are names, constants are literals. -/
def LeavesOf : Expr → Prop
  | .missing => True
  | .ident t => isName t = true
  | .const t => isLiteral t = true
  | .call n as _ => isName n = true ∧ LeavesOfArgs as
  | .un _ e => LeavesOf e
  | .bin _ l r => LeavesOf l ∧ LeavesOf r
def LeavesOfArgs : Args → Prop
  | .nil => True
  | .cons _ e r => LeavesOf e ∧ LeavesOfArgs r
end

mutual
/-- Operators with one operand are those that are written before it, operators with two operands those written between them. -/
def OpersOf : Expr → Prop
  | .missing | .ident _ | .const _ => True
  | .call _ as _ => OpersOfArgs as
  | .un o e => (∃ ty, (unLevel ty).isSome = true ∧ o = unOf ty) ∧ OpersOf e
  | .bin o l r => (∃ ty, (binLevel ty).isSome = true ∧ o = binOf ty) ∧ OpersOf l ∧ OpersOf r
def OpersOfArgs : Args → Prop
  | .nil => True
  | .cons _ e r => OpersOf e ∧ OpersOfArgs r
end

/-- How many arguments there are. -/
def GSeq.count : GSeq → Nat
  | .nil => 0
  | .last _ => 1
  | .cons _ _ r => r.count + 1

mutual
/-- The syntax tree without the parentheses.  The number of arguments is kept in 16 bits. -/
def G.erase : G → Expr
  | .leaf t => if isName t then .ident t else .const t
  | .call n _ as _ => .call n as.erase (as.count % 65536)
  | .group _ g _ => g.erase
  | .bare t => .un (unOf t.ty) .missing
  | .un t g => .un (unOf t.ty) g.erase
  | .bin t l r => .bin (binOf t.ty) l.erase r.erase
def GSeq.erase : GSeq → Args
  | .nil => .nil
  | .last g => .cons g.first g.erase .nil
  | .cons g _ r => .cons g.first g.erase r.erase
end

/-- The levels of the operators that are open at the right end of a tree: an operator after it could take their right operand. -/
def G.rightLevels : G → List Nat
  | .un t g => (unLevel t.ty).getD 0 :: g.rightLevels
  | .bare t => [(unLevel t.ty).getD 0]
  | .bin t _ r => (binLevel t.ty).getD 0 :: r.rightLevels
  | _ => []

/-- The levels of the operators that are open at the left end of a tree. -/
def G.leftLevels : G → List Nat
  | .bin t l _ => (binLevel t.ty).getD 0 :: l.leftLevels
  | _ => []

mutual
/-- Precedence and associativity are honoured: no operator has a looser operator open at the end of an operand where it could
have taken it, and operators of one level group to the left. -/
def G.WellPrec : G → Prop
  | .leaf _ => True
  | .call _ _ as _ => as.WellPrec
  | .group _ g _ => g.WellPrec
  | .bare _ => True
  | .un t g => g.WellPrec ∧ ∀ p ∈ g.leftLevels, p < (unLevel t.ty).getD 0
  | .bin t l r => l.WellPrec ∧ r.WellPrec ∧ (∀ p ∈ l.rightLevels, p ≤ (binLevel t.ty).getD 0) ∧
      ∀ p ∈ r.leftLevels, p < (binLevel t.ty).getD 0
def GSeq.WellPrec : GSeq → Prop
  | .nil => True
  | .last g => g.WellPrec
  | .cons g _ r => g.WellPrec ∧ r.WellPrec
end

/- ### Conditions on chains -/

/-- The levels of the binary operators of a chain, outside parentheses. -/
def Chain.levels : Chain → List Nat
  | .one _ => []
  | .more c t _ => (binLevel t.ty).getD 0 :: c.levels

/-- The loosest operator of a chain, counting a prefix operator of the first operand and what a first operand in parentheses
contains. -/
def Chain.loosest : Chain → Nat
  | .one (.plain (.group _ c _)) => c.loosest
  | .one (.plain _) => 1
  | .one (.pre t _) => (unLevel t.ty).getD 0
  | .one (.bare t) => (unLevel t.ty).getD 0
  | .more c t _ => max c.loosest ((binLevel t.ty).getD 0)

/-- The level of the prefix operator of the last operand, when that is not the first one. -/
def Chain.lastPrefix : Chain → Option Nat
  | .more _ _ (.pre t _) => unLevel t.ty
  | .more _ _ (.bare t) => unLevel t.ty
  | _ => none

/-- The chain is one operand in parentheses: the loosest operator inside. -/
def Chain.groupLevel : Chain → Option Nat
  | .one (.plain (.group _ c _)) => some c.loosest
  | _ => none

mutual
/-- No chain begins with an operand in parentheses that contains a looser operator than the one after it. -/
def Atom.SafeGroups : Atom → Prop
  | .leaf _ => True
  | .call _ _ as _ => as.SafeGroups
  | .group _ c _ => c.SafeGroups
def Operand.SafeGroups : Operand → Prop
  | .plain a => a.SafeGroups
  | .pre _ a => a.SafeGroups
  | .bare _ => True
def Chain.SafeGroups : Chain → Prop
  | .one o => o.SafeGroups
  | .more c t o => c.SafeGroups ∧ o.SafeGroups ∧ ∀ p, c.groupLevel = some p → p ≤ (binLevel t.ty).getD 0
def Seq.SafeGroups : Seq → Prop
  | .nil => True
  | .last c => c.SafeGroups
  | .cons c _ r => c.SafeGroups ∧ r.SafeGroups
end

mutual
/-- Wherever an operator is followed by a tighter one, no operator before it was looser; and a prefix operator is followed by a
tighter operator only in the first operand of a chain. -/
def Atom.SafePrec : Atom → Prop
  | .leaf _ => True
  | .call _ _ as _ => as.SafePrec
  | .group _ c _ => c.SafePrec
def Operand.SafePrec : Operand → Prop
  | .plain a => a.SafePrec
  | .pre _ a => a.SafePrec
  | .bare _ => True
def Chain.SafePrec : Chain → Prop
  | .one o => o.SafePrec
  | .more c t o => c.SafePrec ∧ o.SafePrec ∧
      (∀ q, c.levels.head? = some q → (binLevel t.ty).getD 0 < q → ∀ q' ∈ c.levels, q' ≤ q) ∧
      ∀ u, c.lastPrefix = some u → u ≤ (binLevel t.ty).getD 0
def Seq.SafePrec : Seq → Prop
  | .nil => True
  | .last c => c.SafePrec
  | .cons c _ r => c.SafePrec ∧ r.SafePrec
end

/- ### Reading a tree -/

/-- What is left of a token when positions of operators are forgotten: an operator by its type, anything else by itself. -/
inductive ExprItem
  | leaf (t : Token)
  | op (ty : TokType)
  deriving DecidableEq

/-- The token that stands for an operator. -/
def spelling : Oper → TokType
  | .add => .operPlus
  | .sub | .unaryNeg => .operDash
  | .mult | .deref => .operStar
  | .div => .operDiv
  | .mod => .operMod
  | .lshift => .operLshift
  | .rshift => .operRshift
  | .pow => .operPow
  | .not => .operNot
  | .is => .operIs
  | .isnt => .operIsnt
  | .lessThan => .operLessThan
  | .gtrThan => .operGtrThan
  | .lessThanEq => .operLessThanEq
  | .gtrThanEq => .operGtrThanEq
  | .and => .operAnd
  | .or => .operOr
  | .xor => .operXor
  | .ref => .operRef
  | _ => .unknown

mutual
/-- The operands and operators of a syntax tree, from left to right. -/
def readExpr : Expr → List ExprItem
  | .missing => []
  | .ident t => [.leaf t]
  | .const t => [.leaf t]
  | .call n as _ => .leaf n :: readArgs as
  | .un o e => .op (spelling o) :: readExpr e
  | .bin o l r => readExpr l ++ .op (spelling o) :: readExpr r
def readArgs : Args → List ExprItem
  | .nil => []
  | .cons _ e r => readExpr e ++ readArgs r
end

/-- How many arguments there are. -/
def Args.count : Args → Nat
  | .nil => 0
  | .cons _ _ r => Args.count r + 1

mutual
/-- No argument is missing, and the number kept with every call is the number of its arguments in 16 bits. -/
def NumsOf : Expr → Prop
  | .missing | .ident _ | .const _ => True
  | .call _ as num => NumsOfArgs as ∧ num = Args.count as % 65536
  | .un _ e => NumsOf e
  | .bin _ l r => NumsOf l ∧ NumsOf r
def NumsOfArgs : Args → Prop
  | .nil => True
  | .cons _ e r => e ≠ .missing ∧ NumsOf e ∧ NumsOfArgs r
end

/-- The operands and operators among tokens: parentheses and commas are left out. -/
def items : List Token → List ExprItem
  | [] => []
  | t :: ts =>
    if t.ty = .parenOpen ∨ t.ty = .parenClose ∨ t.ty = .comma then items ts
    else if isName t ∨ isLiteral t then .leaf t :: items ts
    else .op t.ty :: items ts

end Skull.Spec
