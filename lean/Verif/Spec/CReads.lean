import Verif.Spec.CSyntax
import Verif.Spec.Uses
/-
When a C expression is the C form of a checked expression: the same tree, operator for operator, up to parentheses.  The functions of
the generator are not used.
-/
namespace Skull.Spec.C

/-- The C operator that is written for an operator between two operands. -/
def operOf : List (Oper × String) :=
  [(.add, "+"), (.sub, "-"), (.mult, "*"), (.div, "/"), (.mod, "%"), (.lshift, "<<"), (.rshift, ">>"), (.is, "=="), (.isnt, "!="),
   (.lessThan, "<"), (.gtrThan, ">"), (.lessThanEq, "<="), (.gtrThanEq, ">="), (.and, "&&"), (.or, "||"), (.xor, "^")]

/-- The C operator that is written for an operator before an operand. -/
def prefixOf : List (Oper × String) := [(.unaryNeg, "-"), (.not, "!"), (.ref, "&"), (.deref, "*")]

/-- A decimal constant for `n` that fits in 64 bits (C11 6.4.4.1): no zero in front, or an `L` behind it. -/
def DecConst (n : Nat) (text : List Char) : Prop :=
  ∃ digits suffix, text = digits ++ suffix ∧ (suffix = [] ∨ suffix = ['L']) ∧ digits ≠ [] ∧ (∀ c ∈ digits, isDigit c = true) ∧
    (digits.head? = some '0' → digits = ['0']) ∧ decValue digits = n ∧ n < 2 ^ 63

/-- A hexadecimal constant for `n`. -/
def HexConst (n : Nat) (text : List Char) : Prop :=
  ∃ digits, text = '0' :: 'x' :: digits ∧ digits ≠ [] ∧ (∀ c ∈ digits, isHexDigit c = true) ∧ hexValue digits = n

/-- The C form of a constant; `fmtA` writes a double in hexadecimal. -/
inductive ReadsConst (fmtA : Nat → List Char) : Value → Exp → Prop
  | int {n text} : DecConst n text → ReadsConst fmtA (.int n) (.num text)
  | neg {n text} : DecConst n text → ReadsConst fmtA (.int (-n)) (.un ['-'] (.num text))
  | zero : ReadsConst fmtA (.float 0) (.num "0.0".toList)
  | float {bits} : (∀ t, fmtA bits ≠ '-' :: t) → ReadsConst fmtA (.float bits) (.num (fmtA bits))
  | negFloat {bits text} : fmtA bits = '-' :: text → ReadsConst fmtA (.float bits) (.un ['-'] (.num text))
  | true : ReadsConst fmtA (.bool .true) (.num ['1'])
  | false : ReadsConst fmtA (.bool .false) (.num ['0'])
  | rune {r text} : HexConst r text → ReadsConst fmtA (.rune r) (.num text)
  | str {s text} : Denotes text s → ReadsConst fmtA (.str s) (.str text)

mutual
/-- The C form of an expression; `syms` are the symbols. -/
inductive Reads (syms : List Symbol) (fmtA : Nat → List Char) : AExpr → Exp → Prop
  | paren {e c} : Reads syms fmtA e c → Reads syms fmtA e (.paren c)
  | ident {tok id ty k sym} : syms[id]? = some sym → Reads syms fmtA (.ident tok id ty k) (.id sym.name)
  | const {tok v c} : ReadsConst fmtA v c → Reads syms fmtA (.const tok v) c
  | call {tok args id ty sym cs} : syms[id]? = some sym → ReadsArgs syms fmtA args cs →
      Reads syms fmtA (.call tok args id ty) (.call (.id sym.name) cs)
  | un {o p r c ty k} : (o, p) ∈ prefixOf → Reads syms fmtA r c → Reads syms fmtA (.un o r ty k) (.un p.toList c)
  | bin {o p l r cl cr ty k} : (o, p) ∈ operOf → (o = .is ∨ o = .isnt → l.type ≠ .prim .str) → Reads syms fmtA l cl →
      Reads syms fmtA r cr → Reads syms fmtA (.bin o l r ty k) (.bin p.toList cl cr)
  | strIs {l r cl cr ty k} : l.type = .prim .str → Reads syms fmtA l cl → Reads syms fmtA r cr →
      Reads syms fmtA (.bin .is l r ty k) (.call (.id "_strcmp".toList) (.cons cl (.cons cr .nil)))
  | strIsnt {l r cl cr ty k} : l.type = .prim .str → Reads syms fmtA l cl → Reads syms fmtA r cr →
      Reads syms fmtA (.bin .isnt l r ty k) (.un ['!'] (.call (.id "_strcmp".toList) (.cons cl (.cons cr .nil))))
  | intPow {l r cl cr k} : Reads syms fmtA l cl → Reads syms fmtA r cr →
      Reads syms fmtA (.bin .pow l r (.prim .int) k) (.call (.id "_int_pow".toList) (.cons cl (.cons cr .nil)))
  | floatPow {l r cl cr k} : Reads syms fmtA l cl → Reads syms fmtA r cr →
      Reads syms fmtA (.bin .pow l r (.prim .float) k) (.call (.id "_float_pow".toList) (.cons cl (.cons cr .nil)))
/-- The C form of the arguments of a call. -/
inductive ReadsArgs (syms : List Symbol) (fmtA : Nat → List Char) : AArgs → Exps → Prop
  | nil : ReadsArgs syms fmtA .nil .nil
  | cons {tok e next c cs} : Reads syms fmtA e c → ReadsArgs syms fmtA next cs → ReadsArgs syms fmtA (.cons tok e next) (.cons c cs)
end

/-- A C identifier. -/
def IsName (s : List Char) : Prop := ∃ c t, s = c :: t ∧ isIdStart c = true ∧ (∀ d ∈ t, isIdChar d = true) ∧ s ∉ keywords

/-- A C number: a digit, then letters, digits, dots, and signs behind an exponent letter. -/
def IsNum (s : List Char) : Prop := ∃ c t, s = c :: t ∧ isDigit c = true ∧ (numRest c t).2 = []

/-- Characters that stand for themselves in a C string: no quote, backslash or newline, and a character at all. -/
def PlainChar (c : Nat) : Prop := c.isValidChar ∧ c ≠ 34 ∧ c ≠ 92 ∧ c ≠ 10

/-- Constants whose text is that of a C constant: not the least integer, which C takes for `-` before a constant that is too big; no
infinity and no NaN; strings of plain characters. -/
def FineConst (fmtA : Nat → List Char) : Value → Prop
  | .int i => - 2 ^ 63 < i ∧ i < 2 ^ 63
  | .float bits => bits = 0 ∨ IsNum (fmtA bits) ∨ ∃ t, fmtA bits = '-' :: t ∧ IsNum t
  | .str s => ∀ c ∈ s, PlainChar c
  | _ => True

mutual
/-- The expression has only names that are C identifiers, and constants whose text is that of a C constant. -/
def Fine (syms : List Symbol) (fmtA : Nat → List Char) : AExpr → Prop
  | .ident _ id _ _ => ∀ sym, syms[id]? = some sym → IsName sym.name
  | .const _ v => FineConst fmtA v
  | .call _ args id _ => (∀ sym, syms[id]? = some sym → IsName sym.name) ∧ FineArgs syms fmtA args
  | .un _ r _ _ => Fine syms fmtA r
  | .bin _ l r _ _ => Fine syms fmtA l ∧ Fine syms fmtA r
/-- All arguments are fine, and there are no more than the function has parameters. -/
def FineArgs (syms : List Symbol) (fmtA : Nat → List Char) : AArgs → Prop
  | .nil => True
  | .cons _ e next => Fine syms fmtA e ∧ FineArgs syms fmtA next
  | .unchecked _ => False
end

end Skull.Spec.C

namespace Skull

mutual
/-- The constants of an expression. -/
def AExpr.values : AExpr → List Value
  | .ident .. => []
  | .const _ v => [v]
  | .call _ args _ _ => args.values
  | .un _ r _ _ => r.values
  | .bin _ l r _ _ => l.values ++ r.values
/-- The constants of arguments. -/
def AArgs.values : AArgs → List Value
  | .nil => []
  | .cons _ e next => e.values ++ next.values
  | .unchecked _ => []
end

/-- The expressions of a tree. -/
def ATree.exprs : ATree → List AExpr
  | .nil => []
  | .unchecked _ => []
  | .node ann _ _ child next => ann.value.toList ++ child.exprs ++ next.exprs

end Skull
