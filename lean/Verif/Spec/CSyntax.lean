/-
The part of C's grammar in which expressions are written: tokens (C11 6.4, longest match) and expressions (C11 6.5).  Nothing of the
model is used.

Left out of the grammar of expressions: assignment, `?:`, `sizeof`, casts, subscripts, members, `++` and `--`, and strings that are
written next to each other.  An identifier is taken for the name of an object or a function, never of a type.
-/
namespace Skull.Spec.C

/-- Preprocessing tokens.  The text of a string is the text between the quotes. -/
inductive Tok
  | id (s : List Char)
  | num (s : List Char)
  | str (s : List Char)
  | p (s : List Char)
  deriving DecidableEq, Repr

def isDigit (c : Char) : Bool := '0' ≤ c && c ≤ '9'
def isIdStart (c : Char) : Bool := ('a' ≤ c && c ≤ 'z') || ('A' ≤ c && c ≤ 'Z') || c = '_'
def isIdChar (c : Char) : Bool := isIdStart c || isDigit c
def isSpace (c : Char) : Bool := c = ' ' || c = '\t' || c = '\n' || c = '\r' || c = '\x0b' || c = '\x0c'

/-- The rest of an identifier. -/
def idRest : List Char → List Char × List Char
  | [] => ([], [])
  | c :: s => if isIdChar c then (c :: (idRest s).1, (idRest s).2) else ([], c :: s)

/-- The rest of a number (6.4.8); `prev` is the character before. -/
def numRest (prev : Char) : List Char → List Char × List Char
  | [] => ([], [])
  | c :: s =>
    if isIdChar c || c = '.' || ((c = '+' || c = '-') && (prev = 'e' || prev = 'E' || prev = 'p' || prev = 'P')) then
      (c :: (numRest c s).1, (numRest c s).2)
    else ([], c :: s)

/-- The rest of a string, behind its first quote (6.4.5).  A backslash and the next character belong together. -/
def strRest : List Char → Option (List Char × List Char)
  | [] => none
  | c :: s =>
    if c = '"' then some ([], s)
    else if c = '\n' then none
    else if c = '\\' then
      match s with
      | [] => none
      | d :: s => if d = '\n' then none else (strRest s).map fun r => ('\\' :: d :: r.1, r.2)
    else (strRest s).map fun r => (c :: r.1, r.2)

/-- Punctuators (6.4.6), no one behind one that it begins with. -/
def puncts : List (List Char) :=
  ["%:%:", "...", "<<=", ">>=", "->", "++", "--", "<<", ">>", "<=", ">=", "==", "!=", "&&", "||", "*=", "/=", "%=", "+=", "-=",
   "&=", "^=", "|=", "##", "<:", ":>", "<%", "%>", "%:", "[", "]", "(", ")", "{", "}", ".", "&", "*", "+", "-", "~", "!", "/",
   "%", "<", ">", "^", "|", "?", ":", ";", "=", ",", "#"].map String.toList

/-- What is behind the prefix `p` of `s`. -/
def behind : (p s : List Char) → Option (List Char)
  | [], s => some s
  | _ :: _, [] => none
  | a :: p, b :: s => if a = b then behind p s else none

/-- The first of the punctuators that `s` begins with, and the rest. -/
def punct (s : List Char) : List (List Char) → Option (List Char × List Char)
  | [] => none
  | p :: ps =>
    match behind p s with
    | some r => some (p, r)
    | none => punct s ps

/-- The tokens of a text, if it has tokens only and no comments; at most `n` characters are looked at. -/
def lexN : Nat → List Char → Option (List Tok)
  | _, [] => some []
  | 0, _ :: _ => none
  | n + 1, c :: s =>
    if isSpace c then lexN n s
    else if isIdStart c then (lexN n (idRest s).2).map (.id (c :: (idRest s).1) :: ·)
    else if isDigit c then (lexN n (numRest c s).2).map (.num (c :: (numRest c s).1) :: ·)
    else if c = '"' then
      match strRest s with
      | some (t, r) => (lexN n r).map (.str t :: ·)
      | none => none
    else if c = '/' ∧ (s.head? = some '/' ∨ s.head? = some '*') then none
    else
      match punct (c :: s) puncts with
      | some (p, r) => (lexN n r).map (.p p :: ·)
      | none => none

/-- The tokens of a text. -/
def lex (s : List Char) : Option (List Tok) := lexN s.length s

/-- Keywords (6.4.1, and C23's). -/
def keywords : List (List Char) :=
  ["auto", "break", "case", "char", "const", "continue", "default", "do", "double", "else", "enum", "extern", "float", "for",
   "goto", "if", "inline", "int", "long", "register", "restrict", "return", "short", "signed", "sizeof", "static", "struct",
   "switch", "typedef", "union", "unsigned", "void", "volatile", "while", "_Alignas", "_Alignof", "_Atomic", "_Bool", "_Complex",
   "_Generic", "_Imaginary", "_Noreturn", "_Static_assert", "_Thread_local", "alignas", "alignof", "bool", "constexpr", "false",
   "nullptr", "static_assert", "thread_local", "true", "typeof", "typeof_unqual", "asm"].map String.toList

mutual
/-- Expressions. -/
inductive Exp
  | id (s : List Char)
  | num (s : List Char)
  | str (s : List Char)
  | paren (e : Exp)
  | call (f : Exp) (args : Exps)
  | un (op : List Char) (e : Exp)
  | bin (op : List Char) (l r : Exp)
inductive Exps
  | nil
  | cons (e : Exp) (next : Exps)
end

/-- The level of an operator between two operands (6.5.5-6.5.14, 6.5.17). -/
def binPrec (p : List Char) : Option Nat :=
  [(",", 0), ("||", 1), ("&&", 2), ("|", 3), ("^", 4), ("&", 5), ("==", 6), ("!=", 6), ("<", 7), (">", 7), ("<=", 7), (">=", 7),
   ("<<", 8), (">>", 8), ("+", 9), ("-", 9), ("*", 10), ("/", 10), ("%", 10)].findSome?
    fun x => if x.1.toList = p then some x.2 else none

/-- Operators before an operand (6.5.3). -/
def isPrefix (p : List Char) : Bool := ["&", "*", "+", "-", "~", "!"].any fun x => x.toList = p

mutual
/-- `G k t e`: the tokens `t` are the expression `e`, at the level `k` of the grammar: operators between two operands have the levels
0 to 10, operators before an operand 11, calls 12, and the simplest expressions 13. -/
inductive G : Nat → List Tok → Exp → Prop
  | up {k t e} : k < 13 → G (k + 1) t e → G k t e
  | bin {k p tl tr l r} : binPrec p = some k → G k tl l → G (k + 1) tr r → G k (tl ++ .p p :: tr) (.bin p l r)
  | un {p t e} : isPrefix p = true → G 11 t e → G 11 (.p p :: t) (.un p e)
  | call {t f ta args} : G 12 t f → GArgs ta args → G 12 (t ++ .p ['('] :: (ta ++ [.p [')']])) (.call f args)
  | id {s} : s ∉ keywords → G 13 [.id s] (.id s)
  | num {s} : G 13 [.num s] (.num s)
  | str {s} : G 13 [.str s] (.str s)
  | paren {t e} : G 0 t e → G 13 (.p ['('] :: (t ++ [.p [')']])) (.paren e)
/-- The arguments of a call. -/
inductive GArgs : List Tok → Exps → Prop
  | none : GArgs [] .nil
  | some {t args} : GList t args → GArgs t args
/-- One argument or more. -/
inductive GList : List Tok → Exps → Prop
  | one {t e} : G 1 t e → GList t (.cons e .nil)
  | cons {t e ta args} : G 1 t e → GList ta args → GList (t ++ .p [','] :: ta) (.cons e args)
end

/-- The value of decimal digits. -/
def decValue (s : List Char) : Nat := s.foldl (fun n c => 10 * n + (c.toNat - 48)) 0

/-- The value of a hexadecimal digit. -/
def hexDigit (c : Char) : Nat :=
  if isDigit c then c.toNat - 48 else if 'a' ≤ c && c ≤ 'f' then c.toNat - 87 else c.toNat - 55

/-- The value of hexadecimal digits. -/
def hexValue (s : List Char) : Nat := s.foldl (fun n c => 16 * n + hexDigit c) 0

def isHexDigit (c : Char) : Bool := isDigit c || ('a' ≤ c && c ≤ 'f') || ('A' ≤ c && c ≤ 'F')
def isOctDigit (c : Char) : Bool := '0' ≤ c && c ≤ '7'

/-- One character or escape sequence (6.4.4.4) at the beginning of the text of a string: the character it stands for and the rest.
Universal character names stand for the character; of `\x` at least one digit is wanted. -/
def strChar : List Char → Option (Nat × List Char)
  | [] => none
  | c :: s =>
    if c = '"' ∨ c = '\n' then none
    else if c ≠ '\\' then some (c.toNat, s)
    else
      match s with
      | [] => none
      | d :: s =>
        if d = '\'' ∨ d = '"' ∨ d = '?' ∨ d = '\\' then some (d.toNat, s)
        else if d = 'a' then some (7, s) else if d = 'b' then some (8, s) else if d = 'f' then some (12, s)
        else if d = 'n' then some (10, s) else if d = 'r' then some (13, s) else if d = 't' then some (9, s)
        else if d = 'v' then some (11, s)
        else if d = 'x' then
          let digits := s.takeWhile isHexDigit
          if digits = [] then none else some (hexValue digits, s.dropWhile isHexDigit)
        else if isOctDigit d then
          let digits := (d :: s.take 2).takeWhile isOctDigit
          some (digits.foldl (fun n c => 8 * n + (c.toNat - 48)) 0, (d :: s).drop digits.length)
        else if d = 'u' then
          if (s.take 4).all isHexDigit && (s.take 4).length = 4 then some (hexValue (s.take 4), s.drop 4) else none
        else if d = 'U' then
          if (s.take 8).all isHexDigit && (s.take 8).length = 8 then some (hexValue (s.take 8), s.drop 8) else none
        else none

/-- The characters of a string from the text between its quotes. -/
inductive Denotes : List Char → List Nat → Prop
  | nil : Denotes [] []
  | cons {s c r cs} : strChar s = some (c, r) → Denotes r cs → Denotes s (c :: cs)

end Skull.Spec.C
