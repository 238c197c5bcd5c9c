import Verif.Model.Token
/-
The grammar of words: literals, identifiers, reserved words and operators.  Only the type `TokType` is used from the model.
-/
namespace Skull.Spec

def Digit (c : Char) : Prop := '0' ≤ c ∧ c ≤ '9'
def HexDigit (c : Char) : Prop := Digit c ∨ ('a' ≤ c ∧ c ≤ 'f') ∨ ('A' ≤ c ∧ c ≤ 'F')
def BinDigit (c : Char) : Prop := c = '0' ∨ c = '1'
def OctDigit (c : Char) : Prop := '0' ≤ c ∧ c ≤ '7'
def Letter (c : Char) : Prop := ('a' ≤ c ∧ c ≤ 'z') ∨ ('A' ≤ c ∧ c ≤ 'Z')

/-- Groups of digits joined by single underscores. -/
inductive Groups (digit : Char → Prop) : List Char → Prop
  | one {c} : digit c → Groups digit [c]
  | cons {c s} : digit c → Groups digit s → Groups digit (c :: s)
  | sep {c s} : digit c → Groups digit s → Groups digit (c :: '_' :: s)

/-- Integer literals. -/
inductive IntLit : List Char → Prop
  | dec {s} : Groups Digit s → IntLit s
  | neg {s} : Groups Digit s → IntLit ('-' :: s)
  | hex {s} : Groups HexDigit s → IntLit ('0' :: 'x' :: s)
  | bin {s} : Groups BinDigit s → IntLit ('0' :: 'b' :: s)
  | oct {s} : Groups OctDigit s → IntLit ('0' :: 'o' :: s)

/-- Unsigned decimal floats: groups of digits, a dot, digits. -/
def Decimal (s : List Char) : Prop :=
  ∃ whole frac, s = whole ++ '.' :: frac ∧ Groups Digit whole ∧ frac ≠ [] ∧ ∀ c ∈ frac, Digit c

/-- Float literals. -/
inductive FloatLit : List Char → Prop
  | nan : FloatLit "NaN".toList
  | inf : FloatLit "Infinity".toList
  | negInf : FloatLit "-Infinity".toList
  | pos {s} : Decimal s → FloatLit s
  | neg {s} : Decimal s → FloatLit ('-' :: s)

/-- A name: a letter, then letters, digits and underscores. -/
def Name (s : List Char) : Prop :=
  ∃ c t, s = c :: t ∧ Letter c ∧ ∀ d ∈ t, Letter d ∨ Digit d ∨ d = '_'

/-- A dotted name: a letter, then letters, digits, underscores and dots, with at least one dot and not ending in one. -/
def DottedName (s : List Char) : Prop :=
  ∃ c t, s = c :: t ∧ Letter c ∧ (∀ d ∈ t, Letter d ∨ Digit d ∨ d = '_' ∨ d = '.') ∧ '.' ∈ t ∧ s.getLast? ≠ some '.'

/-- Words that are operators or keywords, and the type each has. -/
def words : List (String × TokType) :=
  [("=", .operEqual), ("+", .operPlus), ("-", .operDash), ("*", .operStar), ("/", .operDiv), ("<", .operLessThan),
   (">", .operGtrThan), ("^", .operPow), (":=", .operAutoEqual), ("<=", .operLessThanEq), (">=", .operGtrThanEq),
   ("<<", .operLshift), (">>", .operRshift), ("mod", .operMod), ("not", .operNot), ("is", .operIs), ("isnt", .operIsnt),
   ("and", .operAnd), ("or", .operOr), ("xor", .operXor), ("mut", .kwMut), ("return", .kwReturn),
   ("unreachable", .kwUnreachable), ("if", .kwIf), ("elif", .kwElif), ("else", .kwElse), ("while", .kwWhile),
   ("external", .kwExternal), ("export", .kwExport), ("noop", .kwNoop), ("break", .kwBreak), ("continue", .kwContinue),
   ("import", .kwImport), ("namespace", .kwNamespace), ("true", .boolConst), ("false", .boolConst),
   ("NaN", .floatConst), ("Infinity", .floatConst)]

/-- Names that cannot be declared. -/
def reserved : List String :=
  ["mut", "return", "unreachable", "if", "elif", "else", "while", "external", "export", "noop", "break", "continue",
   "import", "namespace", "mod", "not", "is", "isnt", "and", "or", "xor", "Infinity", "NaN", "true", "false"]

/-- The names of the built in types. -/
def typeNames : List String := ["Bool", "Int", "Float", "Rune", "Str", "Void"]

/-- A word token with the text `text`, in front of the text `after`. -/
def word (text after : List Char) (line col : Nat) : Token :=
  { begin := some (text ++ after), len := text.length, ty := .unknown, line := line, col := col }

end Skull.Spec
