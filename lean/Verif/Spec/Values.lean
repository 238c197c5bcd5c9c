import Verif.Spec.Words
/-
What literals denote.
-/
namespace Skull.Spec

/-- The value of a digit in bases up to 16. -/
def digitValue (c : Char) : Nat :=
  if 'a' ≤ c ∧ c ≤ 'f' then c.toNat - 'a'.toNat + 10
  else if 'A' ≤ c ∧ c ≤ 'F' then c.toNat - 'A'.toNat + 10
  else c.toNat - '0'.toNat

/-- The number written by digits with underscores in between. -/
def numeral (base : Nat) (s : List Char) : Nat :=
  (s.filter (· ≠ '_')).foldl (fun n c => n * base + digitValue c) 0

/-- The integer that an integer literal denotes. -/
inductive IntValue : List Char → Int → Prop
  | dec {s} : Groups Digit s → IntValue s (numeral 10 s)
  | neg {s} : Groups Digit s → IntValue ('-' :: s) (-(numeral 10 s : Int))
  | hex {s} : Groups HexDigit s → IntValue ('0' :: 'x' :: s) (numeral 16 s)
  | bin {s} : Groups BinDigit s → IntValue ('0' :: 'b' :: s) (numeral 2 s)
  | oct {s} : Groups OctDigit s → IntValue ('0' :: 'o' :: s) (numeral 8 s)

/-- Integers that fit in 64 bit two's complement. -/
def FitsInt64 (n : Int) : Prop := -(2 ^ 63) ≤ n ∧ n < 2 ^ 63

instance (n : Int) : Decidable (FitsInt64 n) := inferInstanceAs (Decidable (_ ∧ _))

/-- Escapes of one letter. -/
def simpleEscapes : List (Char × Nat) :=
  [('\\', 92), ('"', 34), ('\'', 39), ('0', 0), ('e', 27), ('t', 9), ('r', 13), ('n', 10)]

/-- The code points denoted by the inside of a string literal.  A hex escape takes up to eight digits, as many as there are. -/
inductive Denotes : List Char → List Nat → Prop
  | nil : Denotes [] []
  | plain {c s v} : c ≠ '\\' → Denotes s v → Denotes (c :: s) (c.toNat :: v)
  | simple {e n s v} : (e, n) ∈ simpleEscapes → Denotes s v → Denotes ('\\' :: e :: s) (n :: v)
  | hex {ds s v} : ds ≠ [] → ds.length ≤ 8 → (∀ c ∈ ds, HexDigit c) →
      (ds.length < 8 → ∀ c t, s = c :: t → ¬ HexDigit c) → Denotes s v →
      Denotes ('\\' :: 'x' :: (ds ++ s)) (numeral 16 ds :: v)

/-- Unicode scalar values. -/
def Scalar (n : Nat) : Prop := n < 0xD800 ∨ (0xE000 ≤ n ∧ n ≤ 0x10FFFF)

/-- The inside of a rune literal and its value: one character that is no control character, or one escape. -/
inductive RuneBody : List Char → Nat → Prop
  | plain {c} : c ≠ '\\' → 32 ≤ c.toNat → c.toNat ≠ 127 → RuneBody [c] c.toNat
  | simple {e n} : (e, n) ∈ simpleEscapes → RuneBody ['\\', e] n
  | hex {ds} : ds ≠ [] → ds.length ≤ 8 → (∀ c ∈ ds, HexDigit c) → Scalar (numeral 16 ds) →
      RuneBody ('\\' :: 'x' :: ds) (numeral 16 ds)

/-- One way to write a text as the inside of a string literal. -/
def escape : List Char → List Char
  | [] => []
  | c :: s => if c = '\\' ∨ c = '"' then '\\' :: c :: escape s else c :: escape s

end Skull.Spec
