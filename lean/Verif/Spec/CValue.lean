import Verif.Spec.CReads
import Verif.Spec.Run
import Verif.Model.Runtime
/-
The values of C expressions (C11 6.3 and 6.5), as far as the back end writes them, where `int` has 32 bits and `int64_t` is a `long` of 64
bits.  `none` is an undefined value, or an expression that is not allowed.  `>>` of a negative number, which C leaves to the compiler,
keeps the sign.

Left out: calls of functions other than those of the run time, and pointers other than strings.
-/
namespace Skull.Spec.C

/-- Integer types: `_Bool`, `int`, `char32_t` and `int64_t`. -/
inductive ITy
  | bool | int | uint | long
  deriving DecidableEq, Repr

inductive CVal
  | int (t : ITy) (v : Int)
  | dbl (bits : Nat)
  | str (s : List Nat)
  deriving DecidableEq, Repr

/-- Integer promotion (6.3.1.1). -/
def ITy.promote : ITy → ITy
  | .bool => .int
  | t => t

/-- The usual arithmetic conversions (6.3.1.8). -/
def ITy.common (a b : ITy) : ITy :=
  match a.promote, b.promote with
  | .long, _ | _, .long => .long
  | .uint, _ | _, .uint => .uint
  | _, _ => .int

def ITy.bits : ITy → Nat
  | .long => 64
  | _ => 32

/-- Conversion of an integer to one of the types of arithmetic that is not narrower (6.3.1.3). -/
def ITy.conv (t : ITy) (v : Int) : Int :=
  match t with
  | .uint => v % 2 ^ 32
  | _ => v

/-- The result of arithmetic (6.5p5): there is none if it is not in the range of a signed type. -/
def ITy.fit (t : ITy) (v : Int) : Option CVal :=
  match t with
  | .uint => some (.int .uint (v % 2 ^ 32))
  | t => if -2 ^ (t.bits - 1) ≤ v ∧ v < 2 ^ (t.bits - 1) then some (.int t v) else none

/-- The truth values of operators. -/
def CVal.truth (b : Bool) : CVal := .int .int (if b then 1 else 0)

/-- Constants (6.4.4): the value, and the first type in which it fits.  `dbl` gives floating constants their value. -/
def numVal (dbl : List Char → Option Nat) (text : List Char) : Option CVal :=
  let dec (digits : List Char) : Option Nat :=
    if digits ≠ [] ∧ digits.all isDigit ∧ (digits.head? = some '0' → digits = ['0']) then some (decValue digits) else none
  let long (n : Nat) : Option CVal := if n < 2 ^ 63 then some (.int .long n) else none
  match dec text with
  | some n => if n < 2 ^ 31 then some (.int .int n) else long n
  | none =>
    match (if text.getLast? = some 'L' then dec text.dropLast else none) with
    | some n => long n
    | none =>
      match text with
      | '0' :: 'x' :: digits =>
        if digits ≠ [] ∧ digits.all isHexDigit then
          if hexValue digits < 2 ^ 31 then some (.int .int (hexValue digits))
          else if hexValue digits < 2 ^ 32 then some (.int .uint (hexValue digits)) else long (hexValue digits)
        else (dbl text).map .dbl
      | _ => if text.all isDigit then none else (dbl text).map .dbl

/-- Operators before an operand. -/
def unVal (F : Floats) (op : List Char) : CVal → Option CVal
  | .int t v =>
    if op = ['-'] then t.promote.fit (-v)
    else if op = ['!'] then some (.truth (v = 0))
    else none
  | .dbl a => if op = ['-'] then some (.dbl (F.neg a)) else none
  | .str _ => none

/-- Bits that are different. -/
def xorBits (n : Nat) (a b : Int) : Int := (BitVec.ofInt n a ^^^ BitVec.ofInt n b).toInt

/-- Operators between integers. -/
def intVal (op : List Char) (s : ITy) (a : Int) (t : ITy) (b : Int) : Option CVal :=
  let u := s.common t
  let x := u.conv a
  let y := u.conv b
  if op = ['+'] then u.fit (x + y)
  else if op = ['-'] then u.fit (x - y)
  else if op = ['*'] then u.fit (x * y)
  else if op = ['/'] then if y = 0 then none else u.fit (x.tdiv y)
  else if op = ['%'] then if y = 0 ∨ u.fit (x.tdiv y) = none then none else u.fit (x.tmod y)
  else if op = ['<', '<'] then
    if 0 ≤ b ∧ b < s.promote.bits then
      if s.promote = .uint then s.promote.fit (a * 2 ^ b.toNat)
      else if 0 ≤ a then s.promote.fit (a * 2 ^ b.toNat) else none
    else none
  else if op = ['>', '>'] then if 0 ≤ b ∧ b < s.promote.bits then some (.int s.promote (a / 2 ^ b.toNat)) else none
  else if op = ['^'] then some (.int u (u.conv (xorBits u.bits x y)))
  else if op = ['=', '='] then some (.truth (x = y))
  else if op = ['!', '='] then some (.truth (x ≠ y))
  else if op = ['<'] then some (.truth (x < y))
  else if op = ['>'] then some (.truth (y < x))
  else if op = ['<', '='] then some (.truth (x ≤ y))
  else if op = ['>', '='] then some (.truth (y ≤ x))
  else none

/-- Operators between doubles. -/
def dblVal (F : Floats) (op : List Char) (a b : Nat) : Option CVal :=
  if op = ['+'] then some (.dbl (F.add a b))
  else if op = ['-'] then some (.dbl (F.sub a b))
  else if op = ['*'] then some (.dbl (F.mul a b))
  else if op = ['/'] then some (.dbl (F.div a b))
  else if op = ['=', '='] then some (.truth (F.eq a b))
  else if op = ['!', '='] then some (.truth !F.eq a b)
  else if op = ['<'] then some (.truth (F.lt a b))
  else if op = ['>'] then some (.truth (F.gt a b))
  else if op = ['<', '='] then some (.truth (F.le a b))
  else if op = ['>', '='] then some (.truth (F.ge a b))
  else none

/-- Operators between two operands that are both evaluated. -/
def binVal (F : Floats) (op : List Char) : CVal → CVal → Option CVal
  | .int s a, .int t b => intVal op s a t b
  | .dbl a, .dbl b => dblVal F op a b
  | _, _ => none

/-- Whether a value compares unequal to 0. -/
def CVal.nonzero : CVal → Option Bool
  | .int _ v => some (v ≠ 0)
  | _ => none

/-- The functions of the run time: `_int_pow` (see `C52`), `_float_pow`, and `_strcmp` (see `C53`), which tells whether two strings are the
same. -/
def runTime (F : Floats) (f : List Char) : CVal → CVal → Option CVal
  | .int _ a, .int _ b =>
    if f = "_int_pow".toList then match cIntPow a b with | .done v => some (.int .long v) | _ => none else none
  | .dbl a, .dbl b => if f = "_float_pow".toList then some (.dbl (F.pow a b)) else none
  | .str a, .str b => if f = "_strcmp".toList then some (.int .bool (if a = b then 1 else 0)) else none
  | _, _ => none

/-- What expressions depend on: the variables, and the arithmetic and the constants of floats. -/
structure CEnv where
  var : List Char → Option CVal
  floats : Floats
  dbl : List Char → Option Nat

/-- The value of an expression. -/
def value (E : CEnv) : Exp → Option CVal
  | .id s => E.var s
  | .num s => numVal E.dbl s
  | .str s => (chars s.length s).map .str
  | .paren e => value E e
  | .call (.id f) (.cons a (.cons b .nil)) =>
    match value E a, value E b with
    | some x, some y => runTime E.floats f x y
    | _, _ => none
  | .call _ _ => none
  | .un op e => match value E e with | some x => unVal E.floats op x | none => none
  | .bin op l r =>
    match value E l with
    | some x =>
      if op = ['&', '&'] then
        match x.nonzero with
        | some false => some (.truth false)
        | some true => match value E r with | some y => y.nonzero.map .truth | none => none
        | none => none
      else if op = ['|', '|'] then
        match x.nonzero with
        | some true => some (.truth true)
        | some false => match value E r with | some y => y.nonzero.map .truth | none => none
        | none => none
      else match value E r with | some y => binVal E.floats op x y | none => none
    | none => none
where
  /-- The characters of a string. -/
  chars : Nat → List Char → Option (List Nat)
    | _, [] => some []
    | 0, _ :: _ => none
    | n + 1, s =>
      match strChar s with
      | some (c, r) => (chars n r).map (c :: ·)
      | none => none

/-- A C value stands for a value of the program. -/
def Stands : Val → CVal → Prop
  | .int i, c => c = .int .int i ∨ c = .int .long i
  | .bool b, c => c = .int .bool (if b then 1 else 0) ∨ c = .int .int (if b then 1 else 0)
  | .rune r, c => (c = .int .int r ∨ c = .int .uint r) ∧ r < 2 ^ 32
  | .float bits, c => c = .dbl bits
  | .str s, c => c = .str s
  | .unit, _ => False

end Skull.Spec.C

namespace Skull.Spec

/-- The value of an expression without calls, from the values of its variables. -/
def valueE (A : Arith) (ρ : Nat → Option Val) : AExpr → Option Val
  | .ident _ id _ _ => ρ id
  | .const _ v => some (.ofConst v)
  | .call .. => none
  | .un o r _ _ => match valueE A ρ r with | some x => A.un o r.type x | none => none
  | .bin o l r _ _ =>
    match valueE A ρ l, valueE A ρ r with
    | some x, some y => A.bin o r.type x y
    | _, _ => none

/-- The variables of an expression. -/
def AExpr.idents : AExpr → List Nat
  | .ident _ id _ _ => [id]
  | .un _ r _ _ => idents r
  | .bin _ l r _ _ => idents l ++ idents r
  | _ => []

end Skull.Spec

namespace Skull.Spec.C

/-- A C `int`. -/
def isInt32 (i : Int) : Bool := -2 ^ 31 ≤ i && i < 2 ^ 31

/-- Expressions whose C text can have the type `int`: integers of 32 bits, and operators on them. -/
def narrow : AExpr → Bool
  | .const _ (.int i) => -2 ^ 31 < i && i < 2 ^ 31
  | .un .unaryNeg r _ _ => narrow r
  | .bin .add l r _ _ | .bin .sub l r _ _ | .bin .mult l r _ _ | .bin .div l r _ _ | .bin .mod l r _ _ => narrow l && narrow r
  | .bin .lshift l _ _ _ | .bin .rshift l _ _ _ => narrow l
  | _ => false

/-- Operations for which the C back end gives the documented value.  `n`, `m`: the operands can have the type `int`. -/
def safeBinC (n m : Bool) : Oper → Val → Val → Bool
  | .add, .int a, .int b => !(n && m) || isInt32 (a + b)
  | .sub, .int a, .int b => !(n && m) || isInt32 (a - b)
  | .mult, .int a, .int b => !(n && m) || isInt32 (a * b)
  | .div, .int a, .int b => !(n && m) || isInt32 (a.tdiv b)
  | .mod, .int a, .int b => (int64 (a.tdiv b)).isSome && (!(n && m) || isInt32 (a.tdiv b) && isInt32 (a.tmod b))
  | .mod, .float _, .float _ => false
  | .pow, .int _, .int b => 1 ≤ b && b < 2 ^ 63
  | .lshift, .int a, .int b => 0 ≤ a && if n then b < 32 && isInt32 (a * 2 ^ b.toNat) else a * 2 ^ b.toNat < 2 ^ 63
  | .rshift, .int a, .int b => 0 ≤ a && a < 2 ^ 63 && (!n || b < 32)
  | _, _, _ => true

/-- All operations of the expression are safe in C. -/
def safeC (F : Floats) (ρ : Nat → Option Val) : AExpr → Bool
  | .un o r _ _ => safeC F ρ r &&
    match o, valueE (docArith F) ρ r with
    | .unaryNeg, some (.int a) => !narrow r || isInt32 (-a)
    | _, _ => true
  | .bin o l r _ _ => safeC F ρ l && safeC F ρ r &&
    match valueE (docArith F) ρ l, valueE (docArith F) ρ r with
    | some x, some y => safeBinC (narrow l) (narrow r) o x y
    | _, _ => true
  | _ => true

/-- The C variables have the values of the variables of an expression. -/
def Agree (syms : List Symbol) (ρ : Nat → Option Val) (E : CEnv) (e : AExpr) : Prop :=
  ∀ id ∈ Spec.AExpr.idents e, ∀ sym v, syms[id]? = some sym → ρ id = some v →
    match v with
    | .int i => E.var sym.name = some (.int .long i)
    | .bool b => E.var sym.name = some (.int .bool (if b then 1 else 0))
    | .rune r => E.var sym.name = some (.int .uint r) ∧ r < 2 ^ 32
    | .float bits => E.var sym.name = some (.dbl bits)
    | .str s => E.var sym.name = some (.str s)
    | .unit => False

/-- The texts of the floats of an expression are read back. -/
def FloatTexts (fmtA : Nat → List Char) (E : CEnv) (e : AExpr) : Prop :=
  ∀ bits, .float bits ∈ e.values → (bits = 0 → numVal E.dbl "0.0".toList = some (.dbl 0)) ∧
    ((∀ t, fmtA bits ≠ '-' :: t) ∧ numVal E.dbl (fmtA bits) = some (.dbl bits) ∨
      ∃ t b, fmtA bits = '-' :: t ∧ numVal E.dbl t = some (.dbl b) ∧ E.floats.neg b = bits)

end Skull.Spec.C
