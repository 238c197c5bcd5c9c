import Verif.Model.Classify
/-
Evaluation of literal tokens: skull/semantic/types.c:22-171, and `c32sunescape` from skull/common/str.c.

Simplification: the multi-byte strings made by `token_to_mbs_str` are lists of characters, not of UTF-8 bytes.  All characters
these functions look for are ASCII, and UTF-8 encodes no other character with ASCII bytes.
-/
namespace Skull

/-- Result of an evaluation: a value, a diagnosed error, or undefined behaviour. -/
inductive Ev (α : Type)
  | ok (a : α)
  | overflow | controlChar | badEscape | runeTooLong | illegalSeq
  | ub
  deriving DecidableEq, Repr

/-- types.c:25-28 `eval_bool`. -/
def evalBool (t : Token) : Bool := t.len = 4

/-- types.c:255-261: copy the rest. -/
def copyRest : List Char → List Char
  | [] => []
  | c :: s => c :: copyRest s

/-- types.c:244-262 `strip_underscore_num`; `stop` is the argument `c` (`none` for 0).  `none` is undefined behaviour: an
underscore in front of the terminator makes the loop step over the terminator. -/
def stripUnderscore (stop : Option Char) : List Char → Option (List Char)
  | [] => some []
  | c :: s =>
    if some c = stop then some (copyRest (c :: s))
    else if c = '_' then
      match s with
      | [] => none
      | d :: s => (stripUnderscore stop s).map (d :: ·)
    else (stripUnderscore stop s).map (c :: ·)

/-- The value of a character as a digit of `strtoll` (ISO C 7.24.1.7): `none` if it is no digit of base `base`. -/
def digitVal (base : Nat) (c : Char) : Option Nat :=
  let v : Option Nat :=
    if '0' ≤ c && c ≤ '9' then some (c.toNat - '0'.toNat)
    else if 'a' ≤ c && c ≤ 'z' then some (c.toNat - 'a'.toNat + 10)
    else if 'A' ≤ c && c ≤ 'Z' then some (c.toNat - 'A'.toNat + 10)
    else none
  match v with
  | some d => if d < base then some d else none
  | none => none

/-- The digits read by `strtoll`. -/
def readDigits (base : Nat) : Nat → List Char → Nat
  | acc, [] => acc
  | acc, c :: s =>
    match digitVal base c with
    | some d => readDigits base (acc * base + d) s
    | none => acc

/-- White space of `strtoll` in the C locale. -/
def cIsSpace (c : Char) : Bool :=
  c = ' ' || c = '\t' || c = '\n' || c = '\r' || c.toNat = 11 || c.toNat = 12

/-- The optional base prefix that `strtoll` skips: `0x` for base 16, and since C23 `0b` for base 2. -/
def skipPrefix (base : Nat) : List Char → List Char
  | c :: x :: d :: s =>
    if c = '0' && ((base = 16 && (x = 'x' || x = 'X')) || (base = 2 && (x = 'b' || x = 'B'))) && (digitVal base d).isSome
    then d :: s
    else c :: x :: d :: s
  | s => s

def llongMax : Int := 9223372036854775807
def llongMin : Int := -9223372036854775808

/-- `strtoll(str, NULL, base)` as ISO C specifies it (trusted): the value, and whether `errno` is set to `ERANGE`. -/
def strtoll (s : List Char) (base : Nat) : Int × Bool :=
  let s := s.dropWhile cIsSpace
  let (neg, s) : Bool × List Char :=
    match s with
    | c :: t => if c = '-' then (true, t) else if c = '+' then (false, t) else (false, s)
    | [] => (false, s)
  let n := readDigits base 0 (skipPrefix base s)
  let v : Int := if neg then -(n : Int) else n
  if v > llongMax then (llongMax, true)
  else if v < llongMin then (llongMin, true)
  else (v, false)

/-- types.c:59-76: the start of the digits and the base.  `begin` is not at the end of the source. -/
def integerStart (begin : List Char) : List Char × Nat :=
  match begin with
  | c :: m :: s =>
    if c = '0' then
      if m = 'b' then (s, 2) else if m = 'o' then (s, 8) else if m = 'x' then (s, 16) else (begin, 10)
    else (begin, 10)
  | _ => (begin, 10)

/-- types.c:58-92 `eval_integer`. -/
def evalInteger (t : Token) : Ev Int :=
  match t.begin with
  | none => .ub
  | some begin =>
    let (digits, base) := integerStart begin
    match stripUnderscore none (digits.take t.len) with
    | none => .ub
    | some num =>
      let (ret, erange) := strtoll num base
      if (ret = llongMax || ret = llongMin) && erange then .overflow else .ok ret

/-- types.c:33-53 `eval_float`.  `strtod` is a parameter (value and `ERANGE`); `inf`, `negInf` and `nan` are the special values. -/
def evalFloat {F : Type} (strtod : List Char → F × Bool) (inf negInf nan : F) (t : Token) : Ev F :=
  match tokenCmp "Infinity".toList t, tokenCmp "-Infinity".toList t, tokenCmp "NaN".toList t, tokenToString t with
  | some a, some b, some c, some str =>
    if a then .ok inf else if b then .ok negInf else if c then .ok nan
    else match stripUnderscore (some '.') str with
      | none => .ub
      | some s => if (strtod s).2 then .overflow else .ok (strtod s).1
  | _, _, _, _ => .ub

/-- str.c:241-267 `c32unhex`. -/
def c32unhex (c : Char) : Nat :=
  match c with
  | '0' => 0 | '1' => 1 | '2' => 2 | '3' => 3 | '4' => 4 | '5' => 5 | '6' => 6 | '7' => 7 | '8' => 8 | '9' => 9
  | 'A' => 10 | 'a' => 10 | 'B' => 11 | 'b' => 11 | 'C' => 12 | 'c' => 12 | 'D' => 13 | 'd' => 13
  | 'E' => 14 | 'e' => 14 | 'F' => 15 | 'f' => 15
  | _ => 0

/-- str.c:319-327, the loop of `escape_hex`.  The arguments are `**str` onwards, `str[-1]`, `i` and `value` (a `char32_t`, so the
shift is modulo 2^32).  The result is the final value of `i`, `value`, `str[-1]` and the rest. -/
def hexLoop : List Char → Char → Nat → Nat → Nat × Nat × Char × List Char
  | c :: s, prev, i, value =>
    if c32isxdigit c && i < 8 then hexLoop s c (i + 1) ((value * 16 + c32unhex c) % 2 ^ 32)
    else (i, value, prev, c :: s)
  | [], prev, i, value => (i, value, prev, [])

/-- str.c:273-309 `c32sunescape`: the character (a code point) and the new `*str_`, or `none` for a bad escape.  The static buffers
used for the message are not modelled. -/
def c32sunescape (s : List Char) : Option (Nat × List Char) :=
  match s with
  | [] => some (0, s)
  | c :: t =>
    if c ≠ '\\' then some (c.toNat, s)
    else match t with
      | [] => none                       -- escape is NUL
      | e :: u =>
        if e = '\\' then some ('\\'.toNat, t)
        else if e = '"' then some ('"'.toNat, t)
        else if e = '\'' then some ('\''.toNat, t)
        else if e = '0' then some (0, t)
        else if e = 'e' then some (27, t)
        else if e = 't' then some (9, t)
        else if e = 'r' then some (13, t)
        else if e = 'n' then some (10, t)
        else if e = 'x' then
          match hexLoop u e 0 0 with     -- escape_hex, str.c:311-338
          | (i, value, prev, rest) => if i > 0 then some (value, prev :: rest) else none
        else none

/-- `iscntrl` for arguments up to 255, in the C locale (and UTF-8 locales). -/
def cIsCntrl (n : Nat) : Bool := n < 32 || n = 127

/-- Whether `c32rtomb` can encode a code point (trusted: exactly the Unicode scalar values). -/
def isScalar (n : Nat) : Bool := n < 0xD800 || (0xDFFF < n && n < 0x110000)

/-- types.c:97-141 `eval_rune`.  `iscntrl` is undefined for arguments above 255 (line 100). -/
def evalRune (t : Token) : Ev Nat :=
  match t.begin with
  | none => .ub
  | some [] => .ub                       -- begin + 1 is past the terminator
  | some (_ :: start) =>
    let c := match start with | [] => 0 | d :: _ => d.toNat
    if c > 255 then .ub
    else if cIsCntrl c then .controlChar
    else match c32sunescape start with
      | none => .badEscape
      | some (ret, start') =>
        match start' with
        | [] => .ub                      -- start[1] is past the terminator
        | _ :: rest =>
          if rest.head? ≠ some '\'' then .runeTooLong
          else if !isScalar ret then .illegalSeq
          else .ok ret

/-- Store a character in front of the result of the remaining iterations. -/
def consEv (v : Nat) : Option (Ev (List Nat)) → Option (Ev (List Nat))
  | some (.ok vs) => some (.ok (v :: vs))
  | r => r

/-- types.c:152-167, the loop of `eval_str`.  `bound` is the number of characters from `token->begin + token->len - 1` to the
end of the source, `room` the number of elements of `copy` not yet written. -/
def evalStrLoop : Nat → Nat → Nat → List Char → Option (Ev (List Nat))
  | 0, _, _, _ => none
  | fuel + 1, bound, room, str =>
    if str ≠ [] && str.length > bound then
      match c32sunescape str with
      | none => some .badEscape
      | some (v, str') =>
        if room = 0 then some .ub                -- write past the end of `copy`
        else match str' with
          | [] => some .ub                       -- step past the terminator
          | _ :: rest => consEv v (evalStrLoop fuel bound (room - 1) rest)
    else if room = 0 then some .ub               -- 168: no room for the terminator
    else some (.ok [])

/-- types.c:146-171 `eval_str`; `none` when the fuel (the number of characters plus one) runs out. -/
def evalStr (t : Token) : Option (Ev (List Nat)) :=
  match t.begin with
  | none => some .ub
  | some [] => some .ub
  | some (q :: str) => evalStrLoop (str.length + 1) ((q :: str).length - (t.len - 1)) (t.len - 1) str

end Skull
