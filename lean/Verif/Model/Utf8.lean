/-
skull/common/str.c and io.c: reading a file and converting between bytes and UTF-32.

A NUL terminated byte string is the list of its bytes before the NUL.
The C library functions `mbrtoc32` and `c32rtomb` in a UTF-8 locale (local.c sets one) are modelled by what the standard
says of them: they convert exactly the Unicode scalar values, one at a time; other sequences set EILSEQ.
`MB_CUR_MAX` is at least 4.
-/
namespace Skull

/-- io.c:20-44 `file_to_string`: the buffer holds the file's bytes and a NUL; NULL for an empty file.
The file is assumed to be readable in one piece. -/
def fileToString (file : List UInt8) : Option (List UInt8) := if file = [] then none else some file

/-- The C string at the start of a buffer that holds `bytes` and a NUL. -/
def cString (bytes : List UInt8) : List UInt8 := bytes.takeWhile (· ≠ 0)

/-- A continuation byte. -/
def isCont (b : UInt8) : Bool := 0x80 ≤ b.toNat && b.toNat ≤ 0xBF

/-- Six bits of a continuation byte. -/
def contBits (b : UInt8) : Nat := b.toNat - 0x80

/-- The decoded value if it is a scalar value that needs at least this many bytes. -/
def scalarFrom (lo v n : Nat) : Option (Char × Nat) :=
  if lo ≤ v ∧ v.isValidChar then some (Char.ofNat v, n) else none

/-- The C library `mbrtoc32` on a NUL terminated string: the first character and the bytes it takes, `none` for EILSEQ.
At the end of the list the next byte is the NUL, which continues nothing. -/
def mbrtoc32 : List UInt8 → Option (Char × Nat)
  | [] => none
  | b0 :: rest =>
    let v0 := b0.toNat
    if v0 < 0x80 then some (Char.ofNat v0, 1)
    else if v0 < 0xC0 then none
    else if v0 < 0xE0 then
      match rest with
      | b1 :: _ => if isCont b1 then scalarFrom 0x80 ((v0 - 0xC0) * 64 + contBits b1) 2 else none
      | _ => none
    else if v0 < 0xF0 then
      match rest with
      | b1 :: b2 :: _ =>
        if isCont b1 && isCont b2 then
          scalarFrom 0x800 (((v0 - 0xE0) * 64 + contBits b1) * 64 + contBits b2) 3
        else none
      | _ => none
    else if v0 < 0xF8 then
      match rest with
      | b1 :: b2 :: b3 :: _ =>
        if isCont b1 && isCont b2 && isCont b3 then
          scalarFrom 0x10000 ((((v0 - 0xF0) * 64 + contBits b1) * 64 + contBits b2) * 64 + contBits b3) 4
        else none
      | _ => none
    else none

/-- str.c:119-134: the loop of `mbstoc32s`; `skip` bytes of the last character are left to step over. -/
def mbLoop : Nat → List UInt8 → Option (List Char)
  | _, [] => some []
  | skip + 1, _ :: rest => mbLoop skip rest
  | 0, b :: rest =>
    match mbrtoc32 (b :: rest) with
    | none => none
    | some (c, n) => if n = 0 then some [] else (mbLoop (n - 1) rest).map (c :: ·)

/-- str.c:109-141 `mbstoc32s`; `none` is the NULL returned after an error was reported. -/
def mbstoc32s (bytes : List UInt8) : Option (List Char) := mbLoop 0 bytes

/-- str.c:64-79: the loop of `c32stombs`; `c32rtomb` writes the character's UTF-8 encoding and cannot fail on a scalar value. -/
def c32stombs : List Char → List UInt8
  | [] => []
  | c :: s => String.utf8EncodeChar c ++ c32stombs s

/-- The text a file is compiled from: real_main.c:53 and pipeline.c:25; `none` when either step gives up. -/
def sourceText (file : List UInt8) : Option (List Char) :=
  (fileToString file).bind fun bytes => mbstoc32s (cString bytes)

end Skull
