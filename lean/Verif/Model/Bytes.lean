/-
`char` strings and buffers.

A NUL terminated `char` string is the list of its bytes before the NUL, each byte given as the character with that code.
A buffer from `Malloc` is a list of cells, `none` until written.
Writing outside a buffer, reading outside it, or reading a cell that was not written is the outcome `none`.
`size_t` arithmetic is modulo 2^64.
-/
namespace Skull

/-- `a + b` in `size_t`. -/
def addSize (a b : Nat) : Nat := (a + b) % 2 ^ 64

/-- `a - b` in `size_t`. -/
def subSize (a b : Nat) : Nat := (a + 2 ^ 64 - b) % 2 ^ 64

abbrev Buf := List (Option Char)

/-- malloc.c:11-17 `Malloc`; exits the program when there is no memory, which is not modelled. -/
def malloc (n : Nat) : Buf := List.replicate n none

/-- `buf[i] = c`. -/
def putByte (buf : Buf) (i : Nat) (c : Char) : Option Buf :=
  if i < buf.length then some (buf.set i (some c)) else none

/-- The C library `strncpy(buf + off, src, n)`: writes exactly `n` bytes, padding with NUL. -/
def strncpyTo (buf : Buf) (off : Nat) (src : List Char) (n : Nat) : Option Buf :=
  if off + n ≤ buf.length then
    some (buf.take off ++ ((src.take n ++ List.replicate (n - src.length) '\x00').map some) ++ buf.drop (off + n))
  else none

/-- The string that starts at the beginning of the buffer. -/
def readStr : Buf → Option (List Char)
  | [] => none
  | none :: _ => none
  | some c :: rest => if c = '\x00' then some [] else (readStr rest).map (c :: ·)

/-- The C library `strrchr(s, '/')`: the offset of the last slash. -/
def lastSlash : List Char → Option Nat
  | [] => none
  | c :: s =>
    match lastSlash s with
    | some i => some (i + 1)
    | none => if c = '/' then some 0 else none

end Skull
