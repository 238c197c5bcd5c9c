/-
skull/common/str.c: UTF-32 string helpers.

A `const char32_t *` is the list of characters from the pointer to the terminating NUL (the characters of a list are not NUL).
-/
namespace Skull

/-- str.c:148-157 `c32scmp`. -/
def c32scmp : List Char → List Char → Bool
  | a :: as, b :: bs => if a ≠ b then false else c32scmp as bs
  | [], [] => true
  | _, _ => false

/-- str.c:162-175 `c32sncmp`. -/
def c32sncmp : List Char → List Char → Nat → Bool
  | a :: as, b :: bs, n + 1 => if a ≠ b then false else c32sncmp as bs n
  | _, _, n => n = 0

/-- str.c:180-184 `c32isxdigit`. -/
def c32isxdigit (c : Char) : Bool :=
  ('0' ≤ c && c ≤ '9') || ('a' ≤ c && c ≤ 'f') || ('A' ≤ c && c ≤ 'F')

/-- str.c:198-200 `c32isdigit`. -/
def c32isdigit (c : Char) : Bool := '0' ≤ c && c ≤ '9'

/-- str.c:189-193 `c32isalnum`. -/
def c32isalnum (c : Char) : Bool :=
  c32isdigit c || ('A' ≤ c && c ≤ 'Z') || ('a' ≤ c && c ≤ 'z')

/-- str.c:228-236 `c32schr`, as a test (the only use, classify.c:118). -/
def c32schr (c : Char) : List Char → Bool
  | [] => false
  | d :: s => if d = c then true else c32schr c s

end Skull
