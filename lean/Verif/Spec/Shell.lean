/-
How a POSIX shell reads a simple command (XCU 2.2 Quoting, 2.3 Token Recognition).
-/
namespace Skull.Spec

/-- Characters that stand for themselves outside quotes. -/
def plainChar (c : Char) : Bool := c.isAlphanum || c ∈ ['-', '_', '.', '/', ',', ':', '+', '@', '%', '=']

/-- Characters that do not stand for themselves between double quotes. -/
def specialQuoted (c : Char) : Bool := c ∈ ['"', '$', '`', '\\']

/-- The words of a command.  `quoted` tells whether a double quote is open, `cur` is the word that has begun.  There is no answer when
anything but plain characters, blanks and double quotes would have to be understood. -/
def shWords : Bool → Option (List Char) → List Char → Option (List (List Char))
  | false, cur, [] => some cur.toList
  | true, _, [] => none
  | false, cur, c :: cs =>
    if c = ' ' then (shWords false none cs).map (cur.toList ++ ·)
    else if c = '"' then shWords true (some (cur.getD [])) cs
    else if plainChar c then shWords false (some (cur.getD [] ++ [c])) cs
    else none
  | true, cur, c :: cs =>
    if c = '"' then shWords false cur cs
    else if specialQuoted c then none
    else shWords true (some (cur.getD [] ++ [c])) cs

end Skull.Spec
