/-
What a path is made of.
-/
namespace Skull.Spec

/-- A string has no NUL byte, as every C string. -/
def NulFree (s : List Char) : Prop := '\x00' ∉ s

/-- The directory part of a path: nothing, or something that ends in a slash. -/
def IsDir (d : List Char) : Prop := d = [] ∨ ∃ d', d = d' ++ ['/']

/-- A path component. -/
def IsBase (b : List Char) : Prop := '/' ∉ b

end Skull.Spec
