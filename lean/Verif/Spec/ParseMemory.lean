import Verif.Spec.Statements
/-
Where the parser loses memory, said of the tokens alone.
-/
namespace Skull.Spec

/-- A block begins right after the end of a block, with nothing but newlines and commas between; `after` says whether a block ended
just before. -/
def blockAfterBlock : (after : Bool) → List Token → Bool
  | _, [] => false
  | after, t :: ts =>
    if t.ty = .bracketOpen then after || blockAfterBlock false ts
    else if t.ty = .bracketClose then blockAfterBlock true ts
    else if t.ty = .newline ∨ t.ty = .comma then blockAfterBlock after ts
    else blockAfterBlock false ts

/-- No namespace is called `}`.  (The parser takes any token for its name.) -/
def NamespacesNamed (toks : List Token) : Prop :=
  ∀ pre t n post, toks = pre ++ t :: n :: post → t.ty = .kwNamespace → n.ty ≠ .bracketClose

end Skull.Spec
