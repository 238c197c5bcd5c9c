import Verif.Model.Token
import Verif.Spec.Lexical
/-
How the tokens of the compiler (`Token`, a record with a pointer into the source) represent the lexemes of the grammar.
-/
namespace Skull.Spec

/-- The type that a token of each kind has before classification. -/
def kindType : Kind → TokType
  | .comment => .comment
  | .word => .unknown
  | .delim '{' => .bracketOpen
  | .delim '}' => .bracketClose
  | .delim '(' => .parenOpen
  | .delim ')' => .parenClose
  | .delim ',' => .comma
  | .delim '\n' => .newline
  | .delim '&' => .operRef
  | .delim _ => .unknown

/-- A position whose line has no quote or `#` before it. -/
def CleanLine (before : List Char) : Prop := ∀ c ∈ lastLine before, ¬ Quote c ∧ c ≠ '#'

/-- Token `t` represents lexeme `l` of the source `src`: it points at the lexeme's place in `src`, and has its length, type,
line, and (on a line with no quote or `#` before it) column. -/
structure Matches (src : List Char) (t : Token) (l : Lexeme) : Prop where
  begin : ∃ after, src = l.before ++ (l.text ++ after) ∧ t.begin = some (l.text ++ after)
  len : t.len = l.text.length
  ty : t.ty = kindType l.kind
  line : t.line = lineAfter l.before
  col : CleanLine l.before → t.col = columnAfter l.before

/-- A text cut into blanks and tokens: `Tiling s ts` when `ts` are slices of `s`, in order, not overlapping, not empty, and all
characters of `s` in none of them are blanks. -/
inductive Tiling : List Char → List Token → Prop
  | nil : Tiling [] []
  | blank {c s ts} : Blank c → Tiling s ts → Tiling (c :: s) ts
  | token {txt s t ts} : txt ≠ [] → t.begin = some (txt ++ s) → t.len = txt.length → Tiling s ts →
      Tiling (txt ++ s) (t :: ts)

/-- `tokenize` gives one placeholder token with no text when there is no token in the source (token.c:57, 79-83). -/
def realTokens (ts : List Token) : List Token := ts.filter (·.begin.isSome)

end Skull.Spec
