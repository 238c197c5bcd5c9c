/-
The lexical grammar of skull, stated without reference to the tokenizer.

A source text is a sequence of items: blanks, one-character delimiters, and chunks.  A chunk is a non-empty run of elements with no
blank or delimiter between them.  An element is a plain character, a quoted part, a line comment or a block comment.
A chunk with a comment in it is a comment token, any other chunk is a word token.
-/
namespace Skull.Spec

/-- Blanks separate tokens and belong to none. -/
def Blank (c : Char) : Prop := c = ' ' ∨ c = '\t' ∨ c = '\r'

/-- Each delimiter is a token of its own. -/
def Delim (c : Char) : Prop := c ∈ ['{', '}', '(', ')', ',', '\n', '&', '*']

/-- The two quotes. -/
def Quote (c : Char) : Prop := c = '\'' ∨ c = '"'

/-- The inside of a part quoted by `q`: any characters but `q`, where a backslash takes a following backslash or `q` with it. -/
inductive QuotedBody (q : Char) : List Char → Prop
  | nil : QuotedBody q []
  | escape {e s} : e = '\\' ∨ e = q → QuotedBody q s → QuotedBody q ('\\' :: e :: s)
  | plain {c s} : c ≠ q → (c = '\\' → ∃ d s', s = d :: s' ∧ d ≠ '\\') → QuotedBody q s → QuotedBody q (c :: s)

/-- The inside of a block comment: characters other than `#`, and pairs of `#` with a character other than a brace.
(In particular `##}` does not end a comment.) -/
inductive BlockBody : List Char → Prop
  | nil : BlockBody []
  | plain {c s} : c ≠ '#' → BlockBody s → BlockBody (c :: s)
  | hash {c s} : c ≠ '}' → c ≠ '{' → BlockBody s → BlockBody ('#' :: c :: s)

inductive Elem
  | plain (c : Char)
  | quoted (q : Char) (body : List Char)
  | line (start : Char) (body : List Char)
  | block (body : List Char)
  deriving DecidableEq, Repr

def Elem.text : Elem → List Char
  | .plain c => [c]
  | .quoted q body => q :: (body ++ [q])
  | .line start body => '#' :: start :: body
  | .block body => '#' :: '{' :: (body ++ ['#', '}'])

def Elem.isComment : Elem → Bool
  | .line _ _ => true
  | .block _ => true
  | _ => false

/-- The text of a run of elements. -/
def elemsText : List Elem → List Char
  | [] => []
  | e :: es => e.text ++ elemsText es

/-- The end of a line: end of file or a newline. -/
def LineEnd (s : List Char) : Prop := s = [] ∨ ∃ s', s = '\n' :: s'

/-- A well formed element in front of the text `s`. -/
def Elem.Ok : Elem → List Char → Prop
  | .plain c, _ => ¬ Blank c ∧ ¬ Delim c ∧ ¬ Quote c ∧ c ≠ '#'
  | .quoted q body, _ => Quote q ∧ QuotedBody q body
  | .line start body, s => (start = ' ' ∨ start = '\t') ∧ '\n' ∉ body ∧ LineEnd s
  | .block body, _ => BlockBody body

/-- A run of well formed elements in front of the text `s`. -/
def ElemsOk : List Elem → List Char → Prop
  | [], _ => True
  | e :: es, s => e.Ok (elemsText es ++ s) ∧ ElemsOk es s

/-- A text at which a chunk ends: the end of file, a blank or a delimiter. -/
def ChunkEnd (s : List Char) : Prop := s = [] ∨ ∃ c s', s = c :: s' ∧ (Blank c ∨ Delim c)

inductive Item
  | blank (c : Char)
  | delim (c : Char)
  | chunk (es : List Elem)
  deriving DecidableEq, Repr

def Item.text : Item → List Char
  | .blank c => [c]
  | .delim c => [c]
  | .chunk es => elemsText es

/-- The text of a sequence of items. -/
def itemsText : List Item → List Char
  | [] => []
  | i :: is => i.text ++ itemsText is

def Item.Ok : Item → List Char → Prop
  | .blank c, _ => Blank c
  | .delim c, _ => Delim c
  | .chunk es, s => es ≠ [] ∧ ElemsOk es s ∧ ChunkEnd s

/-- The grammar: a sequence of well formed items. -/
def ItemsOk : List Item → Prop
  | [] => True
  | i :: is => i.Ok (itemsText is) ∧ ItemsOk is

/-- `is` is a lexical analysis of `src`. -/
def Lexes (src : List Char) (is : List Item) : Prop := itemsText is = src ∧ ItemsOk is

/-- The kind of a token. -/
inductive Kind
  | delim (c : Char)
  | comment
  | word
  deriving DecidableEq, Repr

/-- What a user can observe of a token: where it starts (text before it), its text, and its kind. -/
structure Lexeme where
  before : List Char
  text : List Char
  kind : Kind
  deriving DecidableEq, Repr

/-- The tokens of a sequence of items that starts after the text `before`. -/
def lexemes (before : List Char) : List Item → List Lexeme
  | [] => []
  | .blank c :: is => lexemes (before ++ [c]) is
  | .delim c :: is => ⟨before, [c], .delim c⟩ :: lexemes (before ++ [c]) is
  | .chunk es :: is =>
    ⟨before, elemsText es, if es.any Elem.isComment then .comment else .word⟩ ::
      lexemes (before ++ elemsText es) is

/-- The characters of a text after its last newline. -/
def lastLine (s : List Char) : List Char := (s.reverse.takeWhile (· ≠ '\n')).reverse

/-- Line number of the position after the text `before`. -/
def lineAfter (before : List Char) : Nat := 1 + before.count '\n'

/-- Column number of the position after the text `before`. -/
def columnAfter (before : List Char) : Nat := 1 + (lastLine before).length

/-- A byte order mark at the start of a file is not part of the program. -/
def stripBom : List Char → List Char
  | c :: s => if c = Char.ofNat 0xFEFF then s else c :: s
  | [] => []

/-- Two lists of the same length whose elements are related in order. -/
inductive All2 {α β : Type} (R : α → β → Prop) : List α → List β → Prop
  | nil : All2 R [] []
  | cons {a b as bs} : R a b → All2 R as bs → All2 R (a :: as) (b :: bs)

end Skull.Spec
