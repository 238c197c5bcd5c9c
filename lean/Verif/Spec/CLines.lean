import Verif.Spec.CSyntax
import Verif.Spec.CWritable
import Verif.Spec.Uses
/-
Which lines of a C file come from which lines of the source (C11 6.10.4): the line behind `#line n "file"` is line `n` of `file`.
-/
namespace Skull.Spec.C

/-- The lines of a text. -/
def linesOf : List Char → List (List Char)
  | [] => [[]]
  | c :: s =>
    if c = '\n' then [] :: linesOf s
    else match linesOf s with | l :: r => (c :: l) :: r | [] => [[c]]

/-- A place in a file. -/
abbrev Place : Type := Nat × Option (List Char)

def isBlank (c : Char) : Bool := c = ' ' || c = '\t'

/-- The place that a line is a directive for, if it is one. -/
def directive (l : List Char) : Option Place :=
  match l.dropWhile isBlank with
  | '#' :: r =>
    match behind "line ".toList r with
    | some r =>
      if r.takeWhile isDigit = [] then none
      else some (decValue (r.takeWhile isDigit),
        match r.dropWhile isDigit with | ' ' :: '"' :: f => some (f.takeWhile (· ≠ '"')) | _ => none)
    | none => none
  | _ => none

/-- The lines that are not directives, each with the place that the directive right before it is for. -/
def placed : Option Place → List (List Char) → List (Option Place × List Char)
  | _, [] => []
  | p, l :: ls =>
    match directive l with
    | some q => placed (some q) ls
    | none => (p, l) :: placed none ls

/-- The place of a statement: the line of its first token. -/
def placeOf (file : List Char) (tok : List Token) : Option Place := tok.head?.map fun t => (t.line, some file)

/-- What should be told about the lines of statements, in order.  Every statement that is written where it stands has a line of its own,
with the place of the statement; then its block, and the line with the end of the block, about which nothing is told. -/
def places (file : List Char) (level : Nat) : ATree → List (Option Place)
  | .node ann stmt tok child next =>
    (if speaks level ann stmt then
      placeOf file tok ::
        (match stmt with
          | .ifs _ | .elifs _ | .elses | .whiles _ | .namespaces => places file (level + 1) child ++ [none]
          | _ => [])
      else []) ++ places file level next
  | _ => []

/-- The same for the lines outside of `init`: nothing is told about those of variables and external functions; the others begin with the
place of the function.  A function that is exported has another line before, and so has its place there. -/
def placesOutside (file : List Char) (level : Nat) : ATree → List (Option Place)
  | .node ann stmt tok child next =>
    (match stmt with
      | .varDef .. => match ann with | .varDef .. => if level = 1 then [none] else [] | _ => []
      | .funcProto p =>
        if p.isExternal then none :: (if p.isExport then [none] else [])
        else placesOutside file 1 child ++ placeOf file tok :: (if p.isExport then [none] else []) ++ places file 1 child ++ [none]
      | .ifs _ | .elifs _ | .elses | .whiles _ | .namespaces => placesOutside file (level + 1) child
      | _ => []) ++ placesOutside file level next
  | _ => []

/- ### Programs without newlines in their texts -/

/-- The text is in one line. -/
def OneLine (s : List Char) : Prop := '\n' ∉ s

mutual
/-- There is no newline in the strings of an expression. -/
def oneLineE : AExpr → Bool
  | .const _ (.str s) => s.all (· ≠ 10)
  | .const .. => true
  | .ident .. => true
  | .call _ args _ _ => oneLineA args
  | .un _ r _ _ => oneLineE r
  | .bin _ l r _ _ => oneLineE l && oneLineE r
def oneLineA : AArgs → Bool
  | .cons _ e next => oneLineE e && oneLineA next
  | _ => true
end

/-- There is none in the strings of the program. -/
def oneLineT : ATree → Bool
  | .node ann _ _ child next => ann.value.all oneLineE && oneLineT child && oneLineT next
  | _ => true

/-- Nor in names; and the names of variables and functions have no `#`. -/
def OneLineNames (syms : List Symbol) : Prop :=
  ∀ sym ∈ syms, OneLine sym.name ∧ (∀ f, sym.kind = .func f → '#' ∉ sym.name ∧ OneLine sym.linkageName) ∧
    ∀ v, sym.kind = .var v → OneLine v.name ∧ '#' ∉ v.name ∧ OneLine v.linkageName

end Skull.Spec.C
