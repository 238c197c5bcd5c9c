import Verif.Model.Semantic
import Verif.Spec.Words
/-
The names of the symbols of a program.
-/
namespace Skull.Spec
open Skull

/-- A letter, then letters, digits and underscores, and no word of the language. -/
def OwnName (x : List Char) : Prop := Name x ∧ x ∉ reserved.map String.toList

/-- The name under which a symbol of the module is linked. -/
def linkedAs (m : List Char) (exported : Bool) (name : List Char) : List Char := if exported then m ++ ['.'] ++ name else name

/-- Variables and functions have names of their own, and are linked under them. -/
def NamedIn (m : List Char) (sym : Symbol) : Prop :=
  match sym.kind with
  | .var v => OwnName sym.name ∧ v.name = sym.name ∧ v.linkageName = linkedAs m v.isExported sym.name
  | .func f => OwnName sym.name ∧ sym.linkageName = linkedAs m f.isExport sym.name
  | _ => True

/-- The first symbol is the program itself, under a name that no other symbol can have. -/
def IsEntry (m : List Char) (sym : Symbol) : Prop :=
  sym.name = '.' :: m ∧ sym.linkageName = '.' :: m ∧ ∀ v, sym.kind ≠ .var v

/-- The symbols of a program in this module. -/
def NamesOf (m : List Char) (syms : List Symbol) : Prop :=
  (∃ sym, syms[0]? = some sym ∧ IsEntry m sym) ∧ ∀ i sym, i ≠ 0 → syms[i]? = some sym → NamedIn m sym

end Skull.Spec
