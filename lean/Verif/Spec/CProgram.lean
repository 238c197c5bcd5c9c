import Verif.Spec.CSyntax
/-
The part of C's grammar in which the back end writes programs: statements (C11 6.8), declarations (6.7) and what stands outside functions
(6.9), with `__asm__` names.  Nothing of the model is used.

The bodies of `if`, `else` and `while` are blocks.  Identifiers are names of types exactly if they are among `typeNames`.
-/
namespace Skull.Spec.C

/-- Types: names of types, and pointers to them. -/
inductive CType
  | base (s : List Char)
  | ptr (t : CType)
  deriving DecidableEq, Repr

/-- The names of types that are written: keywords and the names that the headers define. -/
def typeNames : List (List Char) := ["int64_t", "double", "char32_t", "char", "bool", "void", "int"].map String.toList

inductive GType : List Tok → CType → Prop
  | base {s} : s ∈ typeNames → GType [.id s] (.base s)
  | ptr {t ty} : GType t ty → GType (t ++ [.p ['*']]) (.ptr ty)

/-- Statements without statements in them.  `skip` is `(void)0;`. -/
inductive Simple
  | decl (isConst : Bool) (ty : CType) (x : List Char) (e : Exp)
  | assign (x : List Char) (e : Exp)
  | expr (e : Exp)
  | skip
  | ret (e : Option Exp)
  | breaks
  | continues

/-- Statements, one after the other.  An `if` without `else` has nothing there; `else if` is an `else` with that `if` in it. -/
inductive Stms
  | nil
  | simple (s : Simple) (next : Stms)
  | ifs (e : Exp) (then' else' next : Stms)
  | whiles (e : Exp) (body next : Stms)
  | block (body next : Stms)

/-- A keyword. -/
def kw (s : String) : Tok := .id s.toList

/-- A punctuator. -/
def pn (s : String) : Tok := .p s.toList

/-- Names of objects and functions. -/
def IsIdent (x : List Char) : Prop := x ∉ keywords ∧ x ∉ typeNames

/-- A word that may stand or not. -/
def opt (b : Bool) (s : String) : List Tok := if b then [kw s] else []

/-- Statements without statements in them. -/
inductive GSimple : List Tok → Simple → Prop
  | decl {c tt ty x t e} : GType tt ty → IsIdent x → G 1 t e →
      GSimple (opt c "const" ++ tt ++ .id x :: pn "=" :: (t ++ [pn ";"])) (.decl c ty x e)
  | assign {x t e} : IsIdent x → G 1 t e → GSimple (.id x :: pn "=" :: (t ++ [pn ";"])) (.assign x e)
  | expr {t e} : G 0 t e → (∀ s ∈ typeNames, t.head? ≠ some (.id s)) → GSimple (t ++ [pn ";"]) (.expr e)
  | skip : GSimple [pn "(", kw "void", pn ")", .num ['0'], pn ";"] .skip
  | ret : GSimple [kw "return", pn ";"] (.ret none)
  | retValue {t e} : G 0 t e → GSimple (kw "return" :: (t ++ [pn ";"])) (.ret (some e))
  | breaks : GSimple [kw "break", pn ";"] .breaks
  | continues : GSimple [kw "continue", pn ";"] .continues

mutual
/-- Statements. -/
inductive GS : List Tok → Stms → Prop
  | nil : GS [] .nil
  | simple {t s tn next} : GSimple t s → GS tn next → GS (t ++ tn) (.simple s next)
  | ifs {t e tb b te els tn next} : G 0 t e → GS tb b → GElse te els → GS tn next →
      GS (kw "if" :: pn "(" :: (t ++ pn ")" :: pn "{" :: (tb ++ pn "}" :: (te ++ tn)))) (.ifs e b els next)
  | whiles {t e tb b tn next} : G 0 t e → GS tb b → GS tn next →
      GS (kw "while" :: pn "(" :: (t ++ pn ")" :: pn "{" :: (tb ++ pn "}" :: tn))) (.whiles e b next)
  | block {tb b tn next} : GS tb b → GS tn next → GS (pn "{" :: (tb ++ pn "}" :: tn)) (.block b next)
/-- The `else` of an `if`, if there is one. -/
inductive GElse : List Tok → Stms → Prop
  | none : GElse [] .nil
  | els {tb b} : GS tb b → GElse (kw "else" :: pn "{" :: (tb ++ [pn "}"])) b
  | elif {t e tb b te els} : G 0 t e → GS tb b → GElse te els →
      GElse (kw "else" :: kw "if" :: pn "(" :: (t ++ pn ")" :: pn "{" :: (tb ++ pn "}" :: te))) (.ifs e b els .nil)
end

/-- What stands outside functions: objects, functions that are declared, and functions with their statements. -/
inductive Item
  | object (isStatic isConst : Bool) (ty : CType) (x : List Char) (link : Option (List Char)) (init : Option Exp)
  | proto (isStatic : Bool) (ty : CType) (f : List Char) (params : List (CType × List Char)) (link : Option (List Char))
  | func (isStatic : Bool) (ty : CType) (f : List Char) (params : List (CType × List Char)) (body : Stms)

/-- The name that the linker gets to see. -/
inductive GLink : List Tok → Option (List Char) → Prop
  | none : GLink [] none
  | some {s} : GLink [.id "__asm__".toList, pn "(", .str s, pn ")"] (some s)

inductive GInit : List Tok → Option Exp → Prop
  | none : GInit [] none
  | some {t e} : G 1 t e → GInit (pn "=" :: t) (some e)

/-- Parameters, separated by commas. -/
inductive GParamList : List Tok → List (CType × List Char) → Prop
  | one {tt ty x} : GType tt ty → IsIdent x → GParamList (tt ++ [.id x]) [(ty, x)]
  | cons {tt ty x tp ps} : GType tt ty → IsIdent x → GParamList tp ps → GParamList (tt ++ .id x :: pn "," :: tp) ((ty, x) :: ps)

inductive GParams : List Tok → List (CType × List Char) → Prop
  | none : GParams [kw "void"] []
  | some {t ps} : GParamList t ps → GParams t ps

/-- A file without its directives. -/
inductive GUnit : List Tok → List Item → Prop
  | nil : GUnit [] []
  | object {st c tt ty x tl link ti init tn next} : GType tt ty → IsIdent x → GLink tl link → GInit ti init → GUnit tn next →
      GUnit (opt st "static" ++ opt c "const" ++ tt ++ .id x :: (tl ++ ti ++ pn ";" :: tn)) (.object st c ty x link init :: next)
  | proto {st tt ty f tp ps tl link tn next} : GType tt ty → IsIdent f → GParams tp ps → GLink tl link → GUnit tn next →
      GUnit (opt st "static" ++ tt ++ .id f :: pn "(" :: (tp ++ pn ")" :: (tl ++ pn ";" :: tn))) (.proto st ty f ps link :: next)
  | func {st tt ty f tp ps tb b tn next} : GType tt ty → IsIdent f → GParams tp ps → GS tb b → GUnit tn next →
      GUnit (opt st "static" ++ tt ++ .id f :: pn "(" :: (tp ++ pn ")" :: pn "{" :: (tb ++ pn "}" :: tn))) (.func st ty f ps b :: next)

end Skull.Spec.C
