import Verif.Model.Types
/-
Reference types as they are spelled.
-/
namespace Skull.Spec

/-- The spelling of a type: one `&` for every reference, then the name of the builtin type. -/
def typeSpelling : Ty → List Char
  | .prim p => p.name
  | .ref t => '&' :: typeSpelling t

/-- One construction of a type during a compilation: a builtin type, or a reference to the type that construction number `of` gave. -/
inductive TyOp
  | builtin (p : Prim)
  | refTo (of : Nat)

/-- The types a sequence of constructions stands for; a reference to a construction that does not exist is no type. -/
def tyRun (done : List (Option Ty)) : List TyOp → List (Option Ty)
  | [] => done
  | .builtin p :: ops => tyRun (done ++ [some (.prim p)]) ops
  | .refTo i :: ops => tyRun (done ++ [(done[i]?).join.map Ty.ref]) ops

end Skull.Spec
