import Verif.Model.HashTable
import Verif.Model.Bytes
/-
skull/semantic/types.c: the types and the table of reference types.

A `const Type *` is the address of one of the six builtin types or of a type made by `get_reference_type`, which is given by the
order in which it was made.
-/
namespace Skull

/-- types.c:220-225, the builtin types. -/
inductive Prim
  | bool | int | float | rune | str | void
  deriving DecidableEq, Repr

/-- types.c:220-225, the field `name`. -/
def Prim.name : Prim → List Char
  | .bool => "Bool".toList
  | .int => "Int".toList
  | .float => "Float".toList
  | .rune => "Rune".toList
  | .str => "Str".toList
  | .void => "Void".toList

/-- types.c:227-235 `TYPES_BUILTIN`. -/
def typesBuiltin : List Prim := [.bool, .int, .float, .rune, .str, .void]

/-- types.c:187-197, the loop of `find_builtin_type`. -/
def findBuiltinLoop (name : List Char) : List Prim → Option Prim
  | [] => none
  | p :: ps => if name = p.name then some p else findBuiltinLoop name ps

/-- types.c:187-197 `find_builtin_type`. -/
def findBuiltinType (name : List Char) : Option Prim := findBuiltinLoop name typesBuiltin

/-- What a type stands for: a builtin type, or a reference to another type. -/
inductive Ty
  | prim (p : Prim)
  | ref (inner : Ty)
  deriving DecidableEq, Repr

/-- A `const Type *`. -/
inductive TyPtr
  | builtin (p : Prim)
  | dyn (i : Nat)
  deriving DecidableEq, Repr

/-- types.h:30-37 `Type`, for the types that are allocated. -/
structure DynType where
  name : List Char
  inner : TyPtr
  deriving DecidableEq, Repr

/-- The allocated types and `state->dynamic_refs`. -/
structure TypeState where
  dyn : List DynType := []
  refs : Option (HashTable Nat) := none

/-- `type->name`; `none` for a dangling pointer. -/
def typeName (ts : TypeState) : TyPtr → Option (List Char)
  | .builtin p => some p.name
  | .dyn i => (ts.dyn[i]?).map DynType.name

/-- types.c:207-210: the name of the new type. -/
def refName (name : List Char) : Option (List Char) :=
  let len := name.length
  let buf := malloc (addSize len 2)
  (putByte buf 0 '&').bind fun buf =>
  (strncpyTo buf 1 name (addSize len 1)).bind fun buf =>
  readStr buf

/-- types.c:202: the table, made on first use. -/
def refsOrNew : Option (HashTable Nat) → HashTable Nat
  | some ht => ht
  | none => makeHt Nat

/-- types.c:199-218 `get_reference_type`; the outer `none` is an undefined operation. -/
def getReferenceType (ts : TypeState) (type : Option TyPtr) : Option (Option TyPtr × TypeState) :=
  match type with
  | none => some (none, ts)
  | some type =>
    let refs := refsOrNew ts.refs
    match typeName ts type with
    | none => none
    | some name =>
      match htGet (some refs) name with
      | none => none
      | some (some found) => some (some (.dyn found), { ts with refs := some refs })
      | some none =>
        match refName name with
        | none => none
        | some newName =>
          let newType : Nat := ts.dyn.length
          match htAdd (some refs) name (some newType) with
          | none => none
          | some (refs, _) => some (some (.dyn newType), ⟨ts.dyn ++ [⟨newName, type⟩], refs⟩)

/-- types.c:299-301 `is_reference`, with the inner type. -/
def innerType (ts : TypeState) : TyPtr → Option (Option TyPtr)
  | .builtin _ => some none
  | .dyn i => (ts.dyn[i]?).map fun d => some d.inner

end Skull
