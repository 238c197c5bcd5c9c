import Verif.Model.DebugTypes
import Verif.Spec.TypeSpec
import Verif.Spec.Verified
/-
How a debugger reads a variable from the description of its type.  LLVM writes the size of a basic type and of a pointer into the object
file in whole bytes (`DW_AT_byte_size`), rounded down (lib/CodeGen/AsmPrinter/DwarfUnit.cpp, `constructTypeDIE`).
-/
namespace Skull.Spec

/-- The bytes a value takes in memory (64 bit target). -/
def storeBytes : LTy → Nat
  | .void => 0
  | .i1 => 1
  | .i32 => 4
  | .i64 | .double | .ptr => 8

def DIType.bits : DIType → Nat
  | .basic _ n _ | .pointer _ n _ => n

def DIType.name : DIType → List Char
  | .basic n _ _ | .pointer n _ _ => n

/-- What a debugger makes of a number of bytes. -/
inductive Shown
  | number | fraction | truth | letter | nothing
  | to (s : Shown)
  deriving DecidableEq

/-- What the language says values of a type are. -/
def shownAs : Ty → Shown
  | .prim .void => .nothing
  | .prim .int => .number
  | .prim .float => .fraction
  | .prim .bool => .truth
  | .prim .rune => .letter
  | .prim .str => .to .letter
  | .ref t => .to (shownAs t)

/-- What the encoding says (DWARF 4, 7.8): nothing is read if there are no bytes. -/
def encShown : DIEnc → Shown
  | .signed => .number
  | .float => .fraction
  | .boolean => .truth
  | .signedChar | .utf => .letter

def debuggerShows : DIType → Shown
  | .basic _ bits enc => if bits / 8 = 0 then .nothing else encShown enc
  | .pointer _ _ inner => .to (debuggerShows inner)

/-- A debugger names the type as it is written, reads as many bytes as the variable has, and shows them as what they are. -/
def Describes (d : DIType) (ty : Ty) : Prop :=
  DIType.name d = typeSpelling ty ∧ DIType.bits d / 8 = storeBytes (lty ty) ∧ debuggerShows d = shownAs ty

/-- Whether the type is `Bool`, or a reference to it. -/
def EndsInBool : Ty → Prop
  | .prim p => p = .bool
  | .ref t => EndsInBool t

end Skull.Spec
