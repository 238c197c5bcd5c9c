import Verif.Model.Types
/-
skull/codegen/llvm/debug.c: the descriptions of types.

A type is given by what it stands for (`Ty`); its name is that of C32.  `CHAR_BIT` is 8, and a `double` has 8 bytes.
-/
namespace Skull

/-- debug.h:18-37 `DW_ATE`, as far as it is used. -/
inductive DIEnc
  | boolean | float | signed | signedChar | utf
  deriving DecidableEq, Repr

/-- What `LLVMDIBuilderCreateBasicType` and `LLVMDIBuilderCreatePointerType` make. -/
inductive DIType
  | basic (name : List Char) (bits : Nat) (enc : DIEnc)
  | pointer (name : List Char) (bits : Nat) (inner : DIType)
  deriving DecidableEq, Repr

/-- `type->name`: types.c:220-225 for the builtin types, and types.c:207-210 for references. -/
def diName : Ty → List Char
  | .prim p => p.name
  | .ref t => '&' :: diName t

/-- debug.c:140-196 `type_to_llvm_di_type`. -/
def typeToLlvmDiType : Ty → DIType
  | .prim .str => .pointer (diName (.prim .str)) 64 (.basic "char".toList 8 .signedChar)
  | .ref t => .pointer (diName (.ref t)) 64 (typeToLlvmDiType t)
  | .prim .bool => .basic (diName (.prim .bool)) 1 .boolean
  | .prim .int => .basic (diName (.prim .int)) 64 .signed
  | .prim .float => .basic (diName (.prim .float)) (8 * 8) .float
  | .prim .rune => .basic (diName (.prim .rune)) 32 .utf
  | .prim .void => .basic (diName (.prim .void)) 0 .signed

/-- debug.c:224-236 `type_to_di_type`, with debug.c:55-59; `none` is `NULL`. -/
def typeToDiType : Ty → Option DIType
  | .prim .bool => some (typeToLlvmDiType (.prim .bool))
  | .prim .int => some (typeToLlvmDiType (.prim .int))
  | .prim .float => some (typeToLlvmDiType (.prim .float))
  | .prim .rune => some (typeToLlvmDiType (.prim .rune))
  | .prim .str => some (typeToLlvmDiType (.prim .str))
  | .prim .void => none
  | .ref t => some (typeToLlvmDiType (.ref t))

end Skull
