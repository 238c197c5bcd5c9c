/-
UTF-8 text, by the encoder of Lean's core library.
-/
namespace Skull.Spec

/-- The UTF-8 encoding of a text. -/
def utf8 (text : List Char) : List UInt8 := text.flatMap String.utf8EncodeChar

/-- The bytes are valid UTF-8. -/
def ValidUtf8 (bytes : List UInt8) : Prop := ∃ text, bytes = utf8 text

end Skull.Spec
