import Verif.Model.Errors
/-
What a diagnostic looks like.
-/
namespace Skull.Spec

/-- `out` is the template with its `%s` replaced by the texts, in order. -/
inductive Fills : List Char → List (List UInt8) → List UInt8 → Prop
  | nil : Fills [] [] []
  | lit {c f ts out} : c ≠ '%' → Fills f ts out → Fills (c :: f) ts (UInt8.ofNat c.toNat :: out)
  | arg {f t ts out} : Fills f ts out → Fills ('%' :: 's' :: f) (t :: ts) (t ++ out)

/-- The contents of one message of a diagnostic. -/
structure Arg where
  kind : ArgKind
  loc : ErrLoc
  bytes : List UInt8
  chars : List Char
  num : Nat

/-- The text a message stands for, if it stands for one. -/
def Arg.text (a : Arg) : Option (List UInt8) :=
  match a.kind with
  | .zero | .loc => none
  | .tok | .locStr32 => some (a.chars.flatMap String.utf8EncodeChar)
  | .locReal | .locStr | .locType | .locVar | .real | .str | .type => some a.bytes
  | .num => some ((toString a.num).toList.map fun c => UInt8.ofNat c.toNat)

/-- The message says where in the source the problem is. -/
def Located : ArgKind → Bool
  | .tok | .loc | .locReal | .locStr | .locType | .locVar | .locStr32 => true
  | _ => false

/-- The place of the first message: `line L column C: `, or nothing when the message has no place. -/
def place : List Arg → List UInt8
  | a :: _ =>
    if Located a.kind && a.loc.line != 0 then
      ascii "line " ++ ascii (toString a.loc.line) ++ ascii " column " ++ ascii (toString a.loc.col) ++ ascii ": "
    else []
  | [] => []

def heading (color : Bool) : DiagKind → List UInt8
  | .fatal => if color then ascii ": \x1b[1m\x1b[91mCompilation error\x1b[0m: " else ascii ": Compilation error: "
  | .warning => if color then ascii ": \x1b[1m\x1b[93mWarning\x1b[0m: " else ascii ": Warning: "

end Skull.Spec
