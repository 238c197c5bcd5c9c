import Verif.Model.Semantic
/-
Which checked programs can be written as C: every block has a statement that is written where it stands.
-/
namespace Skull.Spec

/-- The statement is written where it stands, and not, like functions, outside of all functions, or not at all.  `level` is 1 for
statements outside functions, and for those of a function itself; variables there whose value is known are not written where they
stand. -/
def speaks (level : Nat) (ann : Ann) : Stmt → Bool
  | .varDef .. =>
    match ann with
    | .varDef _ e => level != 1 || !e.isConstExpr
    | _ => false
  | .funcProto _ | .imports | .comment | .unknown => false
  | _ => true

/-- One of the statements is. -/
def Speaks (level : Nat) : ATree → Bool
  | .node ann stmt _ _ next => speaks level ann stmt || Speaks level next
  | _ => false

/-- Every block has a statement that is written where it stands. -/
def Writable : Nat → ATree → Prop
  | _, .nil => True
  | _, .unchecked _ => False
  | level, .node _ stmt _ child next =>
    (match stmt with
      | .ifs _ | .elifs _ | .elses | .whiles _ | .namespaces => Speaks (level + 1) child = true ∧ Writable (level + 1) child
      | .funcProto p => p.isExternal = false → Speaks 1 child = true ∧ Writable 1 child
      | _ => True) ∧ Writable level next

end Skull.Spec
