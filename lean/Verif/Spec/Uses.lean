import Verif.Model.Semantic
/-
Which symbols a checked tree uses, read off the tree: every identifier, assignment and call names the symbol it stands for.
-/
namespace Skull

mutual
/-- The expression reads the variable. -/
def AExpr.reads (id : Nat) : AExpr → Bool
  | .ident _ sym _ _ => sym == id
  | .const .. => false
  | .call _ args _ _ => args.reads id
  | .un _ r _ _ => r.reads id
  | .bin _ l r _ _ => l.reads id || r.reads id
/-- Some argument reads the variable. -/
def AArgs.reads (id : Nat) : AArgs → Bool
  | .nil => false
  | .cons _ e next => e.reads id || next.reads id
  | .unchecked _ => false
end

mutual
/-- The expression calls the function. -/
def AExpr.calls (id : Nat) : AExpr → Bool
  | .ident .. => false
  | .const .. => false
  | .call _ args sym _ => sym == id || args.calls id
  | .un _ r _ _ => r.calls id
  | .bin _ l r _ _ => l.calls id || r.calls id
/-- Some argument calls the function. -/
def AArgs.calls (id : Nat) : AArgs → Bool
  | .nil => false
  | .cons _ e next => e.calls id || next.calls id
  | .unchecked _ => false
end

/-- The expression of a statement: the value of a definition, assignment or return, a condition, or a call. -/
def Ann.value : Ann → Option AExpr
  | .varDef _ e | .varAssign _ e | .expr e => some e
  | _ => Option.none

/-- The variable is read somewhere. -/
def ATree.reads (id : Nat) : ATree → Bool
  | .nil => false
  | .unchecked _ => false
  | .node ann _ _ child next => (ann.value.any (AExpr.reads id)) || child.reads id || next.reads id

/-- The function is called somewhere. -/
def ATree.calls (id : Nat) : ATree → Bool
  | .nil => false
  | .unchecked _ => false
  | .node ann _ _ child next => (ann.value.any (AExpr.calls id)) || child.calls id || next.calls id

/-- The variable is the target of the statement. -/
def Ann.assigns (id : Nat) : Ann → Bool
  | .varAssign sym _ => sym == id
  | _ => false

/-- The variable is assigned to somewhere. -/
def ATree.assigns (id : Nat) : ATree → Bool
  | .nil => false
  | .unchecked _ => false
  | .node ann _ _ child next => ann.assigns id || child.assigns id || next.assigns id

/-- The node is that of a function. -/
def Ann.isFunc : Ann → Bool
  | .func .. => true
  | _ => false

/-- `Within inF inB t ann stmt`: a node of the tree; `inF` says whether it is in a function, `inB` whether it is in a block. -/
inductive Within : (inF inB : Bool) → ATree → Ann → Stmt → Prop
  | here {ann stmt tok child next} : Within false false (.node ann stmt tok child next) ann stmt
  | next {f b ann stmt tok child next a st} : Within f b next a st → Within f b (.node ann stmt tok child next) a st
  | child {f b ann stmt tok child next a st} : Within f b child a st →
      Within (f || ann.isFunc) true (.node ann stmt tok child next) a st

/-- A warning about a declaration that stands in the node: a variable that is never read, though not exported; a `mut` variable that
is never assigned to; a function that is never called. -/
inductive Unused (t : ATree) : Ann → Stmt → PDiag → Prop
  | read {id e n rest isConst isImplicit x} : t.reads id = false →
      Unused t (.varDef id e) (.varDef (n :: rest) isConst isImplicit false x) ⟨.warnVarUnused, some n⟩
  | assigned {id e n rest isImplicit isExported x} : t.assigns id = false →
      Unused t (.varDef id e) (.varDef (n :: rest) false isImplicit isExported x) ⟨.warnVarNotConst, some n⟩
  | called {id ps p} : t.calls id = false → Unused t (.func id ps) (.funcProto p) ⟨.warnFuncUnused, some p.name⟩

/-- The warnings about declarations that are not used. -/
def isUnusedCode (c : Code) : Bool := c = .warnVarUnused || c = .warnVarNotConst || c = .warnFuncUnused

end Skull
