import Verif.Model.Parser
/-
Trees whose tokens are replaced by others.
-/
namespace Skull.Spec

/-- A token is replaced by one of the same kind; its text and its place may be others. -/
def KeepsKind (e : Token → Token) : Prop := ∀ t, (e t).ty = t.ty

mutual
def relabelE (e : Token → Token) : Expr → Expr
  | .missing => .missing
  | .ident t => .ident (e t)
  | .const t => .const (e t)
  | .call t as n => .call (e t) (relabelA e as) n
  | .un o r => .un o (relabelE e r)
  | .bin o l r => .bin o (relabelE e l) (relabelE e r)
def relabelA (e : Token → Token) : Args → Args
  | .nil => .nil
  | .cons t x next => .cons (e t) (relabelE e x) (relabelA e next)
end

def relabelParam (e : Token → Token) (p : Param) : Param := ⟨e p.name, p.type.map e⟩

def relabelProto (e : Token → Token) (p : FuncProto) : FuncProto :=
  ⟨e p.name, p.returnType.map (List.map e), p.isExternal, p.isExport, p.params.map (relabelParam e), p.numParams⟩

def relabelS (e : Token → Token) : Stmt → Stmt
  | .varDef name a b c x => .varDef (name.map e) a b c (relabelE e x)
  | .varAssign x => .varAssign (relabelE e x)
  | .funcProto p => .funcProto (relabelProto e p)
  | .expr x => .expr (relabelE e x)
  | .ret x => .ret (relabelE e x)
  | .ifs x => .ifs (relabelE e x)
  | .elifs x => .elifs (relabelE e x)
  | .whiles x => .whiles (relabelE e x)
  | st => st

/-- The tree with other tokens. -/
def relabel (e : Token → Token) : Tree → Tree
  | .nil => .nil
  | .node st tok tokEnd child next => .node (relabelS e st) (tok.map e) (tokEnd.map e) (relabel e child) (relabel e next)

def relabelDiag (e : Token → Token) (d : PDiag) : PDiag := ⟨d.code, d.at?.map e⟩

def relabelPS (e : Token → Token) (s : PS) : PS := ⟨s.toks.map e, s.err, s.diags.map (relabelDiag e)⟩

/-- The result of the parser with other tokens. -/
def relabelRes (e : Token → Token) : TRes → TRes
  | .ok t s => .ok (t.map (relabel e)) (relabelPS e s)
  | .ub => .ub
  | .fuel => .fuel

end Skull.Spec
