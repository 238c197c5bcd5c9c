import Verif.Spec.Relabel
import Verif.Model.Semantic
import Verif.Spec.Words
/-
Checked trees whose tokens are replaced by others, and tokens that mean the same.
-/
namespace Skull.Spec

/-- Two tokens have the same kind and the same text, and are literals for the same value if they are literals.  The text does not
settle the value: the evaluation of an integer or a rune reads past the end of the token. -/
structure SameMeaning (t t' : Token) : Prop where
  kind : t.ty = t'.ty
  text : tokenToString t = tokenToString t'
  int : t.ty = .intConst → evalInteger t = evalInteger t'
  float : t.ty = .floatConst → ∀ (strtod : List Char → Nat × Bool) (a b c : Nat), evalFloat strtod a b c t = evalFloat strtod a b c t'
  bool : t.ty = .boolConst → evalBool t = evalBool t'
  rune : t.ty = .runeConst → evalRune t = evalRune t'
  str : t.ty = .strConst → evalStr t = evalStr t'

/-- Tokens are replaced by ones that mean the same; their places may be others. -/
def KeepsMeaning (e : Token → Token) : Prop := ∀ t, SameMeaning t (e t)

mutual
def relabelAE (e : Token → Token) : AExpr → AExpr
  | .ident t id ty c => .ident (e t) id ty c
  | .const t v => .const (e t) v
  | .call t as id ty => .call (e t) (relabelAA e as) id ty
  | .un o r ty c => .un o (relabelAE e r) ty c
  | .bin o l r ty c => .bin o (relabelAE e l) (relabelAE e r) ty c
def relabelAA (e : Token → Token) : AArgs → AArgs
  | .nil => .nil
  | .cons t x next => .cons (e t) (relabelAE e x) (relabelAA e next)
  | .unchecked rest => .unchecked (relabelA e rest)
end

def relabelAnn (e : Token → Token) : Ann → Ann
  | .none => .none
  | .varDef id x => .varDef id (relabelAE e x)
  | .varAssign id x => .varAssign id (relabelAE e x)
  | .func id ps => .func id ps
  | .expr x => .expr (relabelAE e x)
  | .ns id => .ns id

/-- The checked tree with other tokens. -/
def relabelAT (e : Token → Token) : ATree → ATree
  | .nil => .nil
  | .unchecked t => .unchecked (relabel e t)
  | .node ann st tok child next => .node (relabelAnn e ann) (relabelS e st) (tok.map e) (relabelAT e child) (relabelAT e next)

def relabelSym (e : Token → Token) (s : Symbol) : Symbol := { s with loc := s.loc.map e }

/-- The state of the check with other tokens: symbols and diagnostics are at them. -/
def relabelSS (e : Token → Token) (s : SS) : SS :=
  { s with syms := s.syms.map (relabelSym e), diags := s.diags.map (relabelDiag e) }

/-- The result of the check with other tokens. -/
def relabelSRes (e : Token → Token) : SRes ATree → SRes ATree
  | .ok a s => .ok (relabelAT e a) (relabelSS e s)
  | .fail s => .fail (relabelSS e s)
  | .ub => .ub

/-- Two tokens have the same kind and the same text. -/
def SameText (t t' : Token) : Prop := t.ty = t'.ty ∧ tokenToString t = tokenToString t'

/-- The second character behind an integer is no underscore, or the integer has no base prefix (C11). -/
def ClearOfUnderscore (t : Token) : Prop := t.ty = .intConst → ∀ b, t.begin = some b →
  (b.drop t.len)[1]? ≠ some '_' ∨ Digit ((b.take t.len)[1]?.getD '0')

/-- Two lists are of the same length, and their elements are related one by one. -/
inductive Paired (R : α → α → Prop) : List α → List α → Prop
  | nil : Paired R [] []
  | cons {a b l l'} : R a b → Paired R l l' → Paired R (a :: l) (b :: l')

/-- The tokens of a source text. -/
def TokensOf (w : Bool) (src : List Char) (toks : List Token) : Prop :=
  ∃ ts, tokenize w src = some (.ok ts) ∧ classifyTokens ts = some toks

end Skull.Spec
