import Verif.Spec.Grammar
/-
Statements as they are written, independently of the parser.  A list of tokens stands for a position: the tokens from there on.
-/
namespace Skull.Spec

/-- The tokens are an expression, and the tree has its operands and operators in order, and the number of arguments with every
call; its identifiers are names, its constants literals, and its operators have as many operands as
they are written with. -/
def ExprOf (toks : List Token) (e : Expr) : Prop :=
  (∃ c : Chain, c.WF ∧ c.tokens = toks) ∧ readExpr e = items toks ∧ NumsOf e ∧ LeavesOf e ∧ OpersOf e

/-- A type: a name, possibly after ampersands. -/
inductive TypeOf : List Token → Prop
  | name {t : Token} : isName t = true → TypeOf [t]
  | ref {t : Token} {ts : List Token} : t.ty = .operRef → TypeOf ts → TypeOf (t :: ts)

/-- The parameters of a function, from the first position to the second.  A comma may follow the last one. -/
inductive ParamsOf : List Token → List Token → List Param → Prop
  | none {ts : List Token} : ParamsOf ts ts []
  | last {n : Token} {ty ts : List Token} : n.ty = .newIdentifier → TypeOf ty → ParamsOf (n :: (ty ++ ts)) ts [⟨n, ty ++ ts⟩]
  | more {n c : Token} {ty ts rest : List Token} {ps : List Param} : n.ty = .newIdentifier → TypeOf ty → c.ty = .comma →
      ParamsOf ts rest ps → ParamsOf (n :: (ty ++ c :: ts)) rest (⟨n, ty ++ c :: ts⟩ :: ps)

/-- The marks before a declaration: none, `mut` or `export`. -/
inductive DeclMark : List Token → (isConst isExported : Bool) → Prop
  | none : DeclMark [] true false
  | mut {t : Token} : t.ty = .kwMut → DeclMark [t] false false
  | export {t : Token} : t.ty = .kwExport → DeclMark [t] true true

/-- The marks before a function: none, `external` or `export`. -/
inductive FuncMark : List Token → (isExternal isExport : Bool) → Prop
  | none : FuncMark [] false false
  | external {t : Token} : t.ty = .kwExternal → FuncMark [t] true false
  | export {t : Token} : t.ty = .kwExport → FuncMark [t] false true

/-- The return type of a function, from the first position to the second. -/
inductive RetOf : List Token → List Token → Option (List Token) → Prop
  | none {ts : List Token} : RetOf ts ts none
  | some {ty ts : List Token} : TypeOf ty → RetOf (ty ++ ts) ts (some (ty ++ ts))

/-- The statement written from the first position to the second. -/
inductive Written : List Token → List Token → Stmt → Prop
  | return {t : Token} {ts : List Token} : t.ty = .kwReturn → Written (t :: ts) ts (.ret .missing)
  | returnExpr {t : Token} {ex ts : List Token} {e : Expr} : t.ty = .kwReturn → ExprOf ex e →
      Written (t :: (ex ++ ts)) ts (.ret e)
  | if {t : Token} {ex ts : List Token} {e : Expr} : t.ty = .kwIf → ExprOf ex e → Written (t :: (ex ++ ts)) ts (.ifs e)
  | elif {t : Token} {ex ts : List Token} {e : Expr} : t.ty = .kwElif → ExprOf ex e → Written (t :: (ex ++ ts)) ts (.elifs e)
  | while {t : Token} {ex ts : List Token} {e : Expr} : t.ty = .kwWhile → ExprOf ex e → Written (t :: (ex ++ ts)) ts (.whiles e)
  | else {t : Token} {ts : List Token} : t.ty = .kwElse → Written (t :: ts) ts .elses
  | unreachable {t : Token} {ts : List Token} : t.ty = .kwUnreachable → Written (t :: ts) ts .unreachable
  | comment {t : Token} {ts : List Token} : t.ty = .comment → Written (t :: ts) ts .comment
  | noop {t : Token} {ts : List Token} : t.ty = .kwNoop → Written (t :: ts) ts .noop
  | break {t : Token} {ts : List Token} : t.ty = .kwBreak → Written (t :: ts) ts .breaks
  | continue {t : Token} {ts : List Token} : t.ty = .kwContinue → Written (t :: ts) ts .continues
  | namespace {t n : Token} {ts : List Token} : t.ty = .kwNamespace → Written (t :: n :: ts) ts .namespaces
  | import {t n : Token} {ts : List Token} : t.ty = .kwImport → n.ty = .identifier → Written (t :: n :: ts) ts .imports
  | implicit {mark : List Token} {n q : Token} {ex ts : List Token} {cst exported : Bool} {e : Expr} :
      DeclMark mark cst exported → n.ty = .identifier → q.ty = .operAutoEqual → ExprOf ex e →
      Written (mark ++ n :: q :: (ex ++ ts)) ts (.varDef (n :: q :: (ex ++ ts)) cst true exported e)
  /-- `sep` is any token: see C30. -/
  | explicit {mark : List Token} {n sep : Token} {ty ex ts : List Token} {cst exported : Bool} {e : Expr} :
      DeclMark mark cst exported → n.ty = .newIdentifier → TypeOf ty → ExprOf ex e →
      Written (mark ++ n :: (ty ++ sep :: (ex ++ ts))) ts (.varDef (n :: (ty ++ sep :: (ex ++ ts))) cst false exported e)
  | assign {n q : Token} {ex ts : List Token} {e : Expr} : isName n = true → q.ty = .operEqual → ExprOf ex e →
      Written (n :: q :: (ex ++ ts)) ts (.varAssign e)
  | expr {ex ts : List Token} {e : Expr} : ExprOf ex e → Written (ex ++ ts) ts (.expr e)
  /-- The number of parameters is kept in 16 bits: see C40. -/
  | func {mark : List Token} {n opn close : Token} {ps ts rt : List Token} {ext exported : Bool} {params : List Param}
      {ret : Option (List Token)} : FuncMark mark ext exported → n.ty = .identifier → opn.ty = .parenOpen →
      ParamsOf ps (close :: rt) params → close.ty = .parenClose → RetOf rt ts ret →
      (∃ b, ts.head? = some b ∧ b.ty = if ext then .newline else .bracketOpen) →
      Written (mark ++ n :: opn :: ps) ts
        (.funcProto ⟨n, ret, ext, exported, params.take (params.length % 65536), params.length % 65536⟩)

/-- The other position that is kept with a statement: with definitions, the position of the token between the name, or the type, and
the value. -/
def ValueAt : Stmt → List Token → Prop
  | .varDef name _ isImplicit _ _, te =>
    ∃ n ty, name = n :: (ty ++ te) ∧ (isImplicit = true → ty = []) ∧ (isImplicit = false → TypeOf ty)
  | _, _ => True

/-- A statement with its first token's position, one more position the parser keeps, and its block. -/
structure Entry where
  stmt : Stmt
  tok : List Token
  tokEnd : List Token
  child : Tree

/-- The tree of statements given last first. -/
def treeOf : List Entry → Tree → Tree
  | [], acc => acc
  | n :: ns, acc => treeOf ns (.node n.stmt n.tok n.tokEnd n.child acc)

/-- `Nests start ns pos`: from `start` up to `pos` the statements `ns` (last first) are written, and every block stands in braces
right after the statement it belongs to.  Newlines and commas may stand anywhere between. -/
inductive Nests : List Token → List Entry → List Token → Prop
  | start {ts : List Token} : Nests ts [] ts
  | skip {start : List Token} {ns : List Entry} {t : Token} {ts : List Token} : Nests start ns (t :: ts) →
      t.ty = .newline ∨ t.ty = .comma → Nests start ns ts
  | stmt {start : List Token} {ns : List Entry} {pos ts te : List Token} {st : Stmt} : Nests start ns pos → Written pos ts st → ValueAt st te →
      Nests start (⟨st, pos, te, .nil⟩ :: ns) ts
  | block {start : List Token} {ns : List Entry} {st : Stmt} {tok te : List Token} {opn close : Token} {inner ts : List Token}
      {bs : List Entry} : Nests start (⟨st, tok, te, .nil⟩ :: ns) (opn :: inner) → opn.ty = .bracketOpen →
      Nests inner bs (close :: ts) → close.ty = .bracketClose → bs ≠ [] →
      Nests start (⟨st, tok, te, treeOf bs .nil⟩ :: ns) ts

/-- No list of statements begins with a block; `start` says whether a list of statements begins here. -/
def leadFree : (start : Bool) → List Token → Bool
  | _, [] => true
  | start, t :: ts =>
    if t.ty = .bracketOpen then !start && leadFree true ts
    else if t.ty = .newline ∨ t.ty = .comma then leadFree start ts
    else leadFree false ts

end Skull.Spec
