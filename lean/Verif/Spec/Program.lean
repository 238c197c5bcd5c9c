import Verif.Spec.Typing
/-
Statements in programs: where they are, what is visible there.
-/
namespace Skull.Spec

/-- `Occ up before t up' before' t'`: the statements `t'` occur in `t`.  `up` are the statements around, the innermost first;
`before` are the statements before in the same block, the latest first. -/
inductive Occ : List Stmt → List Stmt → Tree → List Stmt → List Stmt → Tree → Prop
  | here {up before t} : Occ up before t up before t
  | next {up before stmt tok tokEnd child next up' before' t'} : Occ up (stmt :: before) next up' before' t' →
      Occ up before (.node stmt tok tokEnd child next) up' before' t'
  | child {up before stmt tok tokEnd child next up' before' t'} : Occ (stmt :: up) [] child up' before' t' →
      Occ up before (.node stmt tok tokEnd child next) up' before' t'

/-- The statements of a block. -/
def siblings : Tree → List Stmt
  | .nil => []
  | .node stmt _ _ _ next => stmt :: siblings next

/-- Statements after which control goes elsewhere. -/
def IsJump : Stmt → Prop
  | .ret _ | .breaks | .continues | .unreachable => True
  | _ => False

/-- Statements that do nothing. -/
def IsIdle : Stmt → Prop
  | .comment | .noop | .unreachable => True
  | _ => False

/-- Some statement around is a loop, with no function in between. -/
def InLoop (up : List Stmt) : Prop :=
  ∃ inner e outer, up = inner ++ .whiles e :: outer ∧ ∀ s ∈ inner, ∀ p, s ≠ .funcProto p

/-- The latest statement that is no comment is an if or elif. -/
def BehindIf (before : List Stmt) : Prop :=
  ∃ comments s earlier, before = comments ++ s :: earlier ∧ (∀ c ∈ comments, c = .comment) ∧ ∃ e, s = .ifs e ∨ s = .elifs e

/-- The place and the environment at the beginning of the block of a statement. -/
inductive Enters (W : World) (c : Ctx) (E : Env) : Stmt → List Token → Ctx → Env → Prop
  | func {p f τ τs E₁ tok} : RetType E p.returnType τ → Text p.name f → ParamsOk W (E.add f (.func τs τ)) p.params τs E₁ →
      Enters W c E (.funcProto p) tok ⟨some τ, 0, false⟩ E₁
  | ns {k t ts n} : Text t n → Enters W c E .namespaces (k :: t :: ts) c.inner (E.add n (.ns []))
  | whiles {e tok} : Enters W c E (.whiles e) tok { c with loops := c.loops + 1, top := false } E
  | ifs {e tok} : Enters W c E (.ifs e) tok c.inner E
  | elifs {e tok} : Enters W c E (.elifs e) tok c.inner E
  | elses {tok} : Enters W c E .elses tok c.inner E
  | call {n args num tok} : Enters W c E (.expr (.call n args num)) tok c.inner E

/-- `Reach W c E t c' E' t'`: going through the statements `t`, with the environment `E`, one comes to the statements `t'` with
the environment `E'`. -/
inductive Reach (W : World) : Ctx → Env → List Stmt → Tree → Ctx → Env → List Stmt → Tree → Prop
  | here {c E before t} : Reach W c E before t c E before t
  | next {c E E₁ before stmt tok tokEnd child next c' E' before' t'} : StmtOk W c E before stmt tok tokEnd child next E₁ →
      Reach W c E₁ (stmt :: before) next c' E' before' t' →
      Reach W c E before (.node stmt tok tokEnd child next) c' E' before' t'
  | body {c E c₁ E₁ before stmt tok tokEnd child next c' E' before' t'} : Enters W c E stmt tok c₁ E₁ →
      Reach W c₁ E₁ [] child c' E' before' t' → Reach W c E before (.node stmt tok tokEnd child next) c' E' before' t'

/-- The statements `t'` of a program, reached with an environment. -/
def At (W : World) (program : Tree) (c : Ctx) (E : Env) (before : List Stmt) (t : Tree) : Prop :=
  Reach W .main .start [] program c E before t

/-- The expression of a statement that is evaluated.  (The value of a type alias is not, see `IsAlias`.) -/
def stmtExpr : Stmt → Option Expr
  | .varDef _ _ _ _ e | .varAssign e | .expr e | .ret e | .ifs e | .elifs e | .whiles e => some e
  | _ => none

/-- The statement defines a type alias: the value behind the last token of its left side is a type. -/
def IsAlias (E : Env) (stmt : Stmt) (tokEnd : List Token) : Prop :=
  (∃ name isConst isImplicit isExported e, stmt = .varDef name isConst isImplicit isExported e) ∧
    ∃ σ, TypeAt E tokEnd.tail (some σ)

mutual
/-- `SubExpr d e`: `d` is a part of the expression `e`. -/
inductive SubExpr (d : Expr) : Expr → Prop
  | here : SubExpr d d
  | un {o e} : SubExpr d e → SubExpr d (.un o e)
  | left {o l r} : SubExpr d l → SubExpr d (.bin o l r)
  | right {o l r} : SubExpr d r → SubExpr d (.bin o l r)
  | arg {n args num} : SubArgs d args → SubExpr d (.call n args num)
/-- `d` is a part of one of the arguments. -/
inductive SubArgs (d : Expr) : Args → Prop
  | here {first e next} : SubExpr d e → SubArgs d (.cons first e next)
  | next {first e next} : SubArgs d next → SubArgs d (.cons first e next)
end

/-- `u` is the token with the name that a statement declares. -/
def Introduces (E : Env) : Stmt → List Token → List Token → Token → Prop
  | .varDef name .., tok, tokEnd, u =>
    ((∃ σ, TypeAt E tokEnd.tail (some σ)) ∧ tok.head? = some u) ∨
      ((¬ ∃ σ, TypeAt E tokEnd.tail (some σ)) ∧ name.head? = some u)
  | .funcProto p, _, _, u => p.name = u
  | .namespaces, tok, _, u => tok.tail.head? = some u
  | _, _, _, _ => False

/-- The first part of a name. -/
def firstPart (x : List Char) : List Char := x.takeWhile (· ≠ '.')

/-- The arguments of a call. -/
def argList : Args → List Expr
  | .nil => []
  | .cons _ e next => e :: argList next

end Skull.Spec
