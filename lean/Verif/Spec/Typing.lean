import Verif.Model.Ast
import Verif.Model.Types
import Verif.Model.Literal
import Verif.Spec.Words
import Verif.Spec.TypeSpec
/-
The rules of the language: which names are visible where, which types expressions have, which programs are well formed.

Declarations are numbered in the order they are written.  A list of names with the number of their declaration says what is
visible.  There are no scopes, tables or states here.
-/
namespace Skull.Spec

/-- The text of a token. -/
def Text (t : Token) (x : List Char) : Prop := tokenToString t = some x

/- ### Names -/

/-- What is declared.  A type alias may be without a type (see C34); a namespace has the names that are visible at its end. -/
inductive Decl
  | var (type : Ty) (isMut : Bool)
  | func (params : List Ty) (ret : Ty)
  | alias (type : Option Ty)
  | ns (members : List (List Char × Nat))

/-- The visible names, the latest first, and all declarations so far. -/
structure Env where
  vis : List (List Char × Nat)
  decls : List Decl

/-- Declare a name. -/
def Env.add (E : Env) (x : List Char) (d : Decl) : Env := ⟨(x, E.decls.length) :: E.vis, E.decls ++ [d]⟩

/-- The parts of a name between its dots. -/
def path : List Char → List (List Char)
  | [] => [[]]
  | c :: s =>
    if c = '.' then [] :: path s
    else
      match path s with
      | [] => [[c]]
      | x :: xs => (c :: x) :: xs

/-- The declaration that a path leads to. -/
def follow (decls : List Decl) : List (List Char × Nat) → List (List Char) → Option Nat
  | _, [] => none
  | vis, [x] => vis.lookup x
  | vis, x :: y :: more =>
    match (vis.lookup x).bind (decls[·]?) with
    | some (.ns members) => follow decls members (y :: more)
    | _ => none

/-- The number of the declaration that a name denotes. -/
def Env.resolve (E : Env) (x : List Char) : Option Nat := follow E.decls E.vis (path x)

/-- The declaration that a name denotes. -/
def Env.decl (E : Env) (x : List Char) : Option Decl := (E.resolve x).bind (E.decls[·]?)

/-- The builtin type with a name. -/
def builtinType (x : List Char) : Option Ty :=
  [Prim.bool, .int, .float, .rune, .str, .void].map Ty.prim |>.find? fun τ => typeSpelling τ = x

/-- The type with a name. -/
def Env.typeNamed (E : Env) (x : List Char) : Option Ty :=
  match E.decl x with
  | some (.alias τ) => τ
  | _ => builtinType x

/-- A name that may be declared: nothing visible has it.  (An alias without a type does not count.) -/
def Env.Free (E : Env) (x : List Char) : Prop :=
  match E.decl x with
  | none => builtinType x = none
  | some (.alias none) => True
  | some _ => False

/-- Names that variables may have: a letter, then letters, digits, underscores and dots, perhaps with a colon behind. -/
def VarName (x : List Char) : Prop :=
  ∃ c body, Letter c ∧ (∀ d ∈ body, Letter d ∨ Digit d ∨ d = '_' ∨ d = '.') ∧
    ((x = c :: body ∧ body.getLast? ≠ some '.') ∨ x = c :: (body ++ [':']))

/-- The type that the tokens begin with, if they begin with a type. -/
inductive TypeAt (E : Env) : List Token → Option Ty → Prop
  | name {t rest x} : (t.ty = .identifier ∨ t.ty = .dotIdentifier) → Text t x → TypeAt E (t :: rest) (E.typeNamed x)
  | ref {t rest τ} : t.ty = .operRef → TypeAt E rest τ → TypeAt E (t :: rest) (τ.map Ty.ref)
  | other {t rest} : t.ty ≠ .identifier → t.ty ≠ .dotIdentifier → t.ty ≠ .operRef → TypeAt E (t :: rest) none

/- ### Expressions -/

abbrev Int' : Ty := .prim .int
abbrev Float' : Ty := .prim .float
abbrev Bool' : Ty := .prim .bool
abbrev Void' : Ty := .prim .void

/-- What the world is like: how decimal numbers are read, and which files there are. -/
structure World where
  strtod : List Char → Nat × Bool
  canImport : List Char → Prop
  /-- Whether the rules for `return` are asked for. -/
  returns : Prop
  /-- Whether names that nothing can refer to (aliases without a type, names with dots) count as taken. -/
  strict : Prop

/-- A name that may be declared. -/
def Env.Fresh (E : Env) (W : World) (x : List Char) : Prop := E.Free x ∧ (W.strict → E.vis.lookup x = none)

/-- Literals that denote a value (C11 to C14), with their type. -/
inductive LitType (W : World) : Token → Ty → Prop
  | int {t i} : t.ty = .intConst → evalInteger t = .ok i → LitType W t Int'
  | float {t x} : t.ty = .floatConst →
      evalFloat W.strtod 0x7FF0000000000000 0xFFF0000000000000 0x7FF8000000000000 t = .ok x → LitType W t Float'
  | bool {t} : t.ty = .boolConst → LitType W t Bool'
  | rune {t r} : t.ty = .runeConst → evalRune t = .ok r → LitType W t (.prim .rune)
  | str {t s} : t.ty = .strConst → evalStr t = some (.ok s) → (∀ c ∈ s.takeWhile (· ≠ 0), isScalar c = true) →
      LitType W t (.prim .str)

/-- The type of an operator in front of an operand with the given type. -/
def unType : Oper → Ty → Option Ty
  | .unaryNeg, .prim .int => some Int'
  | .unaryNeg, .prim .float => some Float'
  | .not, .prim .bool => some Bool'
  | _, _ => none

/-- The type of an operator between two operands of the given type. -/
def binType : Oper → Ty → Option Ty
  | .add, .prim .int | .sub, .prim .int | .mult, .prim .int | .div, .prim .int | .mod, .prim .int | .pow, .prim .int => some Int'
  | .add, .prim .float | .sub, .prim .float | .mult, .prim .float | .div, .prim .float | .mod, .prim .float
  | .pow, .prim .float => some Float'
  | .lshift, .prim .int | .rshift, .prim .int => some Int'
  | .lessThan, .prim .int | .gtrThan, .prim .int | .lessThanEq, .prim .int | .gtrThanEq, .prim .int => some Bool'
  | .lessThan, .prim .float | .gtrThan, .prim .float | .lessThanEq, .prim .float | .gtrThanEq, .prim .float => some Bool'
  | .and, .prim .bool | .or, .prim .bool | .xor, .prim .bool => some Bool'
  | .is, _ | .isnt, _ => some Bool'
  | _, _ => none

/-- The integer literal zero. -/
def ZeroLit : Expr → Prop
  | .const t => t.ty = .intConst ∧ evalInteger t = .ok 0
  | _ => False

mutual
/-- The type rules. -/
inductive HasType (W : World) (E : Env) : Expr → Ty → Prop
  | ident {t x τ m} : Text t x → E.decl x = some (.var τ m) → HasType W E (.ident t) τ
  | const {t τ} : LitType W t τ → HasType W E (.const t) τ
  | call {n f ps τ args num} : Text n f → E.decl f = some (.func ps τ) → ArgsType W E args ps →
      HasType W E (.call n args num) τ
  | un {o e σ τ} : HasType W E e σ → unType o σ = some τ → HasType W E (.un o e) τ
  | ref {t τ} : HasType W E (.ident t) τ → HasType W E (.un .ref (.ident t)) (.ref τ)
  | deref {t τ} : HasType W E (.ident t) (.ref τ) → HasType W E (.un .deref (.ident t)) τ
  | bin {o l r σ τ} : HasType W E l σ → HasType W E r σ → binType o σ = some τ → (o = .div ∨ o = .mod → ¬ ZeroLit r) →
      HasType W E (.bin o l r) τ
/-- The arguments have the types of the parameters, one for one. -/
inductive ArgsType (W : World) (E : Env) : Args → List Ty → Prop
  | nil : ArgsType W E .nil []
  | cons {first e next τ τs} : HasType W E e τ → ArgsType W E next τs → ArgsType W E (.cons first e next) (τ :: τs)
end

/- ### Statements -/

/-- Where a statement stands: in a function with this return type (or in none), in this many loops of that function, in a block
or not. -/
structure Ctx where
  ret : Option Ty
  loops : Nat
  top : Bool

/-- The same place, inside one more block. -/
def Ctx.inner (c : Ctx) : Ctx := { c with top := false }

/-- Statements that may have a block. -/
def MayHaveBlock : Stmt → Prop
  | .ifs _ | .elifs _ | .elses | .whiles _ | .funcProto _ | .namespaces => True
  | .expr (.call ..) => True
  | _ => False

/-- Only comments, noop and unreachable follow. -/
def NoCode : Tree → Prop
  | .nil => True
  | .node stmt _ _ _ next =>
    match stmt with
    | .comment | .noop | .unreachable => NoCode next
    | _ => False

/-- The statement before, comments aside, is an if or elif; the list has the latest first. -/
def AfterIf : List Stmt → Prop
  | [] => False
  | .comment :: before => AfterIf before
  | .ifs _ :: _ | .elifs _ :: _ => True
  | _ :: _ => False

/-- Among the statements is a return with a value, before any unreachable and any return without a value. -/
def ReturnsValue : Tree → Prop
  | .nil => False
  | .node stmt _ _ _ next =>
    match stmt with
    | .ret .missing => False
    | .ret _ => True
    | .unreachable => False
    | _ => ReturnsValue next

/-- The value of a return (none for a return without a value) fits the function it is in.  Inside a function that returns
nothing any value goes (see C41). -/
def ReturnFits (c : Ctx) (τ : Option Ty) : Prop :=
  match c.ret, τ with
  | none, τ => τ = some Int'
  | some r, none => r = Void'
  | some r, some τ => r = Void' ∨ τ = r

/-- The value of a definition is a type or a reference to one. -/
def IsTypeExpr : Expr → Prop
  | .ident _ => True
  | .un .ref _ => True
  | _ => False

/-- The return type of a function. -/
def RetType (E : Env) : Option (List Token) → Ty → Prop
  | none, τ => τ = Void'
  | some toks, τ => TypeAt E toks (some τ)

/-- Parameters with their types; they are visible in the function. -/
inductive ParamsOk (W : World) : Env → List Param → List Ty → Env → Prop
  | nil {E} : ParamsOk W E [] [] E
  | cons {E E' p ps τ τs x} : TypeAt E p.type (some τ) → Text p.name x → VarName x → E.Fresh W x →
      E.resolve x = none → ParamsOk W (E.add x (.var τ false)) ps τs E' → ParamsOk W E (p :: ps) (τ :: τs) E'

mutual
/-- The statements from a place on are well formed, and afterwards the environment is another.  `before` are the statements before
in the same block, the latest first. -/
inductive Stmts (W : World) : Ctx → Env → List Stmt → Tree → Env → Prop
  | nil {c E before} : Stmts W c E before .nil E
  | node {c E E₁ E₂ before stmt tok tokEnd child next} : (child ≠ .nil → MayHaveBlock stmt) →
      StmtOk W c E before stmt tok tokEnd child next E₁ → Stmts W c E₁ (stmt :: before) next E₂ →
      Stmts W c E before (.node stmt tok tokEnd child next) E₂
/-- One statement is well formed. -/
inductive StmtOk (W : World) : Ctx → Env → List Stmt → Stmt → List Token → List Token → Tree → Tree → Env → Prop
  | retNone {c E before tok tokEnd child next} : (W.returns → ReturnFits c none) → NoCode next →
      StmtOk W c E before (.ret .missing) tok tokEnd child next E
  | ret {c E before e τ tok tokEnd child next} : e ≠ .missing → HasType W E e τ → (W.returns → ReturnFits c (some τ)) →
      NoCode next → StmtOk W c E before (.ret e) tok tokEnd child next E
  | unreachable {c E before tok tokEnd child next} : NoCode next → StmtOk W c E before .unreachable tok tokEnd child next E
  | func {c E E₁ E₂ before p f τ τs tok tokEnd child next} : ((p.isExport || p.isExternal) = true → c.top = true) →
      RetType E p.returnType τ → Text p.name f → E.Fresh W f → ParamsOk W (E.add f (.func τs τ)) p.params τs E₁ →
      Stmts W ⟨some τ, 0, false⟩ E₁ [] child E₂ →
      (W.returns → p.isExternal = false → (ReturnsValue child ↔ τ ≠ Void')) →
      StmtOk W c E before (.funcProto p) tok tokEnd child next ⟨(f, E.decls.length) :: E.vis, E₂.decls⟩
  | alias {c E before name isImplicit isExported e x σ τ t ts tokEnd child next} : TypeAt E tokEnd.tail (some σ) → IsTypeExpr e →
      TypeAt E ts.tail τ → Text t x → E.Fresh W x →
      StmtOk W c E before (.varDef name true isImplicit isExported e) (t :: ts) tokEnd child next (E.add x (.alias τ))
  | varDef {c E before n ns isConst isImplicit isExported e x τ tok tokEnd child next} : TypeAt E tokEnd.tail none →
      HasType W E e τ → (∀ f args num, e = .call f args num → τ ≠ Void') → (isImplicit = false → TypeAt E ns (some τ)) →
      Text n x → VarName x → E.Fresh W x →
      StmtOk W c E before (.varDef (n :: ns) isConst isImplicit isExported e) tok tokEnd child next
        (E.add x (.var τ (!isConst)))
  | varAssign {c E before e x τ t ts tokEnd child next} : Text t x → E.decl x = some (.var τ true) → HasType W E e τ →
      (∀ u y, e = .ident u → Text u y → E.resolve y ≠ E.resolve x) →
      StmtOk W c E before (.varAssign e) (t :: ts) tokEnd child next E
  | call {c E before n args num τ tok tokEnd child next} : HasType W E (.call n args num) τ →
      StmtOk W c E before (.expr (.call n args num)) tok tokEnd child next E
  | ifs {c E E₁ before e tok tokEnd child next} : child ≠ .nil → HasType W E e Bool' → Stmts W c.inner E [] child E₁ →
      StmtOk W c E before (.ifs e) tok tokEnd child next ⟨E.vis, E₁.decls⟩
  | elifs {c E E₁ before e tok tokEnd child next} : AfterIf before → child ≠ .nil → HasType W E e Bool' →
      Stmts W c.inner E [] child E₁ → StmtOk W c E before (.elifs e) tok tokEnd child next ⟨E.vis, E₁.decls⟩
  | elses {c E E₁ before tok tokEnd child next} : AfterIf before → child ≠ .nil → Stmts W c.inner E [] child E₁ →
      StmtOk W c E before .elses tok tokEnd child next ⟨E.vis, E₁.decls⟩
  | whiles {c E E₁ before e tok tokEnd child next} : child ≠ .nil → HasType W E e Bool' →
      Stmts W { c with loops := c.loops + 1, top := false } E [] child E₁ →
      StmtOk W c E before (.whiles e) tok tokEnd child next ⟨E.vis, E₁.decls⟩
  | breaks {c E before tok tokEnd child next} : 0 < c.loops → NoCode next → StmtOk W c E before .breaks tok tokEnd child next E
  | continues {c E before tok tokEnd child next} : 0 < c.loops → NoCode next →
      StmtOk W c E before .continues tok tokEnd child next E
  | namespaces {c E E₁ before n k t ts tokEnd child next} : Text t n → E.Fresh W n →
      Stmts W c.inner (E.add n (.ns [])) [] child E₁ →
      StmtOk W c E before .namespaces (k :: t :: ts) tokEnd child next
        ⟨(n, E.decls.length) :: E.vis, E₁.decls.set E.decls.length (.ns E₁.vis)⟩
  | imports {c E before m k t ts tokEnd child next} : Text t m → W.canImport m →
      StmtOk W c E before .imports (k :: t :: ts) tokEnd child next E
  | unknown {c E before tok tokEnd child next} : StmtOk W c E before .unknown tok tokEnd child next E
  | comment {c E before tok tokEnd child next} : StmtOk W c E before .comment tok tokEnd child next E
  | noop {c E before tok tokEnd child next} : StmtOk W c E before .noop tok tokEnd child next E
end

/-- The top level. -/
def Ctx.main : Ctx := ⟨none, 0, true⟩

/-- At the beginning nothing is visible; the program itself is declaration 0. -/
def Env.start : Env := ⟨[], [.func [] Int']⟩

/-- Well formed programs. -/
def Program (W : World) (t : Tree) : Prop := ∃ E, Stmts W .main .start [] t E

/- ### Conditions on programs -/

mutual
/-- Every call has fewer than 65536 arguments, as counted by the parser. -/
def Expr.Counted : Expr → Prop
  | .missing | .ident _ | .const _ => True
  | .call _ args num => Args.Counted args num
  | .un _ e => Expr.Counted e
  | .bin _ l r => Expr.Counted l ∧ Expr.Counted r
def Args.Counted : Args → Nat → Prop
  | .nil, num => num = 0
  | .cons _ e next, num => Expr.Counted e ∧ ∃ n, num = n + 1 ∧ Args.Counted next n
end

/-- Every call and function in a statement has fewer than 65536 arguments or parameters. -/
def StmtCounted : Stmt → Prop
  | .varDef _ _ _ _ e | .varAssign e | .expr e | .ret e | .ifs e | .elifs e | .whiles e => Expr.Counted e
  | .funcProto p => p.numParams = p.params.length
  | _ => True

/-- Every call and function in a program has fewer than 65536 arguments or parameters. -/
def Counted : Tree → Prop
  | .nil => True
  | .node stmt _ _ child next => StmtCounted stmt ∧ Counted child ∧ Counted next

/-- Functions are not declared in functions; there are no external functions (or, if `ext`, no returns outside functions). -/
def Plain (ext inFunc : Bool) : Tree → Prop
  | .nil => True
  | .node stmt _ _ child next =>
    (match stmt with
      | .funcProto p => inFunc = false ∧ (p.isExternal = true → ext = true) ∧ Plain ext true child
      | .ret _ => (inFunc = true ∨ ext = false) ∧ Plain ext inFunc child
      | .expr _ => True
      | _ => Plain ext inFunc child) ∧ Plain ext inFunc next

/-- No call is followed by a block. -/
def CallsBare : Tree → Prop
  | .nil => True
  | .node stmt _ _ child next =>
    (∀ n args num, stmt = .expr (.call n args num) → child = .nil) ∧ CallsBare child ∧ CallsBare next

/-- How many loops are nested. -/
def loopDepth : Tree → Nat
  | .nil => 0
  | .node stmt _ _ child next =>
    max (match stmt with | .whiles _ => loopDepth child + 1 | _ => loopDepth child) (loopDepth next)

end Skull.Spec
