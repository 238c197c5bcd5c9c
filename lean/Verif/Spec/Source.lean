import Verif.Spec.Statements
/-
Whole programs as they are written, by the language's documentation (docs/variables.md, functions.md, control_flow.md,
c-integration.md), independently of the parser: what is written, its tokens, and the tree it ought to have.
-/
namespace Skull.Spec.Src

/-- The parameters of a function: a name with its type, and commas between.  A comma may follow the last one. -/
inductive Pars
  | nil
  | last (n : Token) (ty : List Token)
  | cons (n : Token) (ty : List Token) (comma : Token) (rest : Pars)

/-- What stands before the body of a function. -/
structure Func where
  mark : List Token
  name : Token
  opn : Token
  params : Pars
  close : Token
  ret : Option (List Token)

/-- A statement without a block. -/
inductive Line
  | word (t : Token)                                                    -- `noop`, `break`, `continue`, `unreachable`, a comment
  | ret (t : Token)
  | retVal (t : Token) (c : Chain)
  | import (t n : Token)
  | define (mark : List Token) (n q : Token) (c : Chain)                -- `n := c`
  | defineAs (mark : List Token) (n : Token) (ty : List Token) (q : Token) (c : Chain)      -- `n: ty = c`
  | assign (n q : Token) (c : Chain)                                    -- `n = c`
  | expr (c : Chain)
  | external (f : Func)

/-- What stands before a block. -/
inductive Head
  | cond (t : Token) (c : Chain)                                        -- `if`, `elif`, `while`
  | else (t : Token)
  | namespace (t n : Token)
  | func (f : Func)

/-- Statements one after the other. -/
inductive Prog
  | nil
  | newline (t : Token) (rest : Prog)
  | line (s : Line) (rest : Prog)
  | block (h : Head) (gap : List Token) (opn : Token) (body : Prog) (close : Token) (rest : Prog)

/- ### Tokens -/

def Pars.tokens : Pars → List Token
  | .nil => []
  | .last n ty => n :: ty
  | .cons n ty c r => n :: (ty ++ c :: r.tokens)

def Func.tokens (f : Func) : List Token :=
  f.mark ++ f.name :: f.opn :: (f.params.tokens ++ f.close :: f.ret.getD [])

def Line.tokens : Line → List Token
  | .word t => [t]
  | .ret t => [t]
  | .retVal t c => t :: c.tokens
  | .import t n => [t, n]
  | .define m n q c => m ++ n :: q :: c.tokens
  | .defineAs m n ty q c => m ++ n :: (ty ++ q :: c.tokens)
  | .assign n q c => n :: q :: c.tokens
  | .expr c => c.tokens
  | .external f => f.tokens

def Head.tokens : Head → List Token
  | .cond t c => t :: c.tokens
  | .else t => [t]
  | .namespace t n => [t, n]
  | .func f => f.tokens

def Prog.tokens : Prog → List Token
  | .nil => []
  | .newline t r => t :: r.tokens
  | .line s r => s.tokens ++ r.tokens
  | .block h gap o b c r => h.tokens ++ (gap ++ o :: (b.tokens ++ c :: r.tokens))

/- ### What may be written -/

def Pars.WF : Pars → Prop
  | .nil => True
  | .last n ty => n.ty = .newIdentifier ∧ TypeOf ty
  | .cons n ty c r => n.ty = .newIdentifier ∧ TypeOf ty ∧ c.ty = .comma ∧ r.WF

def Pars.count : Pars → Nat
  | .nil => 0
  | .last .. => 1
  | .cons _ _ _ r => r.count + 1

def Func.WF (f : Func) : Prop :=
  f.name.ty = .identifier ∧ f.opn.ty = .parenOpen ∧ f.params.WF ∧ f.params.count < 65536 ∧ f.close.ty = .parenClose ∧
    ∀ ty, f.ret = some ty → TypeOf ty

/-- An expression with an operand after each prefix operator. -/
def Value (c : Chain) : Prop := c.WF ∧ c.Full

def Line.WF : Line → Prop
  | .word t => t.ty = .kwNoop ∨ t.ty = .kwBreak ∨ t.ty = .kwContinue ∨ t.ty = .kwUnreachable ∨ t.ty = .comment
  | .ret t => t.ty = .kwReturn
  | .retVal t c => t.ty = .kwReturn ∧ Value c
  | .import t n => t.ty = .kwImport ∧ n.ty = .identifier
  | .define m n q c => (∃ k x, DeclMark m k x) ∧ n.ty = .identifier ∧ q.ty = .operAutoEqual ∧ Value c
  | .defineAs m n ty q c => (∃ k x, DeclMark m k x) ∧ n.ty = .newIdentifier ∧ TypeOf ty ∧ q.ty = .operEqual ∧ Value c
  | .assign n q c => isName n = true ∧ q.ty = .operEqual ∧ Value c
  | .expr c => Value c
  | .external f => f.WF ∧ FuncMark f.mark true false

def Head.WF : Head → Prop
  | .cond t c => (t.ty = .kwIf ∨ t.ty = .kwElif ∨ t.ty = .kwWhile) ∧ Value c
  | .else t => t.ty = .kwElse
  | .namespace t n => t.ty = .kwNamespace ∧ n.ty = .identifier
  | .func f => f.WF ∧ ∃ x, FuncMark f.mark false x

/-- A statement without a block is the last one of its line, of its block, or of the file, or a comment follows. -/
def LineEnds (rest : List Token) : Prop :=
  ∀ t, rest.head? = some t → t.ty = .newline ∨ t.ty = .bracketClose ∨ t.ty = .comment

/-- Whether there is a statement. -/
def Prog.some : Prog → Bool
  | .nil => false
  | .newline _ r => r.some
  | _ => true

/-- The program may be written before `after`.  A block has a statement (or a comment) in it.  Newlines may stand before the brace
that opens a block, but not after the head of a function. -/
def Prog.WF : Prog → (after : List Token) → Prop
  | .nil, _ => True
  | .newline t r, a => t.ty = .newline ∧ r.WF a
  | .line s r, a => s.WF ∧ LineEnds (r.tokens ++ a) ∧ r.WF a
  | .block h gap o b c r, a => h.WF ∧ (∀ t ∈ gap, t.ty = .newline) ∧ (∀ f, h = .func f → gap = []) ∧ o.ty = .bracketOpen ∧
      b.WF (c :: (r.tokens ++ a)) ∧ b.some = true ∧ c.ty = .bracketClose ∧ r.WF a

/-- A statement that needs a newline after it (a definition may also end the file). -/
def Line.Newline : Line → (rest : List Token) → Prop
  | .define .., rest | .defineAs .., rest => ∀ t, rest.head? = some t → t.ty = .newline
  | .external _, rest => ∃ t, rest.head? = some t ∧ t.ty = .newline
  | _, _ => True

/-- After definitions and external functions there is a newline. -/
def Prog.Newlines : Prog → (after : List Token) → Prop
  | .nil, _ => True
  | .newline _ r, a => r.Newlines a
  | .line s r, a => s.Newline (r.tokens ++ a) ∧ r.Newlines a
  | .block _ _ _ b c r, a => b.Newlines (c :: (r.tokens ++ a)) ∧ r.Newlines a

/- ### The tree -/

/-- The tree of an expression: it has its operands and operators in order, and the number of arguments with every call.  Precedence
and parentheses are honoured but for the cases of C27 and C28. -/
def ReadAs (c : Chain) (e : Expr) : Prop :=
  readExpr e = items c.tokens ∧ NumsOf e ∧ LeavesOf e ∧ OpersOf e ∧
    (c.SafeGroups → ∃ g : G, g.WF ∧ g.tokens = c.tokens ∧ g.erase = e ∧ (c.SafePrec → g.WellPrec))

/-- The parameters, followed by `after`. -/
def Pars.list : Pars → (after : List Token) → List Param
  | .nil, _ => []
  | .last n ty, a => [⟨n, ty ++ a⟩]
  | .cons n ty c r, a => ⟨n, ty ++ c :: (r.tokens ++ a)⟩ :: r.list a

/-- The function, followed by `after`. -/
def Func.Is (f : Func) (after : List Token) (st : Stmt) : Prop :=
  ∃ ext exp, FuncMark f.mark ext exp ∧
    st = .funcProto ⟨f.name, f.ret.map (· ++ after), ext, exp, f.params.list (f.close :: (f.ret.getD [] ++ after)), f.params.count⟩

/-- What the words mean. -/
def wordIs : TokType → Stmt
  | .kwNoop => .noop
  | .kwBreak => .breaks
  | .kwContinue => .continues
  | .kwUnreachable => .unreachable
  | _ => .comment

/-- The statement of a line that is followed by `after`. -/
def Line.Is : Line → (after : List Token) → Stmt → Prop
  | .word t, _, st => st = wordIs t.ty
  | .ret _, _, st => st = .ret .missing
  | .retVal _ c, _, st => ∃ e, ReadAs c e ∧ st = .ret e
  | .import .., _, st => st = .imports
  | .define m n q c, a, st => ∃ k x e, DeclMark m k x ∧ ReadAs c e ∧ st = .varDef (n :: q :: (c.tokens ++ a)) k true x e
  | .defineAs m n ty q c, a, st => ∃ k x e, DeclMark m k x ∧ ReadAs c e ∧
      st = .varDef (n :: (ty ++ q :: (c.tokens ++ a))) k false x e
  | .assign _ _ c, _, st => ∃ e, ReadAs c e ∧ st = .varAssign e
  | .expr c, _, st => ∃ e, ReadAs c e ∧ st = .expr e
  | .external f, a, st => f.Is a st

/-- The statement of a head that is followed by `after`. -/
def Head.Is : Head → (after : List Token) → Stmt → Prop
  | .cond t c, _, st => ∃ e, ReadAs c e ∧ st = (if t.ty = .kwIf then .ifs e else if t.ty = .kwElif then .elifs e else .whiles e)
  | .else _, _, st => st = .elses
  | .namespace .., _, st => st = .namespaces
  | .func f, a, st => f.Is a st

/-- The tree of a program that is followed by `after`.  Of the second position with a statement only that of definitions is said
something. -/
def Prog.Is : Prog → (after : List Token) → Tree → Prop
  | .nil, _, t => t = .nil
  | .newline _ r, a, t => r.Is a t
  | .line s r, a, t => ∃ st te nx, s.Is (r.tokens ++ a) st ∧ ValueAt st te ∧ r.Is a nx ∧
      t = .node st (s.tokens ++ (r.tokens ++ a)) te .nil nx
  | .block h gap o b c r, a, t => ∃ st te ch nx,
      h.Is (gap ++ o :: (b.tokens ++ c :: (r.tokens ++ a))) st ∧ ValueAt st te ∧ b.Is (c :: (r.tokens ++ a)) ch ∧ r.Is a nx ∧
      t = .node st (h.tokens ++ (gap ++ o :: (b.tokens ++ c :: (r.tokens ++ a)))) te ch nx

end Skull.Spec.Src
