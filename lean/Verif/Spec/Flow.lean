import Verif.Model.CodegenLLVM
/-
Where the code of statements is in a function of blocks: a layout.

The code of a condition or of a statement without blocks is a list of instructions without jumps; what it is, is a parameter
(`Pieces`).  `κ` is what this code depends on besides the statement, passed from each piece of code to the next.
-/
namespace Skull

/-- Instructions that leave the block. -/
def LInstr.isTerm : LInstr → Bool
  | .br _ | .condBr .. | .ret _ | .retVoid | .unreachable => true
  | _ => false

end Skull

namespace Skull.Spec

/-- A place in a function: a block, and how many of its instructions are before. -/
structure Place where
  block : Nat
  before : Nat
  deriving DecidableEq

/-- The place behind some instructions. -/
def Place.skip (p : Place) (is : List LInstr) : Place := ⟨p.block, p.before + is.length⟩

/-- The beginning of a block. -/
def start (b : Nat) : Place := ⟨b, 0⟩

/-- A block of a function. -/
def blockOf (M : List LFunc) (f b : Nat) : Option (List LInstr) := (M[f]?).bind (·.blocks[b]?)

/-- The instructions at a place; more may follow. -/
def CodeAt (M : List LFunc) (f : Nat) (p : Place) (is : List LInstr) : Prop :=
  ∃ pre rest, blockOf M f p.block = some (pre ++ is ++ rest) ∧ pre.length = p.before

/-- The code without jumps.  `cond`: instructions and the value of a condition; `stmt`: a statement of a function; `stop`: a statement
that ends the function, with the jump; `func`: which function of the module a symbol is, and the instructions it begins with. -/
structure Pieces (κ : Type) where
  cond : κ → AExpr → List LInstr → LVal → κ → Prop
  stmt : Nat → κ → Ann → Stmt → List LInstr → κ → Prop
  stop : Nat → κ → Ann → Stmt → List LInstr → κ → Prop
  func : Nat → List Nat → Nat → κ → List LInstr → κ → Prop
  isExternal : Nat → Prop
  isVoid : Nat → Prop

/-- In front of a statement, or behind the block `ifTrue` of an `if` with this condition; `fin` is the block behind the `else`. -/
inductive Arm
  | stmts
  | afterIf (cond : AExpr) (ifTrue fin : Nat)

/-- A statement that has no block and does not jump. -/
def isPlain : Stmt → Bool
  | .varDef .. | .varAssign _ | .expr _ | .noop | .imports | .comment => true
  | _ => false

/-- `elif`, `else` and comments. -/
def staysInChain : ATree → Bool
  | .node _ (.elifs _) _ _ _ | .node _ .elses _ _ _ | .node _ .comment _ _ _ => true
  | _ => false

/-- The code of statements of function `f` is laid out from place `p` on, and what comes after them is at `q`, unless `ended`: then the
last statement has jumped.  `loop` are the block with the condition and the block behind the innermost loop around the statements.
Behind an `if` (`Arm.afterIf`) its condition is at `p`. -/
inductive Laid {κ : Type} (P : Pieces κ) (M : List LFunc) :
    Nat → Option (Nat × Nat) → Arm → Place → κ → ATree → Bool → Place → κ → Prop
  | nil {f loop p k} : Laid P M f loop .stmts p k .nil false p k
  | plain {f loop p k ann stmt tok child next is k' e q k''} : isPlain stmt = true → P.stmt f k ann stmt is k' →
      CodeAt M f p is → Laid P M f loop .stmts (p.skip is) k' next e q k'' →
      Laid P M f loop .stmts p k (.node ann stmt tok child next) e q k''
  | stop {f loop p k ann stmt tok child next is k'} : (∃ e, stmt = .ret e) ∨ stmt = .unreachable → P.stop f k ann stmt is k' →
      CodeAt M f p is → Laid P M f loop .stmts p k (.node ann stmt tok child next) true (p.skip is) k'
  | breaks {f c fin p k ann tok child next} : CodeAt M f p [.br (some fin)] →
      Laid P M f (some (c, fin)) .stmts p k (.node ann .breaks tok child next) true (p.skip [.br (some fin)]) k
  | continues {f c fin p k ann tok child next} : CodeAt M f p [.br (some c)] →
      Laid P M f (some (c, fin)) .stmts p k (.node ann .continues tok child next) true (p.skip [.br (some c)]) k
  | whiles {f loop p k cond is v k₁ x a b c ann tok child next e q k₂ e' q' k₃} : ann = .expr cond → CodeAt M f p [.br (some a)] →
      P.cond k cond is v k₁ → CodeAt M f (start a) (is ++ [.condBr v b c]) →
      Laid P M f (some (a, c)) .stmts (start b) k₁ child e q k₂ → (e = false → CodeAt M f q [.br (some a)]) →
      Laid P M f loop .stmts (start c) k₂ next e' q' k₃ →
      Laid P M f loop .stmts p k (.node ann (.whiles x) tok child next) e' q' k₃
  | ifs {f loop p k cond x b fin ann tok child next e q k₁ e' q' k₂} : ann = .expr cond →
      Laid P M f loop .stmts (start b) k child e q k₁ → (e = false → CodeAt M f q [.br (some fin)]) →
      Laid P M f loop (.afterIf cond b fin) p k₁ next e' q' k₂ →
      Laid P M f loop .stmts p k (.node ann (.ifs x) tok child next) e' q' k₂
  | elifs {f loop p k cond is v k₁ b b' c fin cond' x ann tok child next e q k₂ e' q' k₃} : ann = .expr cond' →
      P.cond k cond is v k₁ → CodeAt M f p (is ++ [.condBr v b c]) →
      Laid P M f loop .stmts (start b') k₁ child e q k₂ → (e = false → CodeAt M f q [.br (some fin)]) →
      Laid P M f loop (.afterIf cond' b' fin) (start c) k₂ next e' q' k₃ →
      Laid P M f loop (.afterIf cond b fin) p k (.node ann (.elifs x) tok child next) e' q' k₃
  | elses {f loop p k cond is v k₁ b c fin ann tok child next e q k₂ e' q' k₃} :
      P.cond k cond is v k₁ → CodeAt M f p (is ++ [.condBr v b c]) →
      Laid P M f loop .stmts (start c) k₁ child e q k₂ → (e = false → CodeAt M f q [.br (some fin)]) →
      Laid P M f loop .stmts (start fin) k₂ next e' q' k₃ →
      Laid P M f loop (.afterIf cond b fin) p k (.node ann .elses tok child next) e' q' k₃
  | comment {f loop p k cond b fin ann tok child next e q k'} : Laid P M f loop (.afterIf cond b fin) p k next e q k' →
      Laid P M f loop (.afterIf cond b fin) p k (.node ann .comment tok child next) e q k'
  | endIf {f loop p k cond is v k₁ b fin t e q k₂} : staysInChain t = false → P.cond k cond is v k₁ →
      CodeAt M f p (is ++ [.condBr v b fin]) → Laid P M f loop .stmts (start fin) k₁ t e q k₂ →
      Laid P M f loop (.afterIf cond b fin) p k t e q k₂
  | external {f loop p k id ps x ann tok child next e q k'} : ann = .func id ps → P.isExternal id →
      Laid P M f loop .stmts p k next e q k' → Laid P M f loop .stmts p k (.node ann (.funcProto x) tok child next) e q k'
  | func {f loop p k id ps f' is k₀ x ann tok child next e q k₁ e' q' k₂} : ann = .func id ps → ¬ P.isExternal id →
      P.func id ps f' k is k₀ → CodeAt M f' (start 0) is → Laid P M f' none .stmts ((start 0).skip is) k₀ child e q k₁ → (e = false → P.isVoid id → CodeAt M f' q [.retVoid]) →
      Laid P M f loop .stmts p k₁ next e' q' k₂ → Laid P M f loop .stmts p k (.node ann (.funcProto x) tok child next) e' q' k₂
  | ns {f loop p k ann tok child next e q k₁ e' q' k₂} : Laid P M f loop .stmts p k child e q k₁ →
      Laid P M f loop .stmts q k₁ next e' q' k₂ → Laid P M f loop .stmts p k (.node ann .namespaces tok child next) e' q' k₂

/-- Whether there is a loop in the tree. -/
def hasLoop : ATree → Bool
  | .node _ stmt _ child next => (match stmt with | .whiles _ => true | _ => false) || hasLoop child || hasLoop next
  | _ => false

/-- Every `break` and `continue` is in a loop of the same function, and no other loop is before it in that loop.  `ok`: whether they are
allowed here. -/
def JumpsOk : Bool → ATree → Prop
  | ok, .node _ stmt _ child next =>
    (stmt = .breaks ∨ stmt = .continues → ok = true) ∧
    match stmt with
    | .whiles _ => JumpsOk true child ∧ JumpsOk false next
    | .funcProto _ => JumpsOk false child ∧ JumpsOk (ok && !hasLoop child) next
    | _ => JumpsOk ok child ∧ JumpsOk (ok && !hasLoop child) next
  | _, _ => True

/-- The code of a program: it is in the first function, which returns 0 at its end. -/
def LaidProgram {κ : Type} (P : Pieces κ) (M : List LFunc) (k : κ) (t : ATree) : Prop :=
  ∃ e q k', Laid P M 0 none .stmts (start 0) k t e q k' ∧ (e = false → CodeAt M 0 q [.ret (.int 0)])

/- ### The ends of blocks -/

/-- A block with one jump, at its end. -/
def Ended (code : List LInstr) : Prop := ∃ is t, code = is ++ [t] ∧ (∀ i ∈ is, i.isTerm = false) ∧ t.isTerm = true

/-- Every block of every function has one jump, at its end. -/
def WellEnded (M : List LFunc) : Prop := ∀ f b code, blockOf M f b = some code → Ended code

/-- How statements end: they go on, or one of them is a return with a value, or one of them leaves otherwise. -/
inductive Ending
  | goesOn | returns | leaves
  deriving DecidableEq

/-- How the statements of a block end. -/
def ending : ATree → Ending
  | .node ann stmt _ _ next =>
    match stmt with
    | .ret _ => match ann with | .expr _ => .returns | _ => .leaves
    | .unreachable | .breaks | .continues => .leaves
    | _ => ending next
  | _ => .goesOn

/-- No statement of a namespace leaves it; the statements of a function with a return type do not go on, and those of a function
without do not return a value. -/
def EndsOk (syms : List Symbol) : ATree → Prop
  | .node ann stmt _ child next =>
    (stmt = .namespaces → ending child = .goesOn) ∧
    (∀ id ps sym f, ann = .func id ps → syms[id]? = some sym → sym.kind = .func f → f.isExternal = false →
      ending child ≠ if f.returnType = .prim .void then .returns else .goesOn) ∧
    EndsOk syms child ∧ EndsOk syms next
  | _ => True

/-- Functions are not declared in functions. -/
def Flat (inFunc : Bool) : Tree → Prop
  | .nil => True
  | .node stmt _ _ child next =>
    (match stmt with
      | .funcProto _ => inFunc = false ∧ Flat true child
      | .expr _ => True
      | _ => Flat inFunc child) ∧ Flat inFunc next

/-- None of the statements of a block, apart from those in the blocks in it, leaves it. -/
def Stays : Tree → Prop
  | .nil => True
  | .node stmt _ _ _ next =>
    (match stmt with | .ret _ | .unreachable | .breaks | .continues => False | _ => True) ∧ Stays next

/-- No statement of a namespace leaves it. -/
def NamespacesStay : Tree → Prop
  | .nil => True
  | .node stmt _ _ child next =>
    (stmt = .namespaces → Stays child) ∧ NamespacesStay child ∧ NamespacesStay next

end Skull.Spec
