import Verif.Model.DebugInfo
import Verif.Spec.Verified
/-
What LLVM's verifier asks of locations and descriptions (lib/IR/Verifier.cpp, `visitFunction` and `verifyFnArgs`; `DIVariable`s), and what
a user of a debugger expects of them.
-/
namespace Skull.Spec

/-- What LLVM asks of debug information: the scopes of the locations and variables of a function belong to that function, calls have
locations (they may be inlined), and every global is described once. -/
structure DebugVerified (M : List LFunc) (s : DState) : Prop where
  /-- A location is of an instruction in the function that its scope belongs to. -/
  own : ∀ d ∈ s.locs, match d.instr with
    | .reg r => ∃ τ, Defined M d.scope.fn r τ
    | .at f b i => f = d.scope.fn ∧ ∃ code, blockOf M f b = some code ∧ i < code.length
  /-- Calls have locations. -/
  calls : ∀ f b code, blockOf M f b = some code → ∀ r g args, .call r g args ∈ code → ∃ d ∈ s.locs, d.instr = .reg r
  /-- A variable is described in the function that its scope belongs to. -/
  vars : ∀ v ∈ s.vars, v.scope.fn = v.fn
  globals : s.globals.map (·.1) = List.range s.l.globals.length

mutual
/-- The tokens of an expression. -/
def tokensE : AExpr → List Token
  | .ident t _ _ _ => [t]
  | .const t _ => [t]
  | .call t args _ _ => t :: tokensA args
  | .un _ r _ _ => tokensE r
  | .bin _ l r _ _ => tokensE l ++ tokensE r
def tokensA : AArgs → List Token
  | .cons _ e next => tokensE e ++ tokensA next
  | _ => []
end

/-- The tokens of the statement or condition that a location was set for: the first one, and those of the expression. -/
def statementToks (ann : Ann) (tok : List Token) : List Token :=
  tok.take 1 ++ match ann with
    | .varDef _ e | .varAssign _ e | .expr e => tokensE e
    | _ => []

/-- The location is in the statement that it was set for. -/
def FromStatement (d : DLoc) : Prop := ∃ t ∈ statementToks d.ann d.tok, d.pos = t.pos

/-- The statement gives a value to a variable, and the location is where the variable was defined. -/
def FromVariable (syms : List Symbol) (d : DLoc) : Prop :=
  ∃ id e, (d.ann = .varDef id e ∨ d.ann = .varAssign id e) ∧
    d.pos = match (syms[id]?).bind (·.loc) with
      | some t => t.pos
      | none => {}

/-- The location is of a store. -/
def AtStore (M : List LFunc) (d : DLoc) : Prop :=
  ∃ f b i code v p, d.instr = .at f b i ∧ blockOf M f b = some code ∧ code[i]? = some (.store v p)

/-- No instruction gets locations for two statements. -/
def OneStatement (locs : List DLoc) : Prop :=
  ∀ d ∈ locs, ∀ d' ∈ locs, d.instr = d'.instr → d.ann = d'.ann ∧ d.tok = d'.tok

/-- The name of a variable, or its address. -/
def bareName : AExpr → Bool
  | .ident .. => true
  | .un .ref _ _ _ => true
  | _ => false

/-- No condition is just the name of a variable. -/
def NoNameConds : ATree → Prop
  | .nil => True
  | .unchecked _ => True
  | .node ann stmt _ child next =>
    (∀ e, ann = .expr e → (∃ c, stmt = .ifs c ∨ stmt = .elifs c ∨ stmt = .whiles c) → bareName e = false) ∧
      NoNameConds child ∧ NoNameConds next

/-- The line where a symbol was declared. -/
def lineOf (syms : List Symbol) (id : Nat) : Nat :=
  match (syms[id]?).bind (·.loc) with
  | some t => t.line
  | none => 0

/-- Nothing of a block is run behind this. -/
def endsBlock : Stmt → Bool
  | .ret _ | .unreachable | .breaks | .continues => true
  | _ => false

/-- The lines at which the variables of functions are described, in order: those of their definitions, and for parameters that of the
function. -/
def localLines (syms : List Symbol) : Bool → ATree → List Nat
  | inFunc, .node ann stmt _ child next =>
    if endsBlock stmt then []
    else
      (match stmt, ann with
        | .varDef .., .varDef id _ => if inFunc then [lineOf syms id] else []
        | .funcProto _, .func id params =>
          match (syms[id]?).map Symbol.kind with
          | some (.func f) => if f.isExternal then [] else List.replicate (params.take f.numParams).length (lineOf syms id) ++ localLines syms true child
          | _ => []
        | .ifs _, _ | .elifs _, _ | .elses, _ | .whiles _, _ | .namespaces, _ => localLines syms inFunc child
        | _, _ => []) ++ localLines syms inFunc next
  | _, _ => []

/-- The same for variables outside of functions. -/
def globalLines (syms : List Symbol) : ATree → List Nat
  | .node ann stmt _ child next =>
    if endsBlock stmt then []
    else
      (match stmt, ann with
        | .varDef .., .varDef id _ => [lineOf syms id]
        | .ifs _, _ | .elifs _, _ | .elses, _ | .whiles _, _ | .namespaces, _ => globalLines syms child
        | _, _ => []) ++ globalLines syms next
  | _ => []

/-- Every variable is described once, at its line. -/
structure Described (syms : List Symbol) (t : ATree) (s : DState) : Prop where
  locals : s.vars.map (·.line) = localLines syms false t
  globals : s.globals.map (·.2) = globalLines syms t

end Skull.Spec
