import Verif.Spec.Run
import Verif.Spec.Typing
/-
What programs do, told by their syntax tree alone: an interpreter that knows names.

There is no check before, and there are no symbols.  Names are looked up when they are needed, among those that are visible where they are
written.  Every declaration that is run makes a new thing; a function has the names that are visible in it.  Values come with their types.

`none` is as in Run.lean: an undefined operation, or that the number of steps allowed is too small.  A name that stands for nothing is
undefined, too.
-/
namespace Skull.Spec

/-- Names with the number of what they stand for, the latest first. -/
abbrev Names := List (List Char × Nat)

/-- What a name may stand for.  A namespace has the names that are visible at its end. -/
inductive Thing
  | var (type : Ty) (value : Val)
  | func (proto : FuncProto) (ret : Ty) (body : Tree) (names : Names)
  | alias (type : Option Ty)
  | ns (members : Names)

/-- All that was declared, and the world. -/
structure NState (ω : Type) where
  things : List Thing
  world : ω

/-- What programs depend on: arithmetic, how decimal numbers are read, what functions do that are only declared. -/
structure NCtx (ω : Type) where
  arith : Arith
  strtod : List Char → Nat × Bool
  ext : List Char → List Val → ω → Option (Val × ω)

/- ### Names -/

/-- The thing that a path leads to. -/
def seek (things : List Thing) : Names → List (List Char) → Option Nat
  | _, [] => none
  | names, [x] => names.lookup x
  | names, x :: y :: more =>
    match (names.lookup x).bind (things[·]?) with
    | some (.ns members) => seek things members (y :: more)
    | _ => none

/-- The number of what a token stands for. -/
def standsFor (things : List Thing) (names : Names) (t : Token) : Option Nat :=
  (tokenToString t).bind fun x => seek things names (path x)

/-- The type that a token stands for. -/
def typeFor (things : List Thing) (names : Names) (t : Token) : Option Ty :=
  match (standsFor things names t).bind (things[·]?) with
  | some (.alias τ) => τ
  | _ => (tokenToString t).bind builtinType

/-- The type that tokens begin with. -/
def typeFrom (things : List Thing) (names : Names) : List Token → Option Ty
  | [] => none
  | t :: rest =>
    if t.ty = .identifier ∨ t.ty = .dotIdentifier then typeFor things names t
    else if t.ty = .operRef then (typeFrom things names rest).map .ref
    else none

/-- The return type of a function. -/
def retFrom (things : List Thing) (names : Names) : Option (List Token) → Option Ty
  | none => some Void'
  | some toks => typeFrom things names toks

/- ### Literals and operators -/

/-- The value of a literal, with its type. -/
def litVal (strtod : List Char → Nat × Bool) (t : Token) : Option (Val × Ty) :=
  match t.ty with
  | .intConst => match evalInteger t with | .ok i => some (.int i, Int') | _ => none
  | .floatConst =>
    match evalFloat strtod 0x7FF0000000000000 0xFFF0000000000000 0x7FF8000000000000 t with
    | .ok x => some (.float x, Float')
    | _ => none
  | .boolConst => some (.bool (evalBool t), Bool')
  | .runeConst => match evalRune t with | .ok r => some (.rune r, .prim .rune) | _ => none
  | .strConst => match evalStr t with | some (.ok s) => some (.str (s.takeWhile (· ≠ 0)), .prim .str) | _ => none
  | _ => none

/-- The type of what an operator gives, by the type of its (last) operand. -/
def operType : Oper → Ty → Ty
  | .not, _ | .is, _ | .isnt, _ | .lessThan, _ | .gtrThan, _ | .lessThanEq, _ | .gtrThanEq, _ | .and, _ | .or, _ | .xor, _ => Bool'
  | .ref, τ => .ref τ
  | .deref, .ref τ => τ
  | _, τ => τ

/- ### Running -/

/-- How statements end, with the names that are visible then. -/
inductive NOut
  | normal (names : Names)
  | broke
  | continued
  | returned (v : Option Val)

/-- What a call gives. -/
def NOut.result (ty : Ty) : NOut → Option Val
  | .normal _ | .returned none => if ty = Void' then some .unit else none
  | .returned (some v) => if ty = Void' then none else some v
  | _ => none

/-- The statements behind the `elif`s and the `else` of an `if`. -/
def behindChain : Tree → Tree
  | .node (.elifs _) _ _ _ next => behindChain next
  | .node .elses _ _ _ next => next
  | .node .comment _ _ _ next => behindChain next
  | t => t

/-- The parameters become variables with the arguments as values. -/
def bindArgs : List Param → List (Val × Ty) → Names → List Thing → Option (Names × List Thing)
  | [], [], names, things => some (names, things)
  | p :: ps, (v, τ) :: vs, names, things =>
    match tokenToString p.name with
    | some x => bindArgs ps vs ((x, things.length) :: names) (things ++ [.var τ v])
    | none => none
  | _, _, _, _ => none

mutual
/-- The value of an expression, with its type. -/
def evalN {ω : Type} (c : NCtx ω) : Nat → Expr → Names → NState ω → Option ((Val × Ty) × NState ω)
  | 0, _, _, _ => none
  | n + 1, e, names, S =>
    match e with
    | .missing => none
    | .ident t =>
      match (standsFor S.things names t).bind (S.things[·]?) with
      | some (.var τ v) => some ((v, τ), S)
      | _ => none
    | .const t => match litVal c.strtod t with | some x => some (x, S) | none => none
    | .call f args _ =>
      match standsFor S.things names f with
      | some i => match argsN c n args names S with | some (vs, S) => callN c n i vs S | none => none
      | none => none
    | .un o r =>
      match evalN c n r names S with
      | some ((x, τ), S) => match c.arith.un o τ x with | some z => some ((z, operType o τ), S) | none => none
      | none => none
    | .bin o l r =>
      match evalN c n l names S with
      | some ((x, _), S) =>
        match evalN c n r names S with
        | some ((y, τ), S) => match c.arith.bin o τ x y with | some z => some ((z, operType o τ), S) | none => none
        | none => none
      | none => none
/-- The values of arguments. -/
def argsN {ω : Type} (c : NCtx ω) : Nat → Args → Names → NState ω → Option (List (Val × Ty) × NState ω)
  | 0, _, _, _ => none
  | n + 1, args, names, S =>
    match args with
    | .nil => some ([], S)
    | .cons _ e next =>
      match evalN c n e names S with
      | some (v, S) => match argsN c n next names S with | some (vs, S) => some (v :: vs, S) | none => none
      | none => none
/-- A call. -/
def callN {ω : Type} (c : NCtx ω) : Nat → Nat → List (Val × Ty) → NState ω → Option ((Val × Ty) × NState ω)
  | 0, _, _, _ => none
  | n + 1, i, vs, S =>
    match S.things[i]? with
    | some (.func p τ body names) =>
      if p.params.length = vs.length then
        if p.isExternal then
          match tokenToString p.name with
          | some x => match c.ext x (vs.map Prod.fst) S.world with | some (v, w) => some ((v, τ), ⟨S.things, w⟩) | none => none
          | none => none
        else
          match bindArgs p.params vs names S.things with
          | some (names, things) =>
            match execN c n false body names ⟨things, S.world⟩ with
            | some (o, S) => match o.result τ with | some v => some ((v, τ), S) | none => none
            | none => none
          | none => none
      else none
    | _ => none
/-- Statements.  `chain`: behind an `if` whose conditions so far were all false. -/
def execN {ω : Type} (c : NCtx ω) : Nat → Bool → Tree → Names → NState ω → Option (NOut × NState ω)
  | 0, _, _, _, _ => none
  | n + 1, chain, t, names, S =>
    match t with
    | .nil => some (.normal names, S)
    | .node stmt tok tokEnd child next =>
      match stmt with
      | .comment => execN c n chain next names S
      | .noop | .imports => execN c n false next names S
      | .funcProto p =>
        match retFrom S.things names p.returnType, tokenToString p.name with
        | some τ, some x =>
          let names := (x, S.things.length) :: names
          execN c n false next names ⟨S.things ++ [.func p τ child names], S.world⟩
        | _, _ => none
      | .varDef name _ _ _ e =>
        match typeFrom S.things names tokEnd.tail with
        | some _ =>
          match tok.head?.bind tokenToString with
          | some x =>
            execN c n false next ((x, S.things.length) :: names) ⟨S.things ++ [.alias (typeFrom S.things names tok.tail.tail)], S.world⟩
          | none => none
        | none =>
          match evalN c n e names S with
          | some ((v, τ), S) =>
            match name.head?.bind tokenToString with
            | some x => execN c n false next ((x, S.things.length) :: names) ⟨S.things ++ [.var τ v], S.world⟩
            | none => none
          | none => none
      | .varAssign e =>
        match evalN c n e names S with
        | some ((v, _), S) =>
          match tok.head?.bind (standsFor S.things names) with
          | some i =>
            match S.things[i]? with
            | some (.var τ _) => execN c n false next names ⟨S.things.set i (.var τ v), S.world⟩
            | _ => none
          | none => none
        | none => none
      | .expr (.call f args num) =>
        match child with
        | .nil =>
          match evalN c n (.call f args num) names S with
          | some (_, S) => execN c n false next names S
          | none => none
        | _ => none
      | .ret .missing => some (.returned none, S)
      | .ret e => match evalN c n e names S with | some ((v, _), S) => some (.returned (some v), S) | none => none
      | .breaks => some (.broke, S)
      | .continues => some (.continued, S)
      | .ifs e =>
        match evalN c n e names S with
        | some ((.bool true, _), S) => thenN c n child (behindChain next) names S
        | some ((.bool false, _), S) => execN c n true next names S
        | _ => none
      | .elifs e =>
        if chain then
          match evalN c n e names S with
          | some ((.bool true, _), S) => thenN c n child (behindChain next) names S
          | some ((.bool false, _), S) => execN c n true next names S
          | _ => none
        else none
      | .elses => if chain then thenN c n child next names S else none
      | .whiles e =>
        match loopN c n e child names S with
        | some (.normal _, S) => execN c n false next names S
        | r => r
      | .namespaces =>
        match tok.tail.head?.bind tokenToString with
        | some x =>
          match execN c n false child ((x, S.things.length) :: names) ⟨S.things ++ [.ns []], S.world⟩ with
          | some (.normal members, S') =>
            execN c n false next ((x, S.things.length) :: names) ⟨S'.things.set S.things.length (.ns members), S'.world⟩
          | r => r
        | none => none
      | _ => none
/-- A block, then other statements. -/
def thenN {ω : Type} (c : NCtx ω) : Nat → Tree → Tree → Names → NState ω → Option (NOut × NState ω)
  | 0, _, _, _, _ => none
  | n + 1, child, next, names, S =>
    match execN c n false child names S with
    | some (.normal _, S) => execN c n false next names S
    | r => r
/-- A loop. -/
def loopN {ω : Type} (c : NCtx ω) : Nat → Expr → Tree → Names → NState ω → Option (NOut × NState ω)
  | 0, _, _, _, _ => none
  | n + 1, e, child, names, S =>
    match evalN c n e names S with
    | some ((.bool false, _), S) => some (.normal names, S)
    | some ((.bool true, _), S) =>
      match execN c n false child names S with
      | some (.normal _, S) | some (.continued, S) => loopN c n e child names S
      | some (.broke, S) => some (.normal names, S)
      | some (.returned v, S) => some (.returned v, S)
      | none => none
    | _ => none
end

/-- No function is declared in a function. -/
def FlatFuncs : (inFunc : Bool) → Tree → Prop
  | _, .nil => True
  | inFunc, .node stmt _ _ child next =>
    (match stmt with
      | .funcProto _ => inFunc = false ∧ FlatFuncs true child
      | _ => FlatFuncs inFunc child) ∧ FlatFuncs inFunc next

/-- Running a program: what it returns, and the world afterwards. -/
def runTree {ω : Type} (c : NCtx ω) (t : Tree) (n : Nat) (w : ω) : Option (Int × ω) :=
  match execN c n false t [] ⟨[], w⟩ with
  | some (.normal _, S) => some (0, S.world)
  | some (.returned (some (.int i)), S) => some (i, S.world)
  | _ => none

end Skull.Spec
