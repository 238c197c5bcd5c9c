import Verif.Spec.CProgReads
import Verif.Spec.CValue
/-
What C programs do (C11 5.1.2.3, 6.2.4, 6.5.2.2, 6.7.9, 6.8): an interpreter of the statements and items of `CProgram`.

Objects outside functions are there from the start of the program, with the values of their initialisers, which have to be constant
expressions.  Objects of blocks are there until the end of their block.  What functions do that are only declared is a parameter
(`ext`), as is the state `ω` of the world they act on.

`none` is undefined or not allowed, or the first argument (the number of steps allowed) is too small.  C does not tell the order in which
operands and arguments are evaluated: `none` is, too, that it might make a difference.
-/
namespace Skull.Spec.C

/-- Conversion of a value to the type of an object, as by assignment (6.3.1, 6.5.16.1). -/
def convert : CType → CVal → Option CVal
  | .base t, .int _ v =>
    if t = "int64_t".toList then some (.int .long v)
    else if t = "bool".toList then some (.int .bool (if v = 0 then 0 else 1))
    else if t = "char32_t".toList then some (.int .uint (v % 2 ^ 32))
    else if t = "int".toList ∧ isInt32 v = true then some (.int .int v) else none
  | .base t, .dbl b => if t = "double".toList then some (.dbl b) else none
  | .ptr t, .str s => if t = .base "char".toList then some (.str s) else none
  | _, _ => none

/-- The value of an object without initialiser (6.7.9p10); null pointers are left out. -/
def zeroOf : CType → Option CVal
  | .base t => if t = "double".toList then some (.dbl 0) else convert (.base t) (.int .int 0)
  | .ptr _ => none

/-- An object of a block, or a parameter. -/
structure Auto where
  name : List Char
  isConst : Bool
  ty : CType
  val : CVal

/-- The object that a name stands for: the innermost one. -/
def getAuto (a : List Auto) (x : List Char) : Option Auto := a.find? (·.name = x)

def setAuto : List Auto → List Char → CVal → List Auto
  | [], _, _ => []
  | b :: r, x, v => if b.name = x then { b with val := v } :: r else b :: setAuto r x v

/-- The objects outside functions, and the world. -/
structure Store (ω : Type) where
  objs : List Char → Option CVal
  world : ω

/-- What a C program depends on. -/
structure CRunCtx (ω : Type) where
  floats : Floats
  dbl : List Char → Option Nat
  ext : List Char → List Val → ω → Option (Val × ω)
  items : List Item

/-- An object of this name: whether it is constant, its type, and its initialiser. -/
def objOf (x : List Char) : Item → Option (Bool × CType × Option Exp)
  | .object _ k ty y _ init => if y = x then some (k, ty, init) else none
  | _ => none

/-- A function of this name: its type, its parameters, and its statements. -/
def funcOf (f : List Char) : Item → Option (CType × List (CType × List Char) × Stms)
  | .func _ ty g ps body => if g = f then some (ty, ps, body) else none
  | _ => none

/-- A function of this name that is defined elsewhere. -/
def externOf (f : List Char) : Item → Option (CType × List (CType × List Char))
  | .proto _ ty g ps .none => if g = f then some (ty, ps) else none
  | _ => none

/-- The value that an external function gets to see. -/
def CVal.toVal : CVal → Option Val
  | .int .long v => some (.int v)
  | .int .bool v => some (.bool (v ≠ 0))
  | .int .uint v => some (.rune v.toNat)
  | .int .int _ => none
  | .dbl b => some (.float b)
  | .str s => some (.str s)

/-- The value that an external function of this type gives. -/
def ofVal : CType → Val → Option CVal
  | .base t, .int i => if t = "int64_t".toList ∧ -(2 ^ 63 : Int) ≤ i ∧ i < 2 ^ 63 then some (.int .long i) else none
  | .base t, .bool b => if t = "bool".toList then some (.int .bool (if b then 1 else 0)) else none
  | .base t, .rune r => if t = "char32_t".toList ∧ r < 2 ^ 32 then some (.int .uint r) else none
  | .base t, .float b => if t = "double".toList then some (.dbl b) else none
  | .ptr t, .str s => if t = .base "char".toList then some (.str s) else none
  | _, _ => none

/-- Parameters with their arguments. -/
def bindArgs : List (CType × List Char) → List CVal → Option (List Auto)
  | [], [] => some []
  | (ty, x) :: ps, v :: vs =>
    match convert ty v, bindArgs ps vs with
    | some u, some r => some (⟨x, false, ty, u⟩ :: r)
    | _, _ => none
  | _, _ => none

def toVals : List Auto → Option (List Val)
  | [] => some []
  | b :: r =>
    match b.val.toVal, toVals r with
    | some v, some vs => some (v :: vs)
    | _, _ => none

/-- The functions of the run time (see `runTime`). -/
def runTimeNames : List (List Char) := ["_int_pow", "_float_pow", "_strcmp"].map String.toList

mutual
/-- The expression calls functions, other than those of the run time. -/
def calls : Exp → Bool
  | .call (.id f) args => decide (f ∉ runTimeNames) || callsArgs args
  | .call _ _ => true
  | .paren e | .un _ e => calls e
  | .bin _ l r => calls l || calls r
  | _ => false
def callsArgs : Exps → Bool
  | .nil => false
  | .cons e next => calls e || callsArgs next
end

mutual
/-- The expression calls no functions, and depends only on objects that `ok` holds for. -/
def steady (ok : List Char → Bool) : Exp → Bool
  | .id x => ok x
  | .call (.id f) args => decide (f ∈ runTimeNames) && steadyArgs ok args
  | .call _ _ => false
  | .paren e | .un _ e => steady ok e
  | .bin _ l r => steady ok l && steady ok r
  | _ => true
def steadyArgs (ok : List Char → Bool) : Exps → Bool
  | .nil => true
  | .cons e next => steady ok e && steadyArgs ok next
end

/-- The order in which two expressions are evaluated makes no difference: no functions are called, or one of them depends only on objects
that functions called by the other cannot change. -/
def apart (ok : List Char → Bool) (x y : Exp) : Bool := (!calls x && !calls y) || steady ok x || steady ok y

def apartFrom (ok : List Char → Bool) (x : Exp) : Exps → Bool
  | .nil => true
  | .cons y next => apart ok x y && apartFrom ok x next

def apartAll (ok : List Char → Bool) : Exps → Bool
  | .nil => true
  | .cons x next => apartFrom ok x next && apartAll ok next

/-- Objects that functions cannot change when they are called: those of the block, and constant ones. -/
def unchanged {ω : Type} (c : CRunCtx ω) (a : List Auto) (x : List Char) : Bool :=
  match getAuto a x with
  | some _ => true
  | none => match c.items.findSome? (objOf x) with | some (k, _, _) => k | none => false

/-- Assignment.  Constant objects cannot be changed. -/
def assignTo {ω : Type} (c : CRunCtx ω) (a : List Auto) (S : Store ω) (x : List Char) (v : CVal) : Option (List Auto × Store ω) :=
  match getAuto a x with
  | some b =>
    if b.isConst then none
    else match convert b.ty v with | some u => some (setAuto a x u, S) | none => none
  | none =>
    match c.items.findSome? (objOf x) with
    | some (k, ty, _) =>
      if k then none
      else match convert ty v with | some u => some (a, { S with objs := fun y => if y = x then some u else S.objs y }) | none => none
    | none => none

/-- A function of the run time. -/
def callRunTime (F : Floats) (f : List Char) : List CVal → Option CVal
  | [x, y] => runTime F f x y
  | _ => none

mutual
/-- The identifiers of an expression. -/
def Exp.names : Exp → List (List Char)
  | .id x => [x]
  | .num _ | .str _ => []
  | .paren e => e.names
  | .call f args => f.names ++ args.names
  | .un _ e => e.names
  | .bin _ l r => l.names ++ r.names
def Exps.names : Exps → List (List Char)
  | .nil => []
  | .cons e next => e.names ++ next.names
end

/-- How statements end, with the objects of blocks. -/
inductive COut
  | normal (a : List Auto)
  | broke (a : List Auto)
  | continued (a : List Auto)
  | returned (v : Option CVal)

/-- The objects that are left at the end of a block that began with `a`. -/
def leave (a a' : List Auto) : List Auto := a'.drop (a'.length - a.length)

/-- At the end of a block. -/
def COut.close (a : List Auto) : COut → COut
  | .normal a' => .normal (leave a a')
  | .broke a' => .broke (leave a a')
  | .continued a' => .continued (leave a a')
  | .returned v => .returned v

/-- What a call gives: a value, or nothing. -/
def COut.result (ty : CType) : COut → Option (Option CVal)
  | .normal _ | .returned none => if ty = .base "void".toList then some none else none
  | .returned (some v) => (convert ty v).map some
  | _ => none

/-- What the call of an external function gives. -/
def externResult (ty : CType) (v : Val) : Option (Option CVal) :=
  if ty = .base "void".toList then some none else (ofVal ty v).map some

mutual
/-- The value of an expression, if it has one. -/
def evalX {ω : Type} (c : CRunCtx ω) : Nat → Exp → List Auto → Store ω → Option (Option CVal × Store ω)
  | 0, _, _, _ => none
  | n + 1, e, a, S =>
    match e with
    | .id x =>
      match getAuto a x with
      | some b => some (some b.val, S)
      | none => match S.objs x with | some v => some (some v, S) | none => none
    | .num s => match numVal c.dbl s with | some v => some (some v, S) | none => none
    | .str s => match value.chars s.length s with | some s => some (some (.str s), S) | none => none
    | .paren e => evalX c n e a S
    | .call (.id f) args =>
      if (getAuto a f).isSome then none
      else if apartAll (unchanged c a) args then
        match evalXs c n args a S with
        | some (vs, S) =>
          if f ∈ runTimeNames then match callRunTime c.floats f vs with | some v => some (some v, S) | none => none
          else callX c n f vs S
        | none => none
      else none
    | .call _ _ => none
    | .un op e =>
      match evalX c n e a S with
      | some (some x, S) => match unVal c.floats op x with | some v => some (some v, S) | none => none
      | _ => none
    | .bin op l r =>
      if op = ['&', '&'] ∨ op = ['|', '|'] then
        match evalX c n l a S with
        | some (some x, S) =>
          match x.nonzero with
          | some b =>
            if b = decide (op = ['&', '&']) then
              match evalX c n r a S with
              | some (some y, S) => match y.nonzero with | some b => some (some (.truth b), S) | none => none
              | _ => none
            else some (some (.truth b), S)
          | none => none
        | _ => none
      else if apart (unchanged c a) l r then
        match evalX c n l a S with
        | some (some x, S) =>
          match evalX c n r a S with
          | some (some y, S) => match binVal c.floats op x y with | some v => some (some v, S) | none => none
          | _ => none
        | _ => none
      else none
/-- The values of arguments. -/
def evalXs {ω : Type} (c : CRunCtx ω) : Nat → Exps → List Auto → Store ω → Option (List CVal × Store ω)
  | 0, _, _, _ => none
  | n + 1, args, a, S =>
    match args with
    | .nil => some ([], S)
    | .cons e next =>
      match evalX c n e a S with
      | some (some v, S) => match evalXs c n next a S with | some (vs, S) => some (v :: vs, S) | none => none
      | _ => none
/-- A call. -/
def callX {ω : Type} (c : CRunCtx ω) : Nat → List Char → List CVal → Store ω → Option (Option CVal × Store ω)
  | 0, _, _, _ => none
  | n + 1, f, vs, S =>
    match c.items.findSome? (funcOf f) with
    | some (ty, ps, body) =>
      match bindArgs ps vs with
      | some a =>
        match execX c n body a S with
        | some (o, S) => match o.result ty with | some v => some (v, S) | none => none
        | none => none
      | none => none
    | none =>
      match c.items.findSome? (externOf f) with
      | some (ty, ps) =>
        match bindArgs ps vs with
        | some a =>
          match toVals a with
          | some us =>
            match c.ext f us S.world with
            | some (v, w) => match externResult ty v with | some v => some (v, ⟨S.objs, w⟩) | none => none
            | none => none
          | none => none
        | none => none
      | none => none
/-- Statements.  The name of an object stands for the object already in its initialiser, where it has no value. -/
def execX {ω : Type} (c : CRunCtx ω) : Nat → Stms → List Auto → Store ω → Option (COut × Store ω)
  | 0, _, _, _ => none
  | n + 1, ss, a, S =>
    match ss with
    | .nil => some (.normal a, S)
    | .simple (.decl k ty x e) next =>
      if x ∈ e.names then none
      else
        match evalX c n e a S with
        | some (some v, S) => match convert ty v with | some u => execX c n next (⟨x, k, ty, u⟩ :: a) S | none => none
        | _ => none
    | .simple (.assign x e) next =>
      match evalX c n e a S with
      | some (some v, S) => match assignTo c a S x v with | some (a, S) => execX c n next a S | none => none
      | _ => none
    | .simple (.expr e) next => match evalX c n e a S with | some (_, S) => execX c n next a S | none => none
    | .simple .skip next => execX c n next a S
    | .simple (.ret .none) _ => some (.returned none, S)
    | .simple (.ret (.some e)) _ => match evalX c n e a S with | some (some v, S) => some (.returned (some v), S) | _ => none
    | .simple .breaks _ => some (.broke a, S)
    | .simple .continues _ => some (.continued a, S)
    | .ifs e t f next =>
      match evalX c n e a S with
      | some (some v, S) =>
        match v.nonzero with
        | some b => blockX c n (if b then t else f) next a S
        | none => none
      | _ => none
    | .whiles e body next =>
      match loopX c n e body a S with
      | some (.normal a, S) => execX c n next a S
      | r => r
    | .block body next => blockX c n body next a S
/-- A block, then other statements. -/
def blockX {ω : Type} (c : CRunCtx ω) : Nat → Stms → Stms → List Auto → Store ω → Option (COut × Store ω)
  | 0, _, _, _, _ => none
  | n + 1, body, next, a, S =>
    match execX c n body a S with
    | some (o, S) =>
      match o.close a with
      | .normal a => execX c n next a S
      | o => some (o, S)
    | none => none
/-- A loop. -/
def loopX {ω : Type} (c : CRunCtx ω) : Nat → Exp → Stms → List Auto → Store ω → Option (COut × Store ω)
  | 0, _, _, _, _ => none
  | n + 1, e, body, a, S =>
    match evalX c n e a S with
    | some (some v, S) =>
      match v.nonzero with
      | some false => some (.normal a, S)
      | some true =>
        match execX c n body a S with
        | some (o, S) =>
          match o.close a with
          | .normal a | .continued a => loopX c n e body a S
          | .broke a => some (.normal a, S)
          | .returned v => some (.returned v, S)
        | none => none
      | none => none
    | _ => none
end

/- ### What C checks before -/

/-- A constant expression (6.6). -/
def constant : Exp → Bool
  | .num _ | .str _ => true
  | .paren e | .un _ e => constant e
  | .bin _ l r => constant l && constant r
  | _ => false

/-- The values that objects have at first. -/
def initial {ω : Type} (c : CRunCtx ω) (x : List Char) : Option CVal :=
  match c.items.findSome? (objOf x) with
  | some (_, ty, some e) => match value ⟨fun _ => none, c.floats, c.dbl⟩ e with | some v => convert ty v | none => none
  | some (_, ty, none) => zeroOf ty
  | none => none

/-- All identifiers stand for something. -/
def scopedX (vis : List (List Char)) (e : Exp) : Bool := e.names.all fun x => decide (x ∈ vis) || decide (x ∈ runTimeNames)

/-- In statements, all identifiers stand for something, and no two objects of a block have the same name.  `block` are the names of the
block so far. -/
def scopedS (vis block : List (List Char)) : Stms → Bool
  | .nil => true
  | .simple s next =>
    match s with
    | .decl _ _ x e => scopedX (x :: vis) e && decide (x ∉ block) && scopedS (x :: vis) (x :: block) next
    | .assign x e => decide (x ∈ vis) && scopedX vis e && scopedS vis block next
    | .expr e | .ret (some e) => scopedX vis e && scopedS vis block next
    | _ => scopedS vis block next
  | .ifs e t f next => scopedX vis e && scopedS vis [] t && scopedS vis [] f && scopedS vis block next
  | .whiles e body next => scopedX vis e && scopedS vis [] body && scopedS vis block next
  | .block body next => scopedS vis [] body && scopedS vis block next

def scopedI (vis : List (List Char)) : List Item → Bool
  | [] => true
  | .object _ _ _ x _ init :: rest => init.all (scopedX (x :: vis)) && scopedI (x :: vis) rest
  | .proto _ _ f ps _ :: rest => decide ((ps.map (·.2)).Nodup) && scopedI (f :: vis) rest
  | .func _ _ f ps body :: rest =>
    decide ((ps.map (·.2)).Nodup) && scopedS (ps.map (·.2) ++ f :: vis) (ps.map (·.2)) body && scopedI (f :: vis) rest

/-- The names that items define.  Functions that are declared with a name for the linker are defined elsewhere in the file. -/
def defined : Item → List (List Char)
  | .object _ _ _ x _ _ => [x]
  | .proto _ _ f _ link => if link = none then [f] else []
  | .func _ _ f _ _ => [f]

/-- Initialisers are constant expressions that have a value. -/
def constInit {ω : Type} (c : CRunCtx ω) : Item → Bool
  | .object _ _ _ x _ (some e) => constant e && (initial c x).isSome
  | _ => true

/-- C takes the program: every name is defined once, and before it is used; initialisers are constant. -/
def valid {ω : Type} (c : CRunCtx ω) : Bool :=
  decide ((c.items.flatMap defined ++ runTimeNames).Nodup) && scopedI [] c.items && c.items.all (constInit c)

/-- Running a program: what `main` returns, and the world afterwards. -/
def runC {ω : Type} (c : CRunCtx ω) (n : Nat) (w : ω) : Option (Int × ω) :=
  if valid c then
    match callX c n "main".toList [] ⟨initial c, w⟩ with
    | some (some (.int _ i), S) => some (i, S.world)
    | _ => none
  else none

end Skull.Spec.C
