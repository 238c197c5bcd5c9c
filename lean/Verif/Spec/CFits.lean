import Verif.Spec.CRun
/-
Programs whose C form does what they say.  The C back end puts variables outside of blocks, in functions too, in objects that live as long
as the program, and C names are what the names of the program are: these conditions keep that from making a difference.
-/
namespace Skull.Spec.C

/-- The arithmetic that C can do, if operands have 64 bits. -/
def cArith (F : Floats) : Arith where
  un := docUn F
  bin o ty x y := if safeBinC false false o x y then docBin F o ty x y else none

/-- A value of a type. -/
def HasTy : Ty → Val → Prop
  | .prim .int, .int i => -(2 ^ 63 : Int) ≤ i ∧ i < 2 ^ 63
  | .prim .float, .float _ => True
  | .prim .bool, .bool _ => True
  | .prim .rune, .rune r => r < 2 ^ 32
  | .prim .str, .str _ => True
  | .prim .void, .unit => True
  | _, _ => False

/-- External functions give values of their types. -/
def ExtTyped {ω : Type} (syms : List Symbol) (ext : List Char → List Val → ω → Option (Val × ω)) : Prop :=
  ∀ (id : Nat) (sym : Symbol) (f : Func), syms[id]? = some sym → sym.kind = .func f → f.isExternal = true →
    ∀ vs w v w', ext sym.linkageName vs w = some (v, w') → HasTy f.returnType v

/-- Where an expression stands: the variables of blocks, and parameters, the innermost first; those of the same block; the variables of the
function that are outside of its blocks; those outside of functions and blocks; the number of functions before; the function itself,
and the type of what is returned. -/
structure CScope where
  autos : List Nat
  block : List Nat
  own : List Nat
  tops : List Nat
  count : Nat
  self : Option Nat
  ret : Ty

/-- The name of a symbol. -/
def nameOf (syms : List Symbol) (id : Nat) : List Char := match syms[id]? with | some sym => sym.name | none => []

/-- A name stands for something in a block. -/
def CScope.hides (K : CScope) (syms : List Symbol) (x : List Char) : Bool := K.autos.any fun id => nameOf syms id = x

/-- The name of a variable stands for the variable, in C. -/
def resolves (syms : List Symbol) (K : CScope) (id : Nat) : Bool :=
  if id ∈ K.autos then decide (K.autos.find? (fun i => nameOf syms i = nameOf syms id) = some id)
  else (decide (id ∈ K.own) || decide (id ∈ K.tops)) && !K.hides syms (nameOf syms id)

/-- A variable that cannot be changed, with a value that is known. -/
def isKnownConst (syms : List Symbol) (id : Nat) : Bool :=
  match syms[id]? with
  | some sym => match sym.kind with | .var v => v.isConst && v.constExpr = some true | _ => false
  | none => false

/-- The expression calls functions. -/
def hasCall : AExpr → Bool
  | .call .. => true
  | .un _ r _ _ => hasCall r
  | .bin _ l r _ _ => hasCall l || hasCall r
  | _ => false

/-- The expression calls no functions, and depends only on variables that functions cannot change. -/
def steadyE (syms : List Symbol) (K : CScope) : AExpr → Bool
  | .ident _ id _ _ => decide (id ∈ K.autos) || isKnownConst syms id
  | .const .. => true
  | .call .. => false
  | .un _ r _ _ => steadyE syms K r
  | .bin _ l r _ _ => steadyE syms K l && steadyE syms K r

/-- The order in which two expressions are evaluated makes no difference. -/
def apartE (syms : List Symbol) (K : CScope) (l r : AExpr) : Bool := (!hasCall l && !hasCall r) || steadyE syms K l || steadyE syms K r

def apartFromE (syms : List Symbol) (K : CScope) (e : AExpr) : AArgs → Bool
  | .cons _ e' next => apartE syms K e e' && apartFromE syms K e next
  | _ => true

def apartArgs (syms : List Symbol) (K : CScope) : AArgs → Bool
  | .cons _ e next => apartFromE syms K e next && apartArgs syms K next
  | _ => true

/-- Both operands can have the type `int`. -/
def narrowBin (o : Oper) (l r : AExpr) : Bool :=
  match o with
  | .add | .sub | .mult | .div | .mod => narrow l && narrow r
  | .lshift | .rshift => narrow l
  | _ => false

/-- The variables of a function outside of its blocks whose value is not known. -/
def unknowns : ATree → List Nat
  | .node (.varDef id e) _ _ _ next => if e.isConstExpr then unknowns next else id :: unknowns next
  | .node _ _ _ _ next => unknowns next
  | _ => []

/-- A function that is declared before; or the function itself, if there are none of these variables in it. -/
def callable (ds : List (Nat × List Nat × ATree)) (K : CScope) (id : Nat) : Bool :=
  match ds.findIdx? (·.1 = id) with
  | some j => decide (j < K.count) || (decide (K.self = some j) && match ds[j]? with | some d => (unknowns d.2.2).isEmpty | none => false)
  | none => false

mutual
def fitsE (F : Floats) (syms : List Symbol) (ds : List (Nat × List Nat × ATree)) (K : CScope) : AExpr → Bool
  | .ident _ id _ _ => resolves syms K id
  | .const .. => true
  | .call _ args id _ => callable ds K id && !K.hides syms (nameOf syms id) && fitsA F syms ds K args && apartArgs syms K args
  | .un o r ty k => fitsE F syms ds K r &&
    (!(decide (o = .unaryNeg) && narrow r) || (literalOnly r && safeC F (fun _ => none) (.un o r ty k)))
  | .bin o l r ty k => fitsE F syms ds K l && fitsE F syms ds K r &&
    (!narrowBin o l r || (literalOnly l && literalOnly r && safeC F (fun _ => none) (.bin o l r ty k))) &&
    (if o = .and ∨ o = .or then !hasCall r else apartE syms K l r)
def fitsA (F : Floats) (syms : List Symbol) (ds : List (Nat × List Nat × ATree)) (K : CScope) : AArgs → Bool
  | .nil => true
  | .cons _ e next => fitsE F syms ds K e && decide (e.type ≠ .prim .void) && fitsA F syms ds K next
  | .unchecked _ => false
end

mutual
/-- The symbols of an expression. -/
def symbolsE : AExpr → List Nat
  | .ident _ id _ _ => [id]
  | .const .. => []
  | .call _ args id _ => id :: symbolsA args
  | .un _ r _ _ => symbolsE r
  | .bin _ l r _ _ => symbolsE l ++ symbolsE r
def symbolsA : AArgs → List Nat
  | .cons _ e next => symbolsE e ++ symbolsA next
  | _ => []
end

/-- The value of a variable outside of blocks, if it is known, is a C constant expression; and in a function the variable cannot be
changed. -/
def fitsObj (F : Floats) (syms : List Symbol) (K : CScope) (id : Nat) (e : AExpr) : Bool :=
  !e.isConstExpr ||
    (literalOnly e && !e.someBin comparesStr && !e.someBin powsInt && !e.someBin powsFloat && safeC F (fun _ => none) e &&
      (valueE (docArith F) (fun _ => none) e).isSome && (K.self.isNone || isKnownConst syms id))

/-- A variable of a block, or a parameter: its name is none of the run time's, and no other one of the block. -/
def fitsAuto (syms : List Symbol) (K : CScope) (id : Nat) : Bool :=
  decide (nameOf syms id ∉ runTimeNames) && K.block.all fun i => nameOf syms i ≠ nameOf syms id

def CScope.push (K : CScope) (id : Nat) : CScope := { K with autos := id :: K.autos, block := id :: K.block }

def CScope.addObj (K : CScope) (id : Nat) : CScope :=
  if K.self.isSome then { K with own := id :: K.own } else { K with tops := id :: K.tops }

/-- In a block of its own. -/
def CScope.inner (K : CScope) : CScope := { K with block := [] }

/-- The type of what a function returns. -/
def returnOf (syms : List Symbol) (id : Nat) : Ty :=
  match syms[id]? with
  | some sym => match sym.kind with | .func f => f.returnType | _ => .prim .void
  | none => .prim .void

/-- A function of another module: it is not exported, and its name for the linker is its name. -/
def fitsExtern (syms : List Symbol) (id : Nat) : Bool :=
  match syms[id]? with
  | some sym => match sym.kind with | .func f => !f.isExport && decide (sym.linkageName = sym.name) | _ => false
  | none => false

/-- In a function. -/
def CScope.enter (K : CScope) (syms : List Symbol) (id : Nat) (ps : List Nat) : CScope :=
  ⟨ps, ps, [], K.tops, K.count, some K.count, returnOf syms id⟩

/-- Statements; `deep`: in a block.  There are no namespaces, and functions are outside of blocks and functions. -/
def fitsT (F : Floats) (syms : List Symbol) (ds : List (Nat × List Nat × ATree)) (K : CScope) (deep : Bool) : ATree → Bool
  | .nil => true
  | .unchecked _ => false
  | .node ann stmt _ child next =>
    match stmt, ann with
    | .varDef .., .varDef id e =>
      fitsE F syms ds K e && decide (e.type ≠ .prim .void) &&
        (if deep then fitsAuto syms K id && (symbolsE e).all (fun i => nameOf syms i ≠ nameOf syms id) && fitsT F syms ds (K.push id) deep next
        else fitsObj F syms K id e && !K.hides syms (nameOf syms id) && fitsT F syms ds (K.addObj id) deep next)
    | .varAssign _, .varAssign id e =>
      fitsE F syms ds K e && decide (e.type ≠ .prim .void) && resolves syms K id && fitsT F syms ds K deep next
    | .ret _, .expr e => fitsE F syms ds K e && decide (e.type = K.ret) && decide (K.ret ≠ .prim .void) && fitsT F syms ds K deep next
    | .expr _, .expr e => fitsE F syms ds K e && fitsT F syms ds K deep next
    | .ifs _, .expr e | .elifs _, .expr e | .whiles _, .expr e =>
      fitsE F syms ds K e && fitsT F syms ds K.inner true child && fitsT F syms ds K deep next
    | .elses, _ => fitsT F syms ds K.inner true child && fitsT F syms ds K deep next
    | .funcProto p, .func id ps =>
      K.self.isNone && !deep && decide ((ps.map (nameOf syms)).Nodup) && ps.all (fun i => nameOf syms i ∉ runTimeNames) &&
        (if p.isExternal then fitsExtern syms id else fitsT F syms ds (K.enter syms id ps) false child) &&
        fitsT F syms ds { K with count := K.count + 1 } deep next
    | .namespaces, _ => false
    | _, _ => fitsT F syms ds K deep next

/-- The variables outside of blocks, and the functions. -/
def fileIds : ATree → List Nat
  | .node (.varDef id _) _ _ _ next => id :: fileIds next
  | .node (.func id _) stmt _ child next => (if isForeign stmt then [] else fileIds child) ++ id :: fileIds next
  | .node _ _ _ _ next => fileIds next
  | _ => []

/-- Names that the back end uses itself. -/
def ownNames : List (List Char) := ["init".toList, "main".toList] ++ runTimeNames

/-- The program fits. -/
def fits (F : Floats) (syms : List Symbol) (prog : ATree) : Bool :=
  fitsT F syms (decls prog) ⟨[], [], [], [], 0, none, .prim .int⟩ false prog &&
    decide (((fileIds prog).map (nameOf syms) ++ ownNames).Nodup)

end Skull.Spec.C
