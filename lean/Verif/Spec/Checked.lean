import Verif.Spec.Uses
import Verif.Spec.Typing
/-
What a checked tree looks like: every node has what its statement needs, every symbol is of the right kind, and the types fit.
`syms` are the symbols.
-/
namespace Skull.Spec

/-- What the token of a constant tells about its value. -/
def ConstOk (t : Token) : Value → Prop
  | .int i => t.ty = .intConst ∧ evalInteger t = .ok i ∧ - 2 ^ 63 ≤ i ∧ i < 2 ^ 63
  | .rune r => isScalar r = true
  | .str s => ∀ c ∈ s, isScalar c = true ∧ c ≠ 0
  | _ => True

mutual
/-- The expression is well typed. -/
inductive WtE (syms : List Symbol) : AExpr → Prop
  | ident {t id sym v} : syms[id]? = some sym → sym.kind = .var v → v.name = sym.name → v.isDefined = true →
      WtE syms (.ident t id v.type (v.constExpr.getD false))
  | const {t v} : ConstOk t v → WtE syms (.const t v)
  | call {n args id sym f} : syms[id]? = some sym → sym.kind = .func f → f.numParams = f.paramTypes.length →
      WtA syms f.paramTypes args → WtE syms (.call n args id f.returnType)
  | un {o r ty} : unType o r.type = some ty → WtE syms r → WtE syms (.un o r ty r.isConstExpr)
  | ref {t id ty c} : WtE syms (.ident t id ty c) → WtE syms (.un .ref (.ident t id ty c) (.ref ty) c)
  | deref {t id ty c} : WtE syms (.ident t id (.ref ty) c) → WtE syms (.un .deref (.ident t id (.ref ty) c) ty c)
  | bin {o l r ty} : WtE syms l → WtE syms r → l.type = r.type → binType o r.type = some ty →
      (o = .div ∨ o = .mod → ∀ t, r ≠ .const t (.int 0)) → WtE syms (.bin o l r ty (l.isConstExpr && r.isConstExpr))
/-- The arguments have the types of the parameters; there may be more of them, which are not looked at. -/
inductive WtA (syms : List Symbol) : List Ty → AArgs → Prop
  | nil : WtA syms [] .nil
  | more {rest} : WtA syms [] (.unchecked rest)
  | cons {t e next ty tys} : WtE syms e → e.type = ty → WtA syms tys next → WtA syms (ty :: tys) (.cons t e next)
end

/-- Only comments, noop and unreachable. -/
def Quiet : ATree → Prop
  | .nil => True
  | .unchecked _ => False
  | .node _ stmt _ _ next => (stmt = .comment ∨ stmt = .noop ∨ stmt = .unreachable) ∧ Quiet next

/-- A variable that is a parameter with this type. -/
def IsParam (syms : List Symbol) (id : Nat) (ty : Ty) : Prop :=
  ∃ sym v, syms[id]? = some sym ∧ sym.kind = .var v ∧ v.name = sym.name ∧ v.isConst = true ∧ v.isDefined = true ∧ v.type = ty ∧ v.constExpr = none

/-- The node has what its statement needs.  `loop` says whether it is in a loop of the same function, `before` are the statements
before it, the last one first. -/
inductive WtNode (syms : List Symbol) (loop : Bool) (before : List Stmt) : Ann → Stmt → ATree → ATree → Prop
  | alias {n c i x e next} : WtNode syms loop before .none (.varDef n c i x e) .nil next
  | varDef {n rest c i x e id sym v a next} : syms[id]? = some sym → sym.kind = .var v → v.name = sym.name → v.isConst = c →
      v.isExported = x → v.isDefined = true → v.type = a.type → v.constExpr = some a.isConstExpr → WtE syms a →
      (∀ t args f, a ≠ .call t args f (.prim .void)) →
      WtNode syms loop before (.varDef id a) (.varDef (n :: rest) c i x e) .nil next
  | assign {e id sym v a next} : syms[id]? = some sym → sym.kind = .var v → v.name = sym.name → v.isConst = false →
      v.isDefined = true → v.type = a.type → WtE syms a → WtNode syms loop before (.varAssign id a) (.varAssign e) .nil next
  | ret {next} : Quiet next → WtNode syms loop before .none (.ret .missing) .nil next
  | retValue {e a next} : e ≠ .missing → WtE syms a → Quiet next → WtNode syms loop before (.expr a) (.ret e) .nil next
  | call {e t args f ty child next} : WtE syms (.call t args f ty) → (child = .nil ∨ ∃ t, child = .unchecked t) →
      WtNode syms loop before (.expr (.call t args f ty)) (.expr e) child next
  | ifs {c a child next} : WtE syms a → a.type = .prim .bool → child ≠ .nil → WtNode syms loop before (.expr a) (.ifs c) child next
  | elifs {c a child next} : WtE syms a → a.type = .prim .bool → child ≠ .nil → AfterIf before →
      WtNode syms loop before (.expr a) (.elifs c) child next
  | elses {child next} : AfterIf before → child ≠ .nil → WtNode syms loop before .none .elses child next
  | whiles {c a child next} : WtE syms a → a.type = .prim .bool → child ≠ .nil →
      WtNode syms loop before (.expr a) (.whiles c) child next
  | breaks {next} : loop = true → Quiet next → WtNode syms loop before .none .breaks .nil next
  | continues {next} : loop = true → Quiet next → WtNode syms loop before .none .continues .nil next
  | func {p id sym f params child next} : syms[id]? = some sym → sym.kind = .func f → f.isExternal = p.isExternal →
      f.isExport = p.isExport → f.numParams = p.numParams → f.numParams = f.paramTypes.length → params.length = f.numParams →
      (∀ (i id : Nat) (ty : Ty), params[i]? = some id → f.paramTypes[i]? = some ty → IsParam syms id ty) → params.Nodup →
      WtNode syms loop before (.func id params) (.funcProto p) child next
  | ns {id sym child next} : syms[id]? = some sym → WtNode syms loop before (.ns id) .namespaces child next
  | unreachable {next} : Quiet next → WtNode syms loop before .none .unreachable .nil next
  | other {stmt next} : stmt = .noop ∨ stmt = .comment ∨ stmt = .imports ∨ stmt = .unknown →
      WtNode syms loop before .none stmt .nil next

/-- Whether the block of a statement is in a loop of the same function. -/
def inLoop (loop : Bool) : Stmt → Bool
  | .whiles _ => true
  | .funcProto _ => false
  | _ => loop

/-- All nodes of the tree have what their statements need. -/
inductive WtTree (syms : List Symbol) : Bool → List Stmt → ATree → Prop
  | nil {loop before} : WtTree syms loop before .nil
  | unchecked {loop before t} : WtTree syms loop before (.unchecked t)
  | node {loop before ann stmt tok child next} : WtNode syms loop before ann stmt child next →
      WtTree syms (inLoop loop stmt) [] child → WtTree syms loop (stmt :: before) next →
      WtTree syms loop before (.node ann stmt tok child next)

end Skull.Spec
