import Verif.Spec.Generates
import Verif.Spec.CProgram
import Verif.Spec.CReads
/-
When a C program is the C form of a checked program: statement for statement.  The functions of the generator are not used.
-/
namespace Skull.Spec.C

/-- The C form of a type. -/
def cType : Ty → CType
  | .prim .int => .base "int64_t".toList
  | .prim .float => .base "double".toList
  | .prim .rune => .base "char32_t".toList
  | .prim .str => .ptr (.base "char".toList)
  | .prim .bool => .base "bool".toList
  | .prim .void => .base "void".toList
  | .ref inner => .ptr (cType inner)

/-- One statement after another. -/
def Stms.append : Stms → Stms → Stms
  | .nil, b => b
  | .simple s next, b => .simple s (next.append b)
  | .ifs e t f next, b => .ifs e t f (next.append b)
  | .whiles e t next, b => .whiles e t (next.append b)
  | .block t next, b => .block t (next.append b)

/-- The C form of a parameter. -/
def IsParamOf (syms : List Symbol) (id : Nat) (p : CType × List Char) : Prop :=
  ∃ sym v, syms[id]? = some sym ∧ sym.kind = .var v ∧ p = (cType v.type, sym.name)

/-- The C forms of parameters. -/
inductive ParamsOf (syms : List Symbol) : List Nat → List (CType × List Char) → Prop
  | nil : ParamsOf syms [] []
  | cons {id ids p ps} : IsParamOf syms id p → ParamsOf syms ids ps → ParamsOf syms (id :: ids) (p :: ps)

/-- The name for the linker, if it is to be another one. -/
def linkOf (isExport : Bool) (link : List Char) : Option (List Char) := if isExport then some link else none

/-- The declaration of an exported function, which has the name for the linker. -/
def exported (isExport : Bool) (ty : CType) (f : List Char) (ps : List (CType × List Char)) (link : List Char) : List Item :=
  if isExport then [.proto false ty f ps (some link)] else []

mutual
/-- `CForm level tree statements items`: the C form of statements.  They become statements where they stand, and items outside of all
functions, which are those of functions and of variables outside of blocks: `level` is 1 there. -/
inductive CForm (syms : List Symbol) (fmtA : Nat → List Char) : Nat → ATree → Stms → List Item → Prop
  | nil {d} : CForm syms fmtA d .nil .nil []
  | silent {d ann stmt tok child next ss items} : stmt = .comment ∨ stmt = .imports ∨ stmt = .unknown →
      CForm syms fmtA d next ss items → CForm syms fmtA d (.node ann stmt tok child next) ss items
  | alias {d n k i x e tok child next ss items} : CForm syms fmtA d next ss items →
      CForm syms fmtA d (.node .none (.varDef n k i x e) tok child next) ss items
  | known {id e stmt tok child next sym v c ss items} : syms[id]? = some sym → sym.kind = .var v → e.isConstExpr = true →
      Reads syms fmtA e c → CForm syms fmtA 1 next ss items →
      CForm syms fmtA 1 (.node (.varDef id e) stmt tok child next) ss
        (.object (!v.isExported) v.isConst (cType v.type) sym.name (linkOf v.isExported v.linkageName) (some c) :: items)
  | unknown {id e stmt tok child next sym v c ss items} : syms[id]? = some sym → sym.kind = .var v → e.isConstExpr = false →
      Reads syms fmtA e c → CForm syms fmtA 1 next ss items →
      CForm syms fmtA 1 (.node (.varDef id e) stmt tok child next) (.simple (.assign sym.name c) ss)
        (.object (!v.isExported) false (cType v.type) sym.name (linkOf v.isExported v.linkageName) none :: items)
  | loc {d id e stmt tok child next sym v c ss items} : d ≠ 1 → syms[id]? = some sym → sym.kind = .var v → Reads syms fmtA e c →
      CForm syms fmtA d next ss items →
      CForm syms fmtA d (.node (.varDef id e) stmt tok child next) (.simple (.decl v.isConst (cType v.type) sym.name c) ss) items
  | assign {d id e stmt tok child next sym c ss items} : syms[id]? = some sym → Reads syms fmtA e c → CForm syms fmtA d next ss items →
      CForm syms fmtA d (.node (.varAssign id e) stmt tok child next) (.simple (.assign sym.name c) ss) items
  | ret {d e tok child next ss items} : CForm syms fmtA d next ss items →
      CForm syms fmtA d (.node .none (.ret e) tok child next) (.simple (.ret none) ss) items
  | retValue {d a e c tok child next ss items} : Reads syms fmtA e c → CForm syms fmtA d next ss items →
      CForm syms fmtA d (.node (.expr e) (.ret a) tok child next) (.simple (.ret (some c)) ss) items
  | expr {d a e c tok child next ss items} : Reads syms fmtA e c → CForm syms fmtA d next ss items →
      CForm syms fmtA d (.node (.expr e) (.expr a) tok child next) (.simple (.expr c) ss) items
  | noop {d ann tok child next ss items} : CForm syms fmtA d next ss items →
      CForm syms fmtA d (.node ann .noop tok child next) (.simple .skip ss) items
  | breaks {d ann tok child next ss items} : CForm syms fmtA d next ss items →
      CForm syms fmtA d (.node ann .breaks tok child next) (.simple .breaks ss) items
  | continues {d ann tok child next ss items} : CForm syms fmtA d next ss items →
      CForm syms fmtA d (.node ann .continues tok child next) (.simple .continues ss) items
  | ifs {d a e c tok child next body els ss bi ni} : Reads syms fmtA e c → CForm syms fmtA (d + 1) child body bi →
      CFormElse syms fmtA d next els ss ni →
      CForm syms fmtA d (.node (.expr e) (.ifs a) tok child next) (.ifs c body els ss) (bi ++ ni)
  | whiles {d a e c tok child next body ss bi ni} : Reads syms fmtA e c → CForm syms fmtA (d + 1) child body bi →
      CForm syms fmtA d next ss ni → CForm syms fmtA d (.node (.expr e) (.whiles a) tok child next) (.whiles c body ss) (bi ++ ni)
  | unreachable {d ann tok child next ss items} : CForm syms fmtA d next ss items →
      CForm syms fmtA d (.node ann .unreachable tok child next) (.whiles (.num ['1']) .nil ss) items
  | ns {d id sym stmt tok child next body ss bi ni} : syms[id]? = some sym → CForm syms fmtA (d + 1) child body bi →
      CForm syms fmtA d next ss ni →
      CForm syms fmtA d (.node (.ns id) stmt tok child next) (.simple (.expr (.str sym.name)) (.block body ss)) (bi ++ ni)
  | external {d id params sym f ps stmt tok child next ss items} : syms[id]? = some sym → sym.kind = .func f → f.isExternal = true →
      ParamsOf syms params ps → CForm syms fmtA d next ss items →
      CForm syms fmtA d (.node (.func id params) stmt tok child next) ss
        (.proto false (cType f.returnType) sym.name ps (linkOf f.isExport sym.linkageName) :: items)
  | func {d id params sym f ps stmt tok child next body ss bi ni} : syms[id]? = some sym → sym.kind = .func f → f.isExternal = false →
      ParamsOf syms params ps → CForm syms fmtA 1 child body bi → CForm syms fmtA d next ss ni →
      CForm syms fmtA d (.node (.func id params) stmt tok child next) ss
        (bi ++ exported f.isExport (cType f.returnType) sym.name ps sym.linkageName ++
          .func (!f.isExport) (cType f.returnType) sym.name ps body :: ni)
/-- `CFormElse level tree alternative statements items`: the C form of statements behind an `if`, the first of which may be its
alternatives. -/
inductive CFormElse (syms : List Symbol) (fmtA : Nat → List Char) : Nat → ATree → Stms → Stms → List Item → Prop
  | none {d tree ss items} : CForm syms fmtA d tree ss items → CFormElse syms fmtA d tree .nil ss items
  | comment {d ann tok child next els ss items} : CFormElse syms fmtA d next els ss items →
      CFormElse syms fmtA d (.node ann .comment tok child next) els ss items
  | els {d ann tok child next body ss bi ni} : CForm syms fmtA (d + 1) child body bi → CForm syms fmtA d next ss ni →
      CFormElse syms fmtA d (.node ann .elses tok child next) body ss (bi ++ ni)
  | elif {d a e c tok child next body els ss bi ni} : Reads syms fmtA e c → CForm syms fmtA (d + 1) child body bi →
      CFormElse syms fmtA d next els ss ni →
      CFormElse syms fmtA d (.node (.expr e) (.elifs a) tok child next) (.ifs c body els .nil) ss (bi ++ ni)
end

/-- The C form of a whole program: its items; the function `init`, with the name `main` for the linker, that has the statements; and
the function `main` that calls it. -/
def IsProgram (syms : List Symbol) (fmtA : Nat → List Char) (main : List Char) (tree : ATree) (items : List Item) : Prop :=
  ∃ ss its, CForm syms fmtA 1 tree ss its ∧
    items = its ++
      [.proto true (.base "int".toList) "init".toList [] (some main),
       .func true (.base "int".toList) "init".toList [] (ss.append (.simple (.ret (some (.num ['0']))) .nil)),
       .func false (.base "int".toList) "main".toList [] (.simple (.ret (some (.call (.id "init".toList) .nil))) .nil)]

/-- Characters that stand for themselves in a C string. -/
def PlainText (s : List Char) : Prop := ∀ c ∈ s, c ≠ '"' ∧ c ≠ '\\' ∧ c ≠ '\n'

/-- The symbol has a name that is a C identifier and not that of a type, and a name for the linker that stands for itself. -/
def FineName (syms : List Symbol) (id : Nat) : Prop :=
  ∀ sym, syms[id]? = some sym → IsName sym.name ∧ sym.name ∉ typeNames ∧ PlainText sym.linkageName ∧
    ∀ v, sym.kind = .var v → PlainText v.linkageName

/-- Names and constants of a statement are fine. -/
def FineAnn (syms : List Symbol) (fmtA : Nat → List Char) : Ann → Prop
  | .none => True
  | .varDef id e | .varAssign id e => FineName syms id ∧ Fine syms fmtA e
  | .expr e => Fine syms fmtA e ∧ ∀ tok args id ty, e = .call tok args id ty → FineName syms id
  | .func id params => FineName syms id ∧ ∀ p ∈ params, FineName syms p
  | .ns id => FineName syms id

/-- Names and constants of all statements are fine. -/
def FineTree (syms : List Symbol) (fmtA : Nat → List Char) : ATree → Prop
  | .nil => True
  | .unchecked _ => True
  | .node ann _ _ child next => FineAnn syms fmtA ann ∧ FineTree syms fmtA child ∧ FineTree syms fmtA next

end Skull.Spec.C

namespace Skull

mutual
/-- Some operator in the expression is as `p` says, given its left operand's type and its own. -/
def AExpr.someBin (p : Oper → Ty → Ty → Bool) : AExpr → Bool
  | .ident .. => false
  | .const .. => false
  | .call _ args _ _ => args.someBin p
  | .un _ r _ _ => r.someBin p
  | .bin o l r ty _ => p o l.type ty || l.someBin p || r.someBin p
def AArgs.someBin (p : Oper → Ty → Ty → Bool) : AArgs → Bool
  | .nil => false
  | .cons _ e next => e.someBin p || next.someBin p
  | .unchecked _ => false
end

/-- Strings are compared. -/
def comparesStr (o : Oper) (l _ : Ty) : Bool := (o = .is || o = .isnt) && l = .prim .str

/-- Integers are raised to a power. -/
def powsInt (o : Oper) (_ ty : Ty) : Bool := o = .pow && ty = .prim .int

/-- Floats are raised to a power. -/
def powsFloat (o : Oper) (_ ty : Ty) : Bool := o = .pow && ty = .prim .float

/-- Some expression of the program has such an operator; blocks of external functions do not count. -/
def ATree.someBin (p : Oper → Ty → Ty → Bool) : ATree → Bool
  | .nil => false
  | .unchecked _ => false
  | .node ann stmt _ child next =>
    ann.value.any (·.someBin p) || (!Spec.isForeign stmt && child.someBin p) || next.someBin p

end Skull
