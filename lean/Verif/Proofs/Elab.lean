import Verif.Spec.Direct
import Verif.Proofs.SemEnv
/-
How a checked tree belongs to the tree it was made from.
-/
namespace Skull.Elab
open Skull.Spec

mutual
/-- A checked expression stands for the expression.  Symbols have the numbers of the declarations. -/
inductive ElE (W : World) (E : Env) : Expr → AExpr → Prop
  | ident {t t' x id τ m c} : Text t x → E.resolve x = some id → E.decls[id]? = some (.var τ m) → ElE W E (.ident t) (.ident t' id τ c)
  | const {t t' v} : litVal W.strtod t = some (.ofConst v, v.type) → ElE W E (.const t) (.const t' v)
  | call {n n' f id ps τ args as num} : Text n f → E.resolve f = some id → E.decls[id]? = some (.func ps τ) → ElA W E args as ps →
      ElE W E (.call n args num) (.call n' as id τ)
  | un {o e a c} : ElE W E e a → ElE W E (.un o e) (.un o a (operType o a.type) c)
  | bin {o l r la ra c} : ElE W E l la → ElE W E r ra → ElE W E (.bin o l r) (.bin o la ra (operType o ra.type) c)
/-- Arguments. -/
inductive ElA (W : World) (E : Env) : Args → AArgs → List Ty → Prop
  | nil : ElA W E .nil .nil []
  | cons {first first' e a next rest τs} : ElE W E e a → ElA W E next rest τs → ElA W E (.cons first e next) (.cons first' a rest) (a.type :: τs)
end

/-- A variable or a function. -/
def _root_.Skull.Spec.Decl.Used : Decl → Prop
  | .var .. | .func .. => True
  | _ => False

/-- The tokens do not begin with a type: what they begin with is a variable, a function, or no name at all. -/
def NoType (E : Env) : List Token → Prop
  | [] => True
  | t :: rest =>
    if t.ty = .identifier ∨ t.ty = .dotIdentifier then
      ∃ x id d, Text t x ∧ E.resolve x = some id ∧ E.decls[id]? = some d ∧ d.Used ∧ builtinType x = none
    else if t.ty = .operRef then NoType E rest
    else True

/-- What the symbol of a function says. -/
def FuncFact (syms : List Symbol) (id : Nat) (p : FuncProto) (τ : Ty) : Prop :=
  ∃ sym f, syms[id]? = some sym ∧ sym.kind = .func f ∧ f.returnType = τ ∧ f.isExternal = p.isExternal ∧
    (p.isExternal = true → Text p.name sym.linkageName)

mutual
/-- A checked tree belongs to the tree. -/
inductive ElT (W : World) (syms : List Symbol) : Env → Tree → ATree → Env → Prop
  | nil {E} : ElT W syms E .nil .nil E
  | node {E E₁ E₂ stmt tok tokEnd child next ann child' next'} : ElS W syms E stmt tok tokEnd child ann child' E₁ → EnvGrows E E₁ →
      ElT W syms E₁ next next' E₂ → ElT W syms E (.node stmt tok tokEnd child next) (.node ann stmt tok child' next') E₂
/-- One statement. -/
inductive ElS (W : World) (syms : List Symbol) : Env → Stmt → List Token → List Token → Tree → Ann → ATree → Env → Prop
  | comment {E tok te child ann} : ElS W syms E .comment tok te child ann .nil E
  | noop {E tok te child ann} : ElS W syms E .noop tok te child ann .nil E
  | imports {E tok te child ann} : ElS W syms E .imports tok te child ann .nil E
  | unknown {E tok te child ann} : ElS W syms E .unknown tok te child ann .nil E
  | unreachable {E tok te child ann} : ElS W syms E .unreachable tok te child ann .nil E
  | breaks {E tok te child ann} : ElS W syms E .breaks tok te child ann .nil E
  | continues {E tok te child ann} : ElS W syms E .continues tok te child ann .nil E
  | retNone {E tok te child} : ElS W syms E (.ret .missing) tok te child .none .nil E
  | ret {E tok te child e a} : e ≠ .missing → ElE W E e a → ElS W syms E (.ret e) tok te child (.expr a) .nil E
  | alias {E t ts te child name cst imp exp e x σ τ} : TypeAt E te.tail (some σ) → TypeAt E ts.tail τ → Text t x →
      ElS W syms E (.varDef name cst imp exp e) (t :: ts) te child .none .nil (E.add x (.alias τ))
  | var {E n ns tok te child cst imp exp e a x m} : NoType E te.tail → ElE W E e a → Text n x →
      ElS W syms E (.varDef (n :: ns) cst imp exp e) tok te child (.varDef E.decls.length a) .nil (E.add x (.var a.type m))
  | assign {E t ts te child e a x id m} : Text t x → E.resolve x = some id → E.decls[id]? = some (.var a.type m) → ElE W E e a →
      ElS W syms E (.varAssign e) (t :: ts) te child (.varAssign id a) .nil E
  | call {E tok te n args num a} : ElE W E (.call n args num) a →
      ElS W syms E (.expr (.call n args num)) tok te .nil (.expr a) .nil E
  | ifs {E E₁ tok te child child' e a} : ElE W E e a → ElT W syms E child child' E₁ →
      ElS W syms E (.ifs e) tok te child (.expr a) child' ⟨E.vis, E₁.decls⟩
  | elifs {E E₁ tok te child child' e a} : ElE W E e a → ElT W syms E child child' E₁ →
      ElS W syms E (.elifs e) tok te child (.expr a) child' ⟨E.vis, E₁.decls⟩
  | elses {E E₁ tok te child ann child'} : ElT W syms E child child' E₁ →
      ElS W syms E .elses tok te child ann child' ⟨E.vis, E₁.decls⟩
  | whiles {E E₁ tok te child child' e a} : ElE W E e a → ElT W syms E child child' E₁ →
      ElS W syms E (.whiles e) tok te child (.expr a) child' ⟨E.vis, E₁.decls⟩
  | ns {E E₁ k t ts te child ann child' x} : Text t x → ElT W syms (E.add x (.ns [])) child child' E₁ →
      ElS W syms E .namespaces (k :: t :: ts) te child ann child'
        ⟨(x, E.decls.length) :: E.vis, E₁.decls.set E.decls.length (.ns E₁.vis)⟩
  | func {E E₁ E₂ tok te child child' p f τ τs} : RetType E p.returnType τ → Text p.name f →
      ParamsOk W (E.add f (.func τs τ)) p.params τs E₁ → ElT W syms E₁ child child' E₂ → FuncFact syms E.decls.length p τ →
      ElS W syms E (.funcProto p) tok te child (.func E.decls.length (List.range' (E.decls.length + 1) τs.length)) child'
        ⟨(f, E.decls.length) :: E.vis, E₂.decls⟩
end

theorem ElT.grows {W syms} : ∀ {t : Tree} {E a E'}, ElT W syms E t a E' → E.WF → EnvGrows E E'
  | .nil, _, _, _, h, hw => by cases h; exact .refl hw
  | .node .., _, _, _, h, hw => by
    cases h with
    | node _ h1 h2 => exact h1.trans (h2.grows h1.wf)

end Skull.Elab
