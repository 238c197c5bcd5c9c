import Verif.Proofs.SemAccepted
import Verif.Proofs.SemComplete
import Verif.Proofs.ManyArgs
/-
C37-C47 and C58: the semantic check.

`Accepted cfg t` says that the check accepts the tree `t`.  `At W t c E before t'` says that the statements `t'` of the program `t`
are reached with the environment `E`, which has the declarations in force there.
-/
namespace Skull
open Spec

/-! ## C37 Every use of a variable is after its definition -/

/-- Every statement of an accepted program is reached: the theorems about `At` are about all of them.  (Missing: statements in
blocks behind calls, which are not looked at.) -/
theorem C37_every_statement_partial (cfg : Cfg) (t : Tree) (ha : Accepted cfg t) (hc : Counted t) (hb : CallsBare t)
    {up before stmt tok tokEnd child next} (h : Occ [] [] t up before (.node stmt tok tokEnd child next)) :
    ∃ c E, At (cfg.world False) t c E before (.node stmt tok tokEnd child next) := by
  obtain ⟨c, E, _, h, _⟩ := accepted_occ ha hc hb h
  exact ⟨c, E, h⟩

/-- Every identifier in an expression of an accepted program names a variable declared earlier and visible there.  (Missing: blocks
behind calls.) -/
theorem C37_partial (cfg : Cfg) (t : Tree) (ha : Accepted cfg t) (hc : Counted t) (hb : CallsBare t)
    {c E before stmt tok tokEnd child next} (h : At (cfg.world False) t c E before (.node stmt tok tokEnd child next))
    (e : Expr) (he : stmtExpr stmt = some e) (hna : ¬ IsAlias E stmt tokEnd) (u : Token) (hu : SubExpr (.ident u) e) :
    ∃ x τ m, Text u x ∧ E.decl x = some (.var τ m) := by
  obtain ⟨E', h1⟩ := accepted_at ha hc hb (returns := False) (ext := false) False.elim h
  have hm : e ≠ .missing := by rintro rfl; cases hu
  obtain ⟨τ, h2⟩ := h1.value he hm hna
  obtain ⟨σ, h3⟩ := h2.sub _ hu
  cases h3 with
  | ident h3 h4 => exact ⟨_, _, _, h3, h4⟩

/-- The same for the target of an assignment. -/
theorem C37_assign_partial (cfg : Cfg) (t : Tree) (ha : Accepted cfg t) (hc : Counted t) (hb : CallsBare t)
    {c E before e tok tokEnd child next} (h : At (cfg.world False) t c E before (.node (.varAssign e) tok tokEnd child next)) :
    ∃ u x τ m, tok.head? = some u ∧ Text u x ∧ E.decl x = some (.var τ m) := by
  obtain ⟨E', h1⟩ := accepted_at ha hc hb (returns := False) (ext := false) False.elim h
  cases h1 with
  | varAssign h1 h2 => exact ⟨_, _, _, _, rfl, h1, h2⟩


/-- As stated; false. -/
def C37_full : Prop := ∀ (cfg : Cfg) (t : Tree), Parsed t → Accepted cfg t → ∀ {c E before stmt tok tokEnd child next},
  At (cfg.world False) t c E before (.node stmt tok tokEnd child next) → ∀ e, stmtExpr stmt = some e → ¬ IsAlias E stmt tokEnd →
  ∀ u, SubExpr (.ident u) e → ∃ x τ m, Text u x ∧ E.decl x = some (.var τ m)

/-- A block behind a call is not looked at. -/
local notation "useSrc" => "f(a: Int) {\nnoop\n}\nf(1) {\nreturn y\n}\n"

theorem C37_false : ¬ C37_full := by
  intro h
  have ha : acceptsSrc useSrc = true := by decide +kernel
  have hr : ∃ u tok tokEnd child next, callShape (parsed useSrc) = some (.ret (.ident u), tok, tokEnd, child, next) ∧
      tokenToString u = some ['y'] := by
    have : (match callShape (parsed useSrc) with | some (.ret (.ident u), _) => tokenToString u == some ['y'] | _ => false) = true := by
      decide +kernel
    split at this
    · rename_i u r hs
      exact ⟨u, _, _, _, _, hs, by simpa using this⟩
    · cases this
  obtain ⟨u, tok, tokEnd, child, next, h1, h2⟩ := hr
  obtain ⟨c, E, n, args, num, h3, _, h4⟩ := callBlock ha (by decide +kernel) h1
  obtain ⟨x, τ, m, h5, h6⟩ := h _ _ (parsed_src ha) (accepted_src ha) h3 _ rfl (by rintro ⟨⟨_, _, _, _, _, h⟩, _⟩; cases h) u .here
  cases text_det h5 h2
  rw [no_decl h4 (by decide) (by decide)] at h6
  cases h6

example : acceptsSrc "x := 1\ny := x + 1\nmut z := y\nz = x\n" = true := by decide +kernel
example : refusals "y := x + 1\nx := 1\n" = some [.errVarNotFound] := by decide +kernel
example : refusals "x := x\n" = some [.errVarNotFound] := by decide +kernel

/-! ## C38 Constants are never reassigned -/

/-- The target of an assignment is a variable declared with `mut`, and the value has its type.  (Missing: blocks behind calls.) -/
theorem C38_partial (cfg : Cfg) (t : Tree) (ha : Accepted cfg t) (hc : Counted t) (hb : CallsBare t)
    {c E before e tok tokEnd child next} (h : At (cfg.world False) t c E before (.node (.varAssign e) tok tokEnd child next)) :
    ∃ u x τ, tok.head? = some u ∧ Text u x ∧ E.decl x = some (.var τ true) ∧ HasType (cfg.world False) E e τ := by
  obtain ⟨E', h1⟩ := accepted_at ha hc hb (returns := False) (ext := false) False.elim h
  cases h1 with
  | varAssign h1 h2 h3 => exact ⟨_, _, _, rfl, h1, h2, h3⟩


/-- As stated; false. -/
def C38_full : Prop := ∀ (cfg : Cfg) (t : Tree), Parsed t → Accepted cfg t → ∀ {c E before e tok tokEnd child next},
  At (cfg.world False) t c E before (.node (.varAssign e) tok tokEnd child next) →
  ∃ u x τ, tok.head? = some u ∧ Text u x ∧ E.decl x = some (.var τ true) ∧ HasType (cfg.world False) E e τ

local notation "assignSrc" => "f(a: Int) {\nnoop\n}\nf(1) {\ny = 1\n}\n"

theorem C38_false : ¬ C38_full := by
  intro h
  have ha : acceptsSrc assignSrc = true := by decide +kernel
  have hr : ∃ e u tok tokEnd child next, callShape (parsed assignSrc) = some (.varAssign e, u :: tok, tokEnd, child, next) ∧
      tokenToString u = some ['y'] := by
    have : (match callShape (parsed assignSrc) with | some (.varAssign _, u :: _, _) => tokenToString u == some ['y'] | _ => false) =
        true := by decide +kernel
    split at this
    · rename_i e u tok r hs
      exact ⟨e, u, tok, _, _, _, hs, by simpa using this⟩
    · cases this
  obtain ⟨e, u, tok, tokEnd, child, next, h1, h2⟩ := hr
  obtain ⟨c, E, n, args, num, h3, _, h4⟩ := callBlock ha (by decide +kernel) h1
  obtain ⟨u', x, τ, h5, h6, h7, _⟩ := h _ _ (parsed_src ha) (accepted_src ha) h3
  cases h5
  cases text_det h6 h2
  rw [no_decl h4 (by decide) (by decide)] at h7
  cases h7

example : acceptsSrc "mut x := 1\nx = 2\ny := x\n" = true := by decide +kernel
example : refusals "x := 1\nx = 2\n" = some [.errReassignConst] := by decide +kernel
example : refusals "f(x: Int) {\nx = 2\n}\n" = some [.errReassignConst] := by decide +kernel
example : refusals "mut x := 1\nx = true\n" = some [.errExpectedSameType] := by decide +kernel

/-! ## C40 Calls match the function's signature -/

/-- A call passes as many arguments as the function has parameters, each with the parameter's type.  (Missing: calls with 65536 or
more arguments, for which it is false, and blocks behind calls.) -/
theorem C40_partial (cfg : Cfg) (t : Tree) (ha : Accepted cfg t) (hc : Counted t) (hb : CallsBare t)
    {c E before stmt tok tokEnd child next} (h : At (cfg.world False) t c E before (.node stmt tok tokEnd child next))
    (e : Expr) (he : stmtExpr stmt = some e) (hna : ¬ IsAlias E stmt tokEnd) (n : Token) (args : Args) (num : Nat)
    (hu : SubExpr (.call n args num) e) :
    ∃ f ps τ, Text n f ∧ E.decl f = some (.func ps τ) ∧ (argList args).length = ps.length ∧
      ∀ (i : Nat) a, (argList args)[i]? = some a → ∃ σ, ps[i]? = some σ ∧ HasType (cfg.world False) E a σ := by
  obtain ⟨E', h1⟩ := accepted_at ha hc hb (returns := False) (ext := false) False.elim h
  have hm : e ≠ .missing := by rintro rfl; cases hu
  obtain ⟨τ, h2⟩ := h1.value he hm hna
  obtain ⟨σ, h3⟩ := h2.sub _ hu
  cases h3 with
  | call h3 h4 h5 => exact ⟨_, _, _, h3, h4, ArgsType.nth _ h5⟩

/-- The conditions on numbers in these theorems hold for every program of fewer than 65536 tokens. -/
theorem C40_short_programs (toks : List Token) (t : Tree) (s : PS) (h : parseAstTree toks = .ok (some t) s)
    (hl : toks.length < 65536) : Counted t := parsed_counted h hl

/-- As stated; false. -/
def C40_full : Prop := ∀ (cfg : Cfg) (t : Tree), Parsed t → Accepted cfg t → CallsBare t → ∀ {c E before stmt tok tokEnd child next},
  At (cfg.world False) t c E before (.node stmt tok tokEnd child next) → ∀ e, stmtExpr stmt = some e → ¬ IsAlias E stmt tokEnd →
  ∀ n args num, SubExpr (.call n args num) e →
  ∃ f ps τ, Text n f ∧ E.decl f = some (.func ps τ) ∧ (argList args).length = ps.length

/-- A function with one parameter may be called with 65537 arguments. -/
theorem C40_false : ¬ C40_full := by
  intro h
  obtain ⟨E, τ, σ, before, stmt, tok, tokEnd, args, num, h1, rfl, h3, h4⟩ := many_at 65536 many_decl_accepted
  obtain ⟨f, ps, τ', h5, h6, h7⟩ := h sampleCfg _ (many_parsed 65536) (accepted_tree many_accepted)
    ⟨(fun _ _ _ h => by cases h), trivial, (fun _ _ _ _ => rfl), trivial, trivial⟩ h1 _ rfl
    (by rintro ⟨⟨_, _, _, _, _, h⟩, _⟩; cases h) _ _ _ .here
  cases text_det h5 (show tokenToString (mkTok .identifier "f") = some ['f'] by decide)
  rw [h4] at h6
  cases h6
  rw [h3] at h7
  simp at h7

example : acceptsSrc "f(a: Int, b: Bool) Int {\nif b {\nreturn a\n}\nreturn 1\n}\nx := f(1, true)\ny := f(x, 1 < 2)\n" = true := by
  decide +kernel
example : refusals "f(a: Int) {\nnoop\n}\nf(1, 2)\n" = some [.errInvalidNumParams] := by decide +kernel
example : refusals "f(a: Int) {\nnoop\n}\nf(true)\n" = some [.errFuncTypeMismatch] := by decide +kernel

/-! ## C41 Returns match the enclosing function -/

/-- A return gives a value of the type of its function (Int outside functions), or none if the function returns nothing.  (Missing:
a return with a value inside a block of a function that returns nothing, for which it is false; functions in functions and
external functions, likewise; blocks behind calls.) -/
theorem C41_partial (cfg : Cfg) (t : Tree) (ha : Accepted cfg t) (hc : Counted t) (hb : CallsBare t) (ext : Bool)
    (hp : Plain ext false t) {c E before e tok tokEnd child next}
    (h : At (cfg.world False) t c E before (.node (.ret e) tok tokEnd child next)) :
    (e = .missing ∧ c.ret = some Void') ∨
      ∃ τ, HasType (cfg.world False) E e τ ∧ (c.ret = none → τ = Int') ∧ ∀ r, c.ret = some r → τ = r ∨ r = Void' := by
  obtain ⟨E', h1⟩ := accepted_at ha hc hb (returns := True) (fun _ => hp) h
  cases h1 with
  | retNone h2 =>
    have h2 := h2 trivial
    unfold ReturnFits at h2
    left
    refine ⟨rfl, ?_⟩
    split at h2
    · cases h2
    · rename_i h3 _; rw [h3, h2]
    · rename_i h3; cases h3
  | @ret _ _ _ _ τ _ _ _ _ _ h2 h3 =>
    have h3 := h3 trivial
    right
    refine ⟨τ, HasType.world (W := cfg.world True) (W' := cfg.world False) rfl _ h2, ?_, ?_⟩
    all_goals unfold ReturnFits at h3
    · intro h4; rw [h4] at h3; exact Option.some.inj h3
    · intro r h4
      rw [h4] at h3
      exact h3.symm

/-- As stated; false. -/
def C41_full : Prop := ∀ (cfg : Cfg) (t : Tree), Parsed t → Accepted cfg t → ∀ {c E before e tok tokEnd child next},
  At (cfg.world False) t c E before (.node (.ret e) tok tokEnd child next) →
  (e = .missing ∧ c.ret = some Void') ∨ ∃ τ, HasType (cfg.world False) E e τ ∧ (c.ret = none ∧ τ = Int' ∨ c.ret = some τ)

local notation "retSrc" => "f() {\nif true {\nreturn 1\n}\n}\n"

theorem C41_false : ¬ C41_full := by
  intro h
  have ha : acceptsSrc retSrc = true := by decide +kernel
  have hr : ∃ p tok tokEnd cond tok₁ tokEnd₁ u tok₂ tokEnd₂ child next next₁ next₂, parsed retSrc = .node (.funcProto p) tok tokEnd
      (.node (.ifs cond) tok₁ tokEnd₁ (.node (.ret (.const u)) tok₂ tokEnd₂ child next) next₁) next₂ ∧
      u.ty = .intConst ∧ p.returnType = none ∧ p.params = [] ∧ tokenToString p.name = some ['f'] := by
    have : (match parsed retSrc with
        | .node (.funcProto p) _ _ (.node (.ifs _) _ _ (.node (.ret (.const u)) _ _ _ _) _) _ =>
          decide (u.ty = .intConst ∧ p.returnType = none ∧ p.params = [] ∧ tokenToString p.name = some ['f'])
        | _ => false) = true := by decide +kernel
    split at this
    · rename_i hs
      exact ⟨_, _, _, _, _, _, _, _, _, _, _, _, _, hs, by simpa using this⟩
    · cases this
  obtain ⟨p, tok, tokEnd, cond, tok₁, tokEnd₁, u, tok₂, tokEnd₂, child, next, next₁, next₂, h1, h2, h3, h4, h5⟩ := hr
  have hat : At (sampleCfg.world False) (parsed retSrc) ⟨some Void', 0, false⟩ (Env.start.add ['f'] (.func [] Void')) []
      (.node (.ret (.const u)) tok₂ tokEnd₂ child next) := by
    rw [h1]
    refine .body (.func (f := ['f']) (τ := Void') (τs := []) ?_ h5 ?_) (.body .ifs .here)
    · rw [h3]; rfl
    · rw [h4]; exact .nil
  rcases h _ _ (parsed_src ha) (accepted_src ha) hat with ⟨h6, _⟩ | ⟨τ, h6, ⟨h7, _⟩ | h7⟩
  · cases h6
  · cases h7
  · cases h7
    cases h6 with
    | const h6 => cases h6

example : acceptsSrc "f(a: Int) Bool {\nif a is 1 {\nreturn true\n}\nreturn false\n}\ng() {\nreturn\n}\nreturn 1\n" = true := by
  decide +kernel
example : refusals "f(a: Int) Bool {\nreturn a\n}\n" = some [.errExpectedSameType] := by decide +kernel
example : refusals "return true\n" = some [.errNonIntMain] := by decide +kernel

/-! ## C42 break and continue only occur inside loops -/

theorem C42_partial (cfg : Cfg) (t : Tree) (ha : Accepted cfg t) (hc : Counted t) (hb : CallsBare t)
    {up before stmt tok tokEnd child next} (h : Occ [] [] t up before (.node stmt tok tokEnd child next))
    (hs : stmt = .breaks ∨ stmt = .continues) : InLoop up := by
  obtain ⟨c, E, E', _, h1, h2⟩ := accepted_occ ha hc hb h
  rcases hs with rfl | rfl
  · cases h2 with | breaks h => exact h1.loop h
  · cases h2 with | continues h => exact h1.loop h


/-- As stated; false. -/
def C42_full : Prop := ∀ (cfg : Cfg) (t : Tree), Parsed t → Accepted cfg t → ∀ {up before stmt tok tokEnd child next},
  Occ [] [] t up before (.node stmt tok tokEnd child next) → stmt = .breaks ∨ stmt = .continues → InLoop up

local notation "badSrc" => "f(a: Int) {\nnoop\n}\nf(1) {\nbreak\nelse {\nnoop\n}\n}\n"

theorem badSrc_accepted : acceptsSrc badSrc = true := by decide +kernel

theorem badSrc_shape : ∃ tok tokEnd child tok' tokEnd' child' next, callShape (parsed badSrc) =
    some (.breaks, tok, tokEnd, child, .node .elses tok' tokEnd' child' next) := by
  have : (match callShape (parsed badSrc) with | some (.breaks, _, _, _, .node .elses _ _ _ _) => true | _ => false) = true := by
    decide +kernel
  split at this
  · rename_i hs
    exact ⟨_, _, _, _, _, _, _, hs⟩
  · cases this

theorem C42_false : ¬ C42_full := by
  intro h
  obtain ⟨tok, tokEnd, child, _, _, _, _, h1⟩ := badSrc_shape
  obtain ⟨c, E, n, args, num, _, h2, _⟩ := callBlock badSrc_accepted (by decide +kernel) h1
  obtain ⟨inner, e, outer, h3, h4⟩ := h _ _ (parsed_src badSrc_accepted) (accepted_src badSrc_accepted) h2 (.inl rfl)
  cases inner with
  | nil => cases h3
  | cons a l => cases l <;> cases h3

example : acceptsSrc "while true {\nif false {\nbreak\n}\ncontinue\n}\n" = true := by decide +kernel
example : refusals "if true {\nbreak\n}\n" = some [.errBreakNotInWhile, .warnCondAlwaysTrue] := by decide +kernel
example : refusals "while true {\nf() {\ncontinue\n}\n}\n" = some [.errContinueNotInWhile, .warnCondAlwaysTrue] := by decide +kernel

/-! ## C43 No code follows a jump -/

theorem C43_partial (cfg : Cfg) (t : Tree) (ha : Accepted cfg t) (hc : Counted t) (hb : CallsBare t)
    {up before stmt tok tokEnd child next} (h : Occ [] [] t up before (.node stmt tok tokEnd child next))
    (hs : IsJump stmt) : ∀ s ∈ siblings next, IsIdle s := by
  obtain ⟨c, E, E', _, _, h2⟩ := accepted_occ ha hc hb h
  exact (h2.jump hs).idle


/-- As stated; false. -/
def C43_full : Prop := ∀ (cfg : Cfg) (t : Tree), Parsed t → Accepted cfg t → ∀ {up before stmt tok tokEnd child next},
  Occ [] [] t up before (.node stmt tok tokEnd child next) → IsJump stmt → ∀ s ∈ siblings next, IsIdle s

theorem C43_false : ¬ C43_full := by
  intro h
  obtain ⟨tok, tokEnd, child, _, _, _, _, h1⟩ := badSrc_shape
  obtain ⟨c, E, n, args, num, _, h2, _⟩ := callBlock badSrc_accepted (by decide +kernel) h1
  exact h _ _ (parsed_src badSrc_accepted) (accepted_src badSrc_accepted) h2 trivial .elses (.head _)

example : acceptsSrc "f() Int {\nreturn 1\n# done\nunreachable\nnoop\n}\n" = true := by decide +kernel
example : refusals "return 1\nx := 1\n" = some [.errUnreachableCode] := by decide +kernel
example : refusals "while true {\nbreak\nunreachable\ncontinue\n}\n" = some [.errUnreachableCode, .warnCondAlwaysTrue] := by
  decide +kernel

/-! ## C44 else and elif follow an if -/

theorem C44_partial (cfg : Cfg) (t : Tree) (ha : Accepted cfg t) (hc : Counted t) (hb : CallsBare t)
    {up before stmt tok tokEnd child next} (h : Occ [] [] t up before (.node stmt tok tokEnd child next))
    (hs : stmt = .elses ∨ ∃ e, stmt = .elifs e) : BehindIf before := by
  obtain ⟨c, E, E', _, _, h2⟩ := accepted_occ ha hc hb h
  rcases hs with rfl | ⟨e, rfl⟩
  · cases h2 with | elses h => exact h.behind
  · cases h2 with | elifs h => exact h.behind


/-- As stated; false. -/
def C44_full : Prop := ∀ (cfg : Cfg) (t : Tree), Parsed t → Accepted cfg t → ∀ {up before stmt tok tokEnd child next},
  Occ [] [] t up before (.node stmt tok tokEnd child next) → (stmt = .elses ∨ ∃ e, stmt = .elifs e) → BehindIf before

theorem C44_false : ¬ C44_full := by
  intro h
  obtain ⟨tok, tokEnd, child, _, _, _, _, h1⟩ := badSrc_shape
  obtain ⟨c, E, n, args, num, _, h2, _⟩ := callBlock badSrc_accepted (by decide +kernel) h1
  obtain ⟨comments, s, earlier, h3, h4, e, h5⟩ := h _ _ (parsed_src badSrc_accepted) (accepted_src badSrc_accepted)
    (h2.trans (.next .here)) (.inl rfl)
  cases comments with
  | nil => cases h3; rcases h5 with h5 | h5 <;> cases h5
  | cons a l => cases h4 a (.head _); cases h3

example : acceptsSrc "x := 1\nif x is 1 {\nnoop\n}\n# no\nelif x is 2 {\nnoop\n}\nelse {\nnoop\n}\n" = true := by decide +kernel
example : refusals "noop\nelse {\nnoop\n}\n" = some [.errElseElifMissingIf] := by decide +kernel
example : refusals "if true {\nnoop\n}\nnoop\nelse {\nnoop\n}\n" = some [.errElseElifMissingIf, .warnCondAlwaysTrue] := by
  decide +kernel

/-! ## C45 A function that promises a value ends by returning one -/

theorem C45_partial (cfg : Cfg) (t : Tree) (ha : Accepted cfg t) (hc : Counted t) (hb : CallsBare t) (ext : Bool)
    (hp : Plain ext false t) {c E before p tok tokEnd child next}
    (h : At (cfg.world False) t c E before (.node (.funcProto p) tok tokEnd child next)) (hx : p.isExternal = false) (τ : Ty)
    (hτ : RetType E p.returnType τ) : τ ≠ Void' ↔ ∃ e, e ≠ .missing ∧ .ret e ∈ siblings child := by
  obtain ⟨E', h1⟩ := accepted_at ha hc hb (returns := True) (fun _ => hp) h
  cases h1 with
  | func _ h2 _ _ _ h3 h4 =>
    cases retType_det h2 hτ
    exact (h4 trivial hx).symm.trans (Stmts.returnsValue _ h3)

/-- As stated; false. -/
def C45_full : Prop := ∀ (cfg : Cfg) (t : Tree), Parsed t → Accepted cfg t → ∀ {c E before p tok tokEnd child next},
  At (cfg.world False) t c E before (.node (.funcProto p) tok tokEnd child next) → p.isExternal = false → ∀ τ,
  RetType E p.returnType τ → (τ ≠ Void' ↔ ∃ e, e ≠ .missing ∧ .ret e ∈ siblings child)

local notation "nestSrc" => "f() Int {\ng() {\nh() {\nnoop\n}\n}\n}\n"

theorem C45_false : ¬ C45_full := by
  intro h
  have ha : acceptsSrc nestSrc = true := by decide +kernel
  have hr : ∃ p tok tokEnd q tok₁ tokEnd₁ child next u us, parsed nestSrc = .node (.funcProto p) tok tokEnd
      (.node (.funcProto q) tok₁ tokEnd₁ child .nil) next ∧ p.isExternal = false ∧ p.returnType = some (u :: us) ∧
      u.ty = .identifier ∧ tokenToString u = some ['I', 'n', 't'] := by
    have : (match parsed nestSrc with
        | .node (.funcProto p) _ _ (.node (.funcProto _) _ _ _ .nil) _ =>
          match p.returnType with
          | some (u :: _) => decide (p.isExternal = false ∧ u.ty = .identifier ∧ tokenToString u = some ['I', 'n', 't'])
          | _ => false
        | _ => false) = true := by decide +kernel
    split at this
    · rename_i p _ _ _ _ _ _ _ hs
      split at this
      · rename_i u us hu
        obtain ⟨h1, h2⟩ := of_decide_eq_true this
        exact ⟨_, _, _, _, _, _, _, _, _, _, hs, h1, hu, h2⟩
      · cases this
    · cases this
  obtain ⟨p, tok, tokEnd, q, tok₁, tokEnd₁, child, next, u, us, h1, h2, h3, h4, h5⟩ := hr
  have hat : At (sampleCfg.world False) (parsed nestSrc) .main .start [] (.node (.funcProto p) tok tokEnd
      (.node (.funcProto q) tok₁ tokEnd₁ child .nil) next) := h1 ▸ .here
  have hty : RetType .start p.returnType Int' := by
    rw [h3]
    exact .name (.inl h4) h5
  obtain ⟨e, _, h6⟩ := (h _ _ (parsed_src ha) (accepted_src ha) hat h2 _ hty).1 (by decide)
  cases h6 with
  | tail _ h6 => cases h6

example : acceptsSrc "f() Int {\nx := 1\nreturn x\n}\ng() {\nnoop\n}\n" = true := by decide +kernel
example : refusals "f() Int {\nnoop\n}\n" = some [.errExpectedReturn] := by decide +kernel
example : refusals "f() Int {\nif true {\nreturn 1\n}\n}\n" = some [.errExpectedReturn, .warnCondAlwaysTrue] := by decide +kernel

/-! ## C46 Conditions are Bool -/

theorem C46_partial (cfg : Cfg) (t : Tree) (ha : Accepted cfg t) (hc : Counted t) (hb : CallsBare t)
    {c E before stmt tok tokEnd child next} (h : At (cfg.world False) t c E before (.node stmt tok tokEnd child next)) (e : Expr)
    (hs : stmt = .ifs e ∨ stmt = .elifs e ∨ stmt = .whiles e) : HasType (cfg.world False) E e Bool' := by
  obtain ⟨E', h1⟩ := accepted_at ha hc hb (returns := False) (ext := false) False.elim h
  rcases hs with rfl | rfl | rfl
  · cases h1 with | ifs _ h => exact h
  · cases h1 with | elifs _ _ h => exact h
  · cases h1 with | whiles _ h => exact h


/-- As stated; false. -/
def C46_full : Prop := ∀ (cfg : Cfg) (t : Tree), Parsed t → Accepted cfg t → ∀ {c E before stmt tok tokEnd child next},
  At (cfg.world False) t c E before (.node stmt tok tokEnd child next) → ∀ e, stmt = .ifs e ∨ stmt = .elifs e ∨ stmt = .whiles e →
  HasType (cfg.world False) E e Bool'

local notation "condSrc" => "f(a: Int) {\nnoop\n}\nf(1) {\nif 1 {\nnoop\n}\n}\n"

theorem C46_false : ¬ C46_full := by
  intro h
  have ha : acceptsSrc condSrc = true := by decide +kernel
  have hr : ∃ u tok tokEnd child next, callShape (parsed condSrc) = some (.ifs (.const u), tok, tokEnd, child, next) ∧
      u.ty = .intConst := by
    have : (match callShape (parsed condSrc) with | some (.ifs (.const u), _) => decide (u.ty = .intConst) | _ => false) = true := by
      decide +kernel
    split at this
    · rename_i u r hs
      exact ⟨u, _, _, _, _, hs, by simpa using this⟩
    · cases this
  obtain ⟨u, tok, tokEnd, child, next, h1, h2⟩ := hr
  obtain ⟨c, E, n, args, num, h3, _, _⟩ := callBlock ha (by decide +kernel) h1
  have h4 := h _ _ (parsed_src ha) (accepted_src ha) h3 _ (.inl rfl)
  cases h4 with
  | const h4 =>
    cases h4 with
    | bool h4 => rw [h2] at h4; cases h4

example : acceptsSrc "x := 1\nif x < 2 {\nnoop\n}\n" = true := by decide +kernel
example : refusals "if 1 {\nnoop\n}\n" = some [.errNonBoolExpr] := by decide +kernel
example : refusals "x := 1\nwhile x {\nnoop\n}\n" = some [.errNonBoolExpr] := by decide +kernel

/-! ## C47 Constant division by zero is rejected -/

theorem C47_partial (cfg : Cfg) (t : Tree) (ha : Accepted cfg t) (hc : Counted t) (hb : CallsBare t)
    {c E before stmt tok tokEnd child next} (h : At (cfg.world False) t c E before (.node stmt tok tokEnd child next)) (e : Expr)
    (he : stmtExpr stmt = some e) (hna : ¬ IsAlias E stmt tokEnd) (o : Oper) (l r : Expr) (ho : o = .div ∨ o = .mod)
    (hu : SubExpr (.bin o l r) e) : ¬ ZeroLit r := by
  obtain ⟨E', h1⟩ := accepted_at ha hc hb (returns := False) (ext := false) False.elim h
  have hm : e ≠ .missing := by rintro rfl; cases hu
  obtain ⟨τ, h2⟩ := h1.value he hm hna
  obtain ⟨σ, h3⟩ := h2.sub _ hu
  cases h3 with
  | bin _ _ _ h4 => exact h4 ho


/-- As stated; false. -/
def C47_full : Prop := ∀ (cfg : Cfg) (t : Tree), Parsed t → Accepted cfg t → ∀ {c E before stmt tok tokEnd child next},
  At (cfg.world False) t c E before (.node stmt tok tokEnd child next) → ∀ e, stmtExpr stmt = some e → ¬ IsAlias E stmt tokEnd →
  ∀ o l r, o = .div ∨ o = .mod → SubExpr (.bin o l r) e → ¬ ZeroLit r

local notation "divSrc" => "f(a: Int) {\nnoop\n}\nf(1) {\nreturn 1 / 0\n}\n"

theorem C47_false : ¬ C47_full := by
  intro h
  have ha : acceptsSrc divSrc = true := by decide +kernel
  have hr : ∃ l u tok tokEnd child next, callShape (parsed divSrc) = some (.ret (.bin .div l (.const u)), tok, tokEnd, child, next) ∧
      u.ty = .intConst ∧ evalInteger u = .ok 0 := by
    have : (match callShape (parsed divSrc) with
        | some (.ret (.bin .div _ (.const u)), _) => decide (u.ty = .intConst ∧ evalInteger u = .ok 0)
        | _ => false) = true := by decide +kernel
    split at this
    · rename_i l u r hs
      exact ⟨l, u, _, _, _, _, hs, by simpa using this⟩
    · cases this
  obtain ⟨l, u, tok, tokEnd, child, next, h1, h2⟩ := hr
  obtain ⟨c, E, n, args, num, h3, _, _⟩ := callBlock ha (by decide +kernel) h1
  exact h _ _ (parsed_src ha) (accepted_src ha) h3 _ rfl (by rintro ⟨⟨_, _, _, _, _, h⟩, _⟩; cases h) .div l _ (.inl rfl) .here h2

example : acceptsSrc "x := 4 / 2\ny := x mod 3\n" = true := by decide +kernel
example : refusals "x := 1 + 4 / 0\n" = some [.errDivByZero] := by decide +kernel
example : refusals "x := 4 mod 0x0\n" = some [.errDivByZero] := by decide +kernel

end Skull
