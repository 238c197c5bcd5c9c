import Verif.Proofs.LSim
/-
Running the code of expressions and statements does what the interpreter does.
-/
namespace Skull
open Spec

section
variable {ω : Type} (cfg : LCfg) (R : LEnv) (G : List LGlobal) (M : List LFunc) (F : Floats) (c : RunCtx ω)

/-- What is known of a declared function. -/
def DeclOk (id : Nat) (ps : List Nat) (body : ATree) : Prop :=
  (piecesL cfg R G M).isExternal id ∧ (∃ sym fn, cfg.func id = some (sym, fn) ∧ ps.length = fn.numParams) ∨
  ∃ f' k is k₀ e q k', ¬ (piecesL cfg R G M).isExternal id ∧ (piecesL cfg R G M).func id ps f' k is k₀ ∧ CodeAt M f' (start 0) is ∧
    Laid (piecesL cfg R G M) M f' none .stmts ((start 0).skip is) k₀ body e q k' ∧
    (e = false → (piecesL cfg R G M).isVoid id → CodeAt M f' q [.retVoid]) ∧ WtTree cfg.syms false [] body ∧
    (∀ p ∈ ps, ∃ var, cfg.var p = some var ∧ var.isConst = true) ∧
    ∃ sym fn, cfg.func id = some (sym, fn) ∧ ps.length = fn.numParams ∧ fn.numParams = fn.paramTypes.length

/-- What is known of the program and its code. -/
structure CodeOf : Prop where
  syms : c.syms = cfg.syms
  arith : c.arith = safeArith F
  fold : FoldSound F cfg.fold
  inj : ∀ i j g, R.isGlobal i = true → R.isGlobal j = true → R.refs i = some (.global g) → R.refs j = some (.global g) → i = j
  decl : ∀ id ps body, (id, ps, body) ∈ decls c.prog → DeclOk cfg R G M id ps body

/-- The variables outside functions, apart from those in loops. -/
def inits : ATree → List Nat
  | .node ann stmt _ child next =>
    (match ann with | .varDef id _ => [id] | _ => []) ++
    (match stmt with | .funcProto _ | .whiles _ => [] | _ => inits child) ++ inits next
  | _ => []

/-- What is known of statements outside functions: their variables are not there yet, except in loops. -/
def TopOk (top inl : Bool) (t : ATree) (L : Vars) (S : SState ω) : Prop :=
  top = true → NoLoopInit cfg.syms inl t ∧ t.defs.Nodup ∧ (∀ id, L id = none) ∧ (inl = false → ∀ id ∈ inits t, S.vars id = none)

/-- What running statements from `p` on does. -/
def SimPost (f : Nat) (loop : Option (Nat × Nat)) (e : Bool) (p q : Place) (k' base : Nat) (top : Bool) (ps : List MVal) (regs : Regs)
    (m : Mem ω) (S' : SState ω) : Out → Prop
  | .normal L' => e = false ∧ (top = true → ∀ id, L' id = none) ∧ ∃ regs' m', Goes F c.ext M f ps p q regs m regs' m' ∧
      LocRel cfg R k' base L' regs' ps m' ∧ GlobRel cfg R G S' m' ∧ Framed base m m'
  | .broke L' => ∃ a b regs' m' k, loop = some (a, b) ∧ Goes F c.ext M f ps p (start b) regs m regs' m' ∧
      LocRel cfg R k base L' regs' ps m' ∧ GlobRel cfg R G S' m' ∧ Framed base m m'
  | .continued L' => ∃ a b regs' m' k, loop = some (a, b) ∧ Goes F c.ext M f ps p (start a) regs m regs' m' ∧
      LocRel cfg R k base L' regs' ps m' ∧ GlobRel cfg R G S' m' ∧ Framed base m m'
  | .returned v => ∃ m', RunAt F c.ext M f p regs ps m v m' ∧ GlobRel cfg R G S' m' ∧ Framed base m m'

/-- Behind an `if` whose conditions were all false, at the beginning of block `b`. -/
inductive ElseLaid (P : Pieces LMark) : Nat → Option (Nat × Nat) → Nat → Nat → LMark → ATree → Bool → Place → LMark → Prop
  | elifs {f loop fin b b' k cond' x ann tok child next e q k₂ e' q' k₃} : ann = .expr cond' →
      Laid P M f loop .stmts (start b') k child e q k₂ → (e = false → CodeAt M f q [.br (some fin)]) →
      Laid P M f loop (.afterIf cond' b' fin) (start b) k₂ next e' q' k₃ →
      ElseLaid P f loop fin b k (.node ann (.elifs x) tok child next) e' q' k₃
  | elses {f loop fin b k ann tok child next e q k₂ e' q' k₃} :
      Laid P M f loop .stmts (start b) k child e q k₂ → (e = false → CodeAt M f q [.br (some fin)]) →
      Laid P M f loop .stmts (start fin) k₂ next e' q' k₃ →
      ElseLaid P f loop fin b k (.node ann .elses tok child next) e' q' k₃
  | comment {f loop fin b k ann tok child next e q k'} : ElseLaid P f loop fin b k next e q k' →
      ElseLaid P f loop fin b k (.node ann .comment tok child next) e q k'
  | done {f loop fin k t e q k₂} : staysInChain t = false → Laid P M f loop .stmts (start fin) k t e q k₂ →
      ElseLaid P f loop fin fin k t e q k₂

/-- The code does what the interpreter does in `n` steps. -/
structure SimAt (n : Nat) : Prop where
  expr : ∀ {e L S v S' base N is x N' regs ps f} {m : Mem ω}, evalE c n e L S = some (v, S') → ECode cfg R N e is x N' → WtE cfg.syms e →
    LocRel cfg R N base L regs ps m → GlobRel cfg R G S m →
    ∃ regs' m', Runs F c.ext M f ps is regs m regs' m' ∧ operand regs' ps x.val = some (.val v) ∧ Below N' x.val ∧ x.ty = some e.type ∧
      (∀ r, r < N → regs' r = regs r) ∧ GlobRel cfg R G S' m' ∧ Framed m.next m m'
  args : ∀ {as L S vs S' base N is xs N' tys regs ps f} {m : Mem ω}, evalA c n as L S = some (vs, S') →
    ACode cfg R N tys.length as is xs N' → WtA cfg.syms tys as → LocRel cfg R N base L regs ps m → GlobRel cfg R G S m →
    ∃ regs' m', Runs F c.ext M f ps is regs m regs' m' ∧ operands regs' ps xs = some (vs.map .val) ∧ (∀ x ∈ xs, Below N' x) ∧
      (∀ r, r < N → regs' r = regs r) ∧ GlobRel cfg R G S' m' ∧ Framed m.next m m'
  call : ∀ {id vs S v S' ref} {m : Mem ω}, callF c n id vs S = some (v, S') → R.funcRef id = some ref → GlobRel cfg R G S m →
    ∃ m', ICall F c.ext M ref (vs.map .val) m (.val v) m' ∧ GlobRel cfg R G S' m' ∧ Framed m.next m m'
  exec : ∀ {top t L S o S' f loop p k e q k' inl il before base regs ps} {m : Mem ω}, execT c n top false t L S = some (o, S') →
    Laid (piecesL cfg R G M) M f loop .stmts p k t e q k' → WtTree cfg.syms il before t → (top = true ↔ f = 0) →
    TopOk cfg top inl t L S → LocRel cfg R k.reg base L regs ps m → GlobRel cfg R G S m →
    SimPost cfg R G M F c f loop e p q k'.reg base top ps regs m S' o
  chain : ∀ {top t L S o S' f loop fin b k e q k' inl il before base regs ps} {m : Mem ω}, execT c n top true t L S = some (o, S') →
    ElseLaid M (piecesL cfg R G M) f loop fin b k t e q k' → WtTree cfg.syms il before t → (top = true ↔ f = 0) →
    TopOk cfg top inl t L S → LocRel cfg R k.reg base L regs ps m → GlobRel cfg R G S m →
    SimPost cfg R G M F c f loop e (start b) q k'.reg base top ps regs m S' o
  andThen : ∀ {top child next L S o S' f loop fin b k e₁ q₁ k₁ k₂ e q k' inl il before il' before' base regs ps} {m : Mem ω},
    andThen c n top child next L S = some (o, S') →
    Laid (piecesL cfg R G M) M f loop .stmts (start b) k child e₁ q₁ k₁ → (e₁ = false → CodeAt M f q₁ [.br (some fin)]) →
    k.reg ≤ k₂.reg → Laid (piecesL cfg R G M) M f loop .stmts (start fin) k₂ next e q k' →
    WtTree cfg.syms il before child → WtTree cfg.syms il' before' next → (top = true ↔ f = 0) →
    TopOk cfg top inl child L S → TopOk cfg top inl next L S → (top = true → ∀ id ∈ child.defs, id ∉ next.defs) →
    LocRel cfg R k.reg base L regs ps m → GlobRel cfg R G S m →
    SimPost cfg R G M F c f loop e (start b) q k'.reg base top ps regs m S' o
  loop : ∀ {top cond child L S o S' f a b d is v k k₁ e₁ q₁ k₂ loop' il before base regs ps} {m : Mem ω},
    loopW c n top cond child L S = some (o, S') → (piecesL cfg R G M).cond k cond is v k₁ →
    CodeAt M f (start a) (is ++ [.condBr v b d]) → Laid (piecesL cfg R G M) M f (some (a, d)) .stmts (start b) k₁ child e₁ q₁ k₂ →
    (e₁ = false → CodeAt M f q₁ [.br (some a)]) → WtE cfg.syms cond → WtTree cfg.syms il before child →
    (top = true ↔ f = 0) → TopOk cfg top true child L S → LocRel cfg R k.reg base L regs ps m → GlobRel cfg R G S m →
    SimPost cfg R G M F c f loop' false (start a) (start d) k.reg base top ps regs m S' o ∧ ∀ L', o ≠ .broke L' ∧ o ≠ .continued L'

variable {cfg R G M F c}

/- ### Layouts -/

theorem Laid.mono {f loop arm p k t e q k'} (h : Laid (piecesL cfg R G M) M f loop arm p k t e q k') : k.reg ≤ k'.reg := by
  have cond : ∀ {k e is v k'}, (piecesL cfg R G M).cond k e is v k' → k.reg ≤ k'.reg := by
    rintro k e is v k' ⟨x, n, h, rfl, rfl⟩
    exact h.straight.le
  induction h with
  | nil => exact Nat.le_refl _
  | plain _ h _ _ ih => exact Nat.le_trans (SCode.straight h).1.le ih
  | stop _ h _ =>
    cases h with
    | retVoid => exact Nat.le_refl _
    | ret h => exact h.straight.le
    | unreachable => exact Nat.le_refl _
  | breaks => exact Nat.le_refl _
  | continues => exact Nat.le_refl _
  | whiles _ _ hc _ _ _ _ ih1 ih2 => exact Nat.le_trans (cond hc) (Nat.le_trans ih1 ih2)
  | ifs _ _ _ _ ih1 ih2 => exact Nat.le_trans ih1 ih2
  | elifs _ hc _ _ _ _ ih1 ih2 => exact Nat.le_trans (cond hc) (Nat.le_trans ih1 ih2)
  | elses hc _ _ _ _ ih1 ih2 => exact Nat.le_trans (cond hc) (Nat.le_trans ih1 ih2)
  | comment _ ih => exact ih
  | endIf _ hc _ _ ih => exact Nat.le_trans (cond hc) ih
  | external _ _ _ ih => exact ih
  | func _ _ h _ _ _ _ ih1 ih2 =>
    obtain ⟨_, _, _, _, _, _, _, _, _, _, h⟩ := h
    exact Nat.le_trans h.straight.1.le (Nat.le_trans ih1 ih2)
  | ns _ _ ih1 ih2 => exact Nat.le_trans ih1 ih2

theorem afterIf_split {P : Pieces LMark} {f loop cond b fin p k t e q k'} (h : Laid P M f loop (.afterIf cond b fin) p k t e q k') :
    ∃ is v k₁ d, P.cond k cond is v k₁ ∧ CodeAt M f p (is ++ [.condBr v b d]) ∧ ElseLaid M P f loop fin d k₁ t e q k' := by
  generalize ha : Arm.afterIf cond b fin = arm at h
  induction h with
  | elifs h1 h2 h3 h4 h5 h6 => cases ha; exact ⟨_, _, _, _, h2, h3, .elifs h1 h4 h5 h6⟩
  | elses h1 h2 h3 h4 h5 => cases ha; exact ⟨_, _, _, _, h1, h2, .elses h3 h4 h5⟩
  | comment h ih =>
    obtain ⟨is, v, k₁, d, h1, h2, h3⟩ := ih ha
    exact ⟨is, v, k₁, d, h1, h2, .comment h3⟩
  | endIf h1 h2 h3 h4 => cases ha; exact ⟨_, _, _, _, h2, h3, .done h1 h4⟩
  | _ => cases ha

theorem afterIf_taken {f loop cond b fin p k t e q k'}
    (h : Laid (piecesL cfg R G M) M f loop (.afterIf cond b fin) p k t e q k') :
    ∃ k₁, k.reg ≤ k₁.reg ∧ Laid (piecesL cfg R G M) M f loop .stmts (start fin) k₁ (afterChain t) e q k' := by
  have hcond : ∀ {k e is v k'}, (piecesL cfg R G M).cond k e is v k' → k.reg ≤ k'.reg := by
    rintro k e is v k' ⟨x, n, h, rfl, rfl⟩
    exact h.straight.le
  generalize ha : Arm.afterIf cond b fin = arm at h
  induction h generalizing cond b with
  | elifs h1 h2 h3 h4 h5 h6 _ ih =>
    cases ha
    obtain ⟨k₁, h7, h8⟩ := ih rfl
    exact ⟨k₁, Nat.le_trans (hcond h2) (Nat.le_trans (Laid.mono h4) h7), h8⟩
  | elses h1 h2 h3 h4 h5 => cases ha; exact ⟨_, Nat.le_trans (hcond h1) (Laid.mono h3), h5⟩
  | comment h ih => cases ha; exact ih rfl
  | endIf h1 h2 h3 h4 =>
    cases ha
    rename_i t e q k₂ _
    refine ⟨_, hcond h2, ?_⟩
    have : afterChain t = t := by
      unfold afterChain
      split <;> first | rfl | cases h1
    rw [this]
    exact h4
  | _ => cases ha

theorem wt_afterChain {syms} : ∀ {t : ATree} {il before}, WtTree syms il before t → ∃ before', WtTree syms il before' (afterChain t)
  | .nil, _, _, h => ⟨_, h⟩
  | .unchecked _, _, _, h => ⟨_, h⟩
  | .node ann stmt tok child next, _, _, h => by
    have h' := h
    cases h with
    | node h1 h2 h3 =>
      cases stmt
      case elifs => exact wt_afterChain (t := next) h3
      case comment => exact wt_afterChain (t := next) h3
      case elses => exact ⟨_, h3⟩
      all_goals exact ⟨_, h'⟩

end
end Skull
