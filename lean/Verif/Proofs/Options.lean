import Verif.Proofs.UnusedWarn
import Verif.Model.Driver
/-
`--quiet` and `--werror` in the check: two checks that differ in them.
-/
namespace Skull.Opts

/-- The check with other options. -/
abbrev opt (c : Cfg) (q w : Bool) : Cfg := { c with quiet := q, werror := w }

/-- Diagnostics are not taken back. -/
def Grow (m : Chk α) : Prop := ∀ s a s', m s = .ok a s' → s.diags.length ≤ s'.diags.length

/-- What succeeds with `m` succeeds with `m'`, too; if `w`, then only if `m` says nothing. -/
def Sim (w : Bool) (m m' : Chk α) : Prop :=
  ∀ s a s', m s = .ok a s' → s.diags.length ≤ s'.diags.length ∧ ((w = true → s'.diags.length = s.diags.length) → m' s = .ok a s')

variable {w : Bool}

theorem Grow.keeps {m : Chk α} (h : Keeps m) : Grow m := fun s a s' e => by rw [(h s a s' e).2]; exact Nat.le_refl _

theorem Grow.bind {m : Chk α} {f : α → Chk β} (hm : Grow m) (hf : ∀ a, Grow (f a)) : Grow (m >>= f) := by
  intro s a s' h
  obtain ⟨b, s₁, h1, h2⟩ := bind_ok.1 h
  exact Nat.le_trans (hm _ _ _ h1) (hf _ _ _ _ h2)

theorem Grow.ite {c : Prop} [Decidable c] {m m' : Chk α} (h : Grow m) (h' : Grow m') : Grow (if c then m else m') := by
  split
  · exact h
  · exact h'

theorem Grow.sim {m : Chk α} (h : Grow m) : Sim w m m := fun s a s' e => ⟨h s a s' e, fun _ => e⟩
theorem Sim.keeps {m : Chk α} (h : Keeps m) : Sim w m m := (Grow.keeps h).sim

theorem Sim.bind {m m' : Chk α} {f f' : α → Chk β} (hm : Sim w m m') (hf : ∀ a, Sim w (f a) (f' a)) : Sim w (m >>= f) (m' >>= f') := by
  intro s a s' h
  obtain ⟨b, s₁, h1, h2⟩ := bind_ok.1 h
  obtain ⟨l1, k1⟩ := hm _ _ _ h1
  obtain ⟨l2, k2⟩ := hf _ _ _ _ h2
  refine ⟨Nat.le_trans l1 l2, fun hw => bind_ok.2 ⟨b, s₁, k1 fun e => ?_, k2 fun e => ?_⟩⟩
  · have := hw e; omega
  · have := hw e; omega

theorem Sim.ite {c : Prop} [Decidable c] {m m' n n' : Chk α} (h : Sim w m m') (h' : Sim w n n') : Sim w (if c then m else n) (if c then m' else n') := by
  split
  · exact h
  · exact h'

theorem Sim.ub {m' : Chk α} : Sim w Chk.ub m' := by intro s a s' h; cases h
theorem Sim.stop {m' : Chk α} : Sim w Chk.stop m' := by intro s a s' h; cases h
theorem Sim.pure (a : α) : Sim w (Pure.pure a : Chk α) (Pure.pure a) := .keeps (.pure a)
theorem Sim.error {m' : Chk α} (c : Code) (t : Option Token) : Sim w (Chk.error c t) m' := by intro s a s' h; cases h

theorem updSym_grow (id : Nat) (f : Symbol → Symbol) : Grow (updSym id f) := by
  intro s a s' h
  unfold updSym at h
  split at h
  · cases h; exact Nat.le_refl _
  · cases h

theorem newSym_grow (sym : Symbol) : Grow (newSym sym) := by
  intro s a s' h
  cases h
  exact Nat.le_refl _

theorem mustAdd_grow (id : Nat) : Grow (mustAdd id) := by
  intro s a s' h
  rw [(scopeAddSymbol_keeps (mustAdd_ok.1 h)).2]
  exact Nat.le_refl _

theorem tr_grow {v : Bool} {s s' : SS} {u} (h : Tr v s s' u) : s.diags.length ≤ s'.diags.length := by
  obtain ⟨ds, e, _⟩ := h.diags
  rw [e, List.length_append]
  exact Nat.le_add_left _ _

theorem expr_grow (cfg : Cfg) (e : Expr) : Grow (validateExpr cfg e) := fun s a s' h => tr_grow (v := false) (expr_tr (w := false) e s a s' h)

mutual
theorem expr_eq {c : Cfg} {q w : Bool} : ∀ e, validateExpr (opt c q w) e = validateExpr c e
  | .missing => by simp only [validateExpr]
  | .ident t => by simp only [validateExpr]
  | .const t => by simp only [validateExpr]; rfl
  | .call n ps k => by simp only [validateExpr, args_eq ps]
  | .un o r => by simp only [validateExpr, expr_eq r]
  | .bin o l r => by simp only [validateExpr, expr_eq r, expr_eq l]
theorem args_eq {c : Cfg} {q w : Bool} : ∀ as tys, validateArgs (opt c q w) tys as = validateArgs c tys as
  | .nil, [] => by simp only [validateArgs]
  | .nil, _ :: _ => by simp only [validateArgs]
  | .cons .., [] => by simp only [validateArgs]
  | .cons f e n, ty :: tys => by simp only [validateArgs, expr_eq e, args_eq n]
end

variable {c : Cfg} {q q' w' : Bool}

theorem sim_expr (e : Expr) : Sim w (validateExpr (opt c q w') e) (validateExpr (opt c q' w) e) := by
  rw [expr_eq (c := c) (q := q) (w := w') e, expr_eq (c := c) (q := q') (w := w) e]
  exact (expr_grow c e).sim

theorem sim_warn (code : Code) (t : Option Token) : Sim w (warn (opt c q w') code t) (warn (opt c q' w) code t) := by
  intro s a s' h
  have hs : s' = s.diag code t := by
    unfold warn at h
    obtain ⟨_, s₁, h1, h⟩ := bind_ok.1 h
    cases h1
    split at h
    · cases h
    · cases h; rfl
  subst hs
  refine ⟨Nat.le_succ _, fun hw => ?_⟩
  cases w with
  | true => have := hw rfl; simp [SS.diag] at this
  | false => rfl

theorem sim_cond (e : AExpr) : Sim w (validateCond (opt c q w') e) (validateCond (opt c q' w) e) := by
  unfold validateCond
  refine .ite (.error _ _) ?_
  split
  · exact sim_warn _ _
  · exact .pure _

theorem sim_condition (e : Expr) : Sim w (condition (opt c q w') e) (condition (opt c q' w) e) :=
  .bind (sim_expr e) fun a => .bind (sim_cond a) fun _ => .pure _

theorem sim_trivial (e : AExpr) (i : Bool) : Sim w (warnTrivial (opt c q w') e i) (warnTrivial (opt c q' w) e i) := by
  unfold warnTrivial
  split
  · exact .ite (.pure _) (sim_warn _ _)
  · exact .pure _

theorem sane_keeps (t : Tree) : Keeps (assertSaneChild t) := by
  unfold assertSaneChild
  split
  · exact .pure _
  · exact .pure _
  · split
    all_goals first | exact .pure _ | exact .ub | exact .bind (headTok_keeps _) fun _ => .error _ _

theorem noDead_keeps : ∀ t, Keeps (noDeadCodeBelow t)
  | .nil => by simp only [noDeadCodeBelow]; exact .pure _
  | .node stmt tok _ _ next => by
    unfold noDeadCodeBelow
    split
    all_goals first | exact noDead_keeps next | exact .bind (headTok_keeps _) fun _ => .error _ _

theorem needIf_keeps (b : List Stmt) (t : List Token) : Keeps (needIf b t) := .ite (.pure _) (.bind (headTok_keeps _) fun _ => .error _ _)

theorem needBlock_keeps (b : Tree) (t : List Token) : Keeps (needBlock b t) := by
  unfold needBlock
  split
  · exact .pure _
  · exact .bind (headTok_keeps _) fun _ => .error _ _

theorem checkReturn_keeps (m : Bool) (f : Func) (e : Option AExpr) (tok : List Token) : Keeps (checkReturn m f e tok) := by
  unfold checkReturn
  split
  · exact .ite (.bind (headTok_keeps _) fun _ => .error _ _) (.pure _)
  · exact .ite (.error _ _) (.ite (.error _ _) (.pure _))

theorem sim_optExpr (e : Expr) : Sim w (validateOptExpr (opt c q w') e) (validateOptExpr (opt c q' w) e) := by
  cases e <;> first | exact .pure _ | exact .bind (sim_expr _) fun _ => .pure _

theorem sim_return (e : Expr) (tok : List Token) (next : Tree) : Sim w (validateReturn (opt c q w') e tok next) (validateReturn (opt c q' w) e tok next) :=
  .bind (.keeps (sane_keeps _)) fun _ => .bind (sim_optExpr e) fun _ => .bind (.keeps .get) fun _ => .bind (.keeps (funcAt_keeps _)) fun _ =>
    .bind (.keeps (checkReturn_keeps _ _ _ _)) fun _ => .bind (.keeps (noDead_keeps _)) fun _ => .pure _

theorem alias_grow (i : Bool) (e : Expr) (tok : List Token) : Grow (validateTypeAlias i e tok) := fun _ _ _ h => tr_grow (v := false) (typeAlias_tr h)

theorem nodeToVar_grow (name : List Token) (x y z : Bool) (e : AExpr) : Grow (nodeToVar c name x y z e) := by
  unfold nodeToVar
  refine .bind (.keeps ?_) fun _ => .bind (.keeps ?_) fun _ => .bind (.keeps (headTok_keeps _)) fun _ => .bind (.keeps (tokName_keeps _)) fun _ =>
    .bind (.keeps (makeVariable_keeps _ _ _)) fun _ => .bind (.keeps (linkageName_keeps _ _ _)) fun _ => .bind (newSym_grow _) fun _ =>
    .bind (mustAdd_grow _) fun _ => .keeps (.pure _)
  · unfold notVoidFuncAssign
    split
    · exact .ite (.error _ _) (.pure _)
    · exact .pure _
  · refine .ite (.pure _) (.bind (tokenToType_keeps _) fun o => ?_)
    cases o
    · exact .error _ _
    · exact .pure _

theorem sim_var (name : List Token) (x y z : Bool) (e : Expr) :
    Sim w (validateVar (opt c q w') name x y z e) (validateVar (opt c q' w) name x y z e) :=
  .bind (sim_expr e) fun a => .bind (nodeToVar_grow (c := c) name x y z a).sim fun id => .bind (updSym_grow _ _).sim fun _ =>
    .bind (.keeps (varAt_keeps _)) fun _ => .bind (.keeps (.ite (.error _ _) (.pure _))) fun _ => .bind (sim_trivial _ _) fun _ => .pure _

theorem sim_varDef (name : List Token) (x y z : Bool) (e : Expr) (tok tokEnd : List Token) :
    Sim w (validateVarDef (opt c q w') name x y z e tok tokEnd) (validateVarDef (opt c q' w) name x y z e tok tokEnd) := by
  refine .bind (.keeps (tokenToType_keeps _)) fun o => ?_
  cases o
  · exact sim_var _ _ _ _ _
  · exact .bind (alias_grow _ _ _).sim fun _ => .pure _

theorem sim_assign (e : Expr) (tok : List Token) : Sim w (validateVarAssign (opt c q w') e tok) (validateVarAssign (opt c q' w) e tok) := by
  refine .bind (.keeps (headTok_keeps _)) fun t => .bind (.keeps (scopeFindVar_keeps _)) fun r => ?_
  refine .ite (.error _ _) (.bind (updSym_grow _ _).sim fun _ => .bind (sim_expr e) fun a => .bind (.keeps (.ite (.error _ _) (.pure _))) fun _ =>
    .bind (.keeps ?_) fun _ => .pure _)
  unfold notRedundant
  split
  · exact .ite (.error _ _) (.pure _)
  · exact .pure _

theorem params_grow (x : Bool) : ∀ ps, Grow (validateParams x ps)
  | [] => .keeps (.pure _)
  | p :: ps => by
    unfold validateParams
    refine .bind (.keeps (tokenToType_keeps _)) fun o => ?_
    cases o with
    | none => exact .keeps (.error _ _)
    | some ty =>
      refine .bind (.keeps (tokName_keeps _)) fun _ => .bind (.keeps (makeVariable_keeps _ _ _)) fun _ => .bind (newSym_grow _) fun id => ?_
      intro s a s' h
      obtain ⟨ok, s₁, h1, h⟩ := bind_ok.1 h
      cases ok with
      | false => cases h
      | true =>
        rw [← (scopeAddVar_keeps h1).2]
        exact Grow.bind (params_grow x ps) (fun _ => .keeps (.pure _)) _ _ _ h

theorem decl_grow (p : FuncProto) : Grow (validateFuncDecl c p) := by
  unfold validateFuncDecl
  refine .bind (.keeps ?_) fun _ => .bind (.keeps ?_) fun _ => .bind (.keeps (tokName_keeps _)) fun _ => .bind (.keeps (linkageName_keeps _ _ _)) fun _ =>
    .bind (newSym_grow _) fun _ => .bind (.keeps (enterFunc_keeps _)) fun _ => .bind (mustAdd_grow _) fun _ => .bind ?_ fun _ => .keeps (.pure _)
  · exact .bind isTopLvlScope_keeps fun _ => .ite (.error _ _) (.pure _)
  · cases p.returnType with
    | none => exact .pure _
    | some toks =>
      refine .bind (tokenToType_keeps _) fun o => ?_
      cases o
      · exact .error _ _
      · exact .pure _
  · exact .ite (.keeps (.pure _)) (.bind (.keeps makeChildScope_keeps) fun _ => .bind (params_grow _ _) fun _ => .bind (updSym_grow _ _) fun _ =>
      .bind (.keeps restoreParentScope_keeps) fun _ => .keeps (.pure _))

theorem post_keeps (t : Tree) : Keeps (postValidateFunc t) :=
  .bind .get fun _ => .bind (funcAt_keeps _) fun _ => .ite (.pure _) (.bind (.ite (.error _ _) (.ite (.error _ _) (.pure _))) fun _ => leaveFunc_keeps)

theorem sim_block {n n' : Chk ATree} (h : Sim w n n') : Sim w (block n) (block n') :=
  .bind (.keeps makeChildScope_keeps) fun _ => .bind h fun _ => .bind (.keeps resetScopeHead_keeps) fun _ =>
    .bind (.keeps restoreParentScope_keeps) fun _ => .bind (.keeps makeAdjacentScope_keeps) fun _ => .pure _

theorem jump_keeps (code : Code) (tok : List Token) (next : Tree) : Keeps (validateJump code tok next) :=
  .bind .get fun _ => .ite (noDead_keeps _) (.bind (headTok_keeps _) fun _ => .error _ _)

theorem closeNs_grow (id : Nat) : Grow (closeNamespace id) := by
  intro s a s' h
  unfold closeNamespace at h
  split at h
  · cases h
  · exact updSym_grow _ _ _ _ _ h

theorem import_keeps (tok : List Token) : Keeps (validateImport c tok) :=
  .bind (headTok_keeps _) fun _ => .bind (tokName_keeps _) fun _ => .ite (.error _ _) (.ite (.error _ _) (.pure _))

theorem sim_stmt (before : List Stmt) (stmt : Stmt) (tok tokEnd : List Token) (child next : Tree) {n n' : Chk ATree} (hn : Sim w n n') :
    Sim w (validateStmt (opt c q w') before stmt tok tokEnd child next n) (validateStmt (opt c q' w) before stmt tok tokEnd child next n') := by
  cases stmt with
  | ret e => exact .bind (sim_return _ _ _) fun _ => .pure _
  | unreachable => exact .bind (.keeps (noDead_keeps _)) fun _ => .pure _
  | funcProto p =>
    exact .bind (.keeps .get) fun _ => .bind (.keeps (setDepth_keeps _)) fun _ => .bind (decl_grow (c := c) p).sim fun _ => .bind (sim_block hn) fun _ =>
      .bind (.keeps (post_keeps _)) fun _ => .bind (.keeps (setDepth_keeps _)) fun _ => .pure _
  | varDef name x y z e => exact .bind (sim_varDef _ _ _ _ _ _ _) fun _ => .pure _
  | varAssign e => exact .bind (sim_assign _ _) fun _ => .pure _
  | expr e =>
    cases e with
    | missing => exact .ub
    | call => exact .bind (sim_expr _) fun _ => .pure _
    | _ => exact .bind (.keeps (headTok_keeps _)) fun _ => .error _ _
  | ifs e => exact .bind (.keeps (needBlock_keeps _ _)) fun _ => .bind (sim_condition _) fun _ => .bind (sim_block hn) fun _ => .pure _
  | elses => exact .bind (.keeps (needIf_keeps _ _)) fun _ => .bind (.keeps (needBlock_keeps _ _)) fun _ => .bind (sim_block hn) fun _ => .pure _
  | elifs e =>
    exact .bind (.keeps (needBlock_keeps _ _)) fun _ => .bind (.keeps (needIf_keeps _ _)) fun _ => .bind (sim_condition _) fun _ =>
      .bind (sim_block hn) fun _ => .pure _
  | whiles e =>
    exact .bind (.keeps .get) fun _ => .bind (.keeps (setDepth_keeps _)) fun _ => .bind (.keeps (needBlock_keeps _ _)) fun _ => .bind (sim_condition _) fun _ =>
      .bind (sim_block hn) fun _ => .bind (.keeps .get) fun _ => .bind (.keeps (setDepth_keeps _)) fun _ => .pure _
  | breaks => exact .bind (.keeps (jump_keeps _ _ _)) fun _ => .pure _
  | continues => exact .bind (.keeps (jump_keeps _ _ _)) fun _ => .pure _
  | namespaces =>
    refine .bind (Grow.sim ?_) fun _ => .bind (sim_block hn) fun _ => .bind (closeNs_grow _).sim fun _ => .pure _
    exact .bind (.keeps (headTok_keeps _)) fun _ => .bind (.keeps (tokName_keeps _)) fun _ => .bind (newSym_grow _) fun _ => .bind (mustAdd_grow _) fun _ =>
      .keeps (.pure _)
  | imports => exact .bind (.keeps (import_keeps (c := c) _)) fun _ => .pure _
  | unknown => exact .pure _
  | comment => exact .pure _
  | noop => exact .pure _

theorem sim_nodes : ∀ (t : Tree) (before : List Stmt), Sim w (validateNodes (opt c q w') before t) (validateNodes (opt c q' w) before t)
  | .nil, _ => by simp only [validateNodes]; exact .pure _
  | .node stmt tok tokEnd child next, before => by
    simp only [validateNodes]
    exact .bind (.keeps (sane_keeps _)) fun _ => .bind (sim_stmt _ _ _ _ _ _ (sim_nodes child [])) fun _ => .bind (sim_nodes next _) fun _ => .pure _

/- ### Unused symbols -/

/-- Whatever errors one check counts, the other one counts none, and says the same. -/
def NoErr (w : Bool) (m m' : Chk Bool) : Prop :=
  ∀ s a s', m s = .ok a s' → s'.syms = s.syms ∧ s.diags.length ≤ s'.diags.length ∧ ((w = true → s'.diags.length = s.diags.length) → m' s = .ok false s')

theorem NoErr.pure (e : Bool) : NoErr w (Pure.pure e) (Pure.pure false) := by
  intro s a s' h
  cases h
  exact ⟨rfl, Nat.le_refl _, fun _ => rfl⟩

theorem NoErr.ub {m' : Chk Bool} : NoErr w Chk.ub m' := by intro s a s' h; cases h

theorem NoErr.bind {m m' : Chk Bool} {f f' : Bool → Chk Bool} (hm : NoErr w m m') (hf : ∀ a, NoErr w (f a) (f' false)) : NoErr w (m >>= f) (m' >>= f') := by
  intro s a s' h
  obtain ⟨b, s₁, h1, h2⟩ := bind_ok.1 h
  obtain ⟨y1, l1, k1⟩ := hm _ _ _ h1
  obtain ⟨y2, l2, k2⟩ := hf _ _ _ _ h2
  refine ⟨y2.trans y1, Nat.le_trans l1 l2, fun hw => bind_ok.2 ⟨false, s₁, k1 fun e => ?_, k2 fun e => ?_⟩⟩
  · have := hw e; omega
  · have := hw e; omega

theorem NoErr.symAt {id : Nat} {f f' : Symbol → Chk Bool} (hf : ∀ a, NoErr w (f a) (f' a)) : NoErr w (Skull.symAt id >>= f) (Skull.symAt id >>= f') := by
  intro s a s' h
  obtain ⟨b, s₁, h1, h2⟩ := bind_ok.1 h
  obtain ⟨y2, l2, k2⟩ := hf _ _ _ _ h2
  obtain ⟨e1, e2⟩ := symAt_keeps _ _ _ _ h1
  rw [e2] at l2 k2
  exact ⟨y2.trans e1, l2, fun hw => bind_ok.2 ⟨b, s₁, h1, k2 hw⟩⟩

theorem noErr_warnIf (cond e : Bool) (code : Code) (t : Option Token) : NoErr w (warnIf (opt c q w') cond e code t) (warnIf (opt c q' w) cond false code t) := by
  unfold warnIf
  cases cond with
  | false => exact .pure _
  | true =>
    intro s a s' h
    simp only [if_true] at h ⊢
    obtain ⟨_, s₁, h1, h⟩ := bind_ok.1 h
    cases h1
    cases h
    refine ⟨rfl, Nat.le_succ _, fun hw => ?_⟩
    cases w with
    | true => have := hw rfl; simp [SS.diag] at this
    | false => rfl

theorem noErr_sym (e : Bool) (sym : Symbol) : NoErr w (unusedSym (opt c q w') e sym) (unusedSym (opt c q' w) false sym) := by
  unfold unusedSym
  split
  · exact .bind (noErr_warnIf _ _ _ _) fun _ => noErr_warnIf _ _ _ _
  · exact noErr_warnIf _ _ _ _
  · exact .ub

theorem noErr_unused : ∀ (t : ATree) (e : Bool), NoErr w (checkUnused (opt c q w') e t) (checkUnused (opt c q' w) false t)
  | .nil, e => by simp only [checkUnused]; exact .pure _
  | .unchecked t, e => by
    simp only [checkUnused]
    split
    · exact .pure _
    · exact .ub
  | .node ann stmt tok child next, e => by
    have plain : ∀ e, NoErr w (match child with
          | .nil => checkUnused (opt c q w') e next
          | ch => do let inner ← checkUnused (opt c q w') false ch; checkUnused (opt c q w') (e && !inner) next)
        (match child with
          | .nil => checkUnused (opt c q' w) false next
          | ch => do let inner ← checkUnused (opt c q' w) false ch; checkUnused (opt c q' w) (false && !inner) next) := by
      intro e
      cases child with
      | nil => exact noErr_unused next e
      | _ => exact .bind (noErr_unused _ false) fun _ => noErr_unused next _
    cases ann with
    | varDef id x =>
      simp only [checkUnused]
      exact .symAt fun sym => .bind (noErr_sym e sym) fun _ => noErr_unused next _
    | func id x =>
      simp only [checkUnused]
      exact .symAt fun sym => .bind (noErr_sym e sym) fun _ => noErr_unused next _
    | _ => cases child <;> (simp only [checkUnused]; exact plain e)

/- ### The check of a file -/

/-- The checks of statements of an accepted file, and the one of unused symbols. -/
theorem semantic_parts {c : Cfg} {t : Tree} {a : ATree} {s : SS} (h : semantic c t = .ok a s) : ∃ s₀ s₁ s₂ s₃, setupState c = some s₀ ∧
    validateNodes c [] t s₀ = .ok a s₁ ∧ resetScopeHead s₁ = .ok () s₂ ∧ resetScopeHead s₂ = .ok () s₃ ∧
    (if c.quiet then s = s₃ else checkUnused c false a s₃ = .ok false s) := by
  unfold semantic at h
  split at h
  · cases h
  · rename_i s₀ h0
    unfold validateAstTree at h
    obtain ⟨a', s₁, h1, h⟩ := bind_ok.1 h
    obtain ⟨s₂, h2, h⟩ := bind_ok_unit.1 h
    obtain ⟨s₃, h3, h⟩ := bind_ok_unit.1 h
    split at h
    · rename_i hq
      cases h
      exact ⟨s₀, s₁, s₂, s, h0, h1, h2, h3, by rw [if_pos hq]⟩
    · rename_i hq
      obtain ⟨e, s₄, h4, h⟩ := bind_ok.1 h
      cases e with
      | true => cases h
      | false => cases h; exact ⟨s₀, s₁, s₂, s₃, h0, h1, h2, h3, by rw [if_neg hq]; exact h4⟩

theorem semantic_whole {c : Cfg} {t : Tree} {a : ATree} {s s₀ s₁ s₂ s₃ : SS} (h0 : setupState c = some s₀) (h1 : validateNodes c [] t s₀ = .ok a s₁)
    (h2 : resetScopeHead s₁ = .ok () s₂) (h3 : resetScopeHead s₂ = .ok () s₃) (h4 : if c.quiet then s = s₃ else checkUnused c false a s₃ = .ok false s) :
    semantic c t = .ok a s := by
  unfold semantic
  rw [h0]
  unfold validateAstTree
  refine bind_ok.2 ⟨a, s₁, h1, bind_ok_unit.2 ⟨s₂, h2, bind_ok_unit.2 ⟨s₃, h3, ?_⟩⟩⟩
  split at h4
  · rename_i hq; rw [if_pos hq, h4]; rfl
  · rename_i hq; rw [if_neg hq]; exact bind_ok.2 ⟨false, s, h4, rfl⟩

theorem start_diags {c : Cfg} {s : SS} (h : setupState c = some s) : s.diags = [] := by
  unfold setupState at h
  obtain ⟨n, _, rfl⟩ := Option.map_eq_some_iff.1 h
  rfl

/-- From one setting to another. -/
theorem semantic_sim {t : Tree} {a : ATree} {s : SS} (h : semantic (opt c q w') t = .ok a s) (hs : w = true → s.diags = []) (hq : q = true → q' = true) :
    ∃ s', semantic (opt c q' w) t = .ok a s' ∧ s'.syms = s.syms ∧ (q' = q → s' = s) := by
  obtain ⟨s₀, s₁, s₂, s₃, h0, h1, h2, h3, h4⟩ := semantic_parts h
  obtain ⟨l1, k1⟩ := sim_nodes (c := c) (q := q) (q' := q') (w := w) (w' := w') t [] _ _ _ h1
  have e2 := (resetScopeHead_keeps _ _ _ h2).2
  have e3 := (resetScopeHead_keeps _ _ _ h3).2
  have e0 := start_diags h0
  have key : s.syms = s₃.syms ∧ s₃.diags.length ≤ s.diags.length := by
    cases q with
    | true => cases h4; exact ⟨rfl, Nat.le_refl _⟩
    | false =>
      obtain ⟨y, l, _⟩ := noErr_unused (c := c) (q := false) (q' := false) (w := w) (w' := w') a false _ _ _ h4
      exact ⟨y, l⟩
  have n1 : validateNodes (opt c q' w) [] t s₀ = .ok a s₁ := by
    refine k1 fun e => ?_
    have h5 := key.2
    rw [hs e, e3, e2] at h5
    rw [e0]
    exact Nat.le_zero.1 h5
  cases q' with
  | true =>
    refine ⟨s₃, semantic_whole h0 n1 h2 h3 rfl, key.1.symm, fun e => ?_⟩
    subst e
    exact h4.symm
  | false =>
    cases q with
    | true => exact nomatch hq rfl
    | false =>
      obtain ⟨_, l, k⟩ := noErr_unused (c := c) (q := false) (q' := false) (w := w) (w' := w') a false _ _ _ h4
      refine ⟨s, semantic_whole h0 n1 h2 h3 (k fun e => ?_), rfl, fun _ => rfl⟩
      rw [hs e] at l ⊢
      exact (Nat.le_zero.1 l).symm

/-- With all settings that accept a program, the same comes out. -/
theorem semantic_same {t : Tree} {a a' : ATree} {s s' : SS} (h : semantic (opt c q w') t = .ok a s) (h' : semantic (opt c q' w) t = .ok a' s') :
    a' = a ∧ s'.syms = s.syms := by
  obtain ⟨u, h1, h2, _⟩ := semantic_sim (q' := true) (w := false) h (fun e => nomatch e) (fun _ => rfl)
  obtain ⟨u', h3, h4, _⟩ := semantic_sim (q' := true) (w := false) h' (fun e => nomatch e) (fun _ => rfl)
  rw [h1] at h3
  cases h3
  exact ⟨rfl, h4.symm.trans h2⟩

end Skull.Opts
