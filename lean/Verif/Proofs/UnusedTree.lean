import Verif.Proofs.Unused
/-
The check of statements marks exactly the symbols that the checked tree uses.
-/
namespace Skull
open Spec

/-- The parameters of external functions, which are marked from the start. -/
def extIds : Ann → Stmt → List Nat
  | .func _ ps, .funcProto p => if p.isExternal then ps else []
  | _, _ => []

/-- The same for a whole tree. -/
def ATree.exts : ATree → List Nat
  | .nil => []
  | .unchecked _ => []
  | .node ann stmt _ child next => extIds ann stmt ++ (child.exts ++ next.exts)

/-- The variable a node defines. -/
def Ann.vars : Ann → List Nat
  | .varDef id _ => [id]
  | _ => []

/-- The variables that a tree defines. -/
def ATree.vars : ATree → List Nat
  | .nil => []
  | .unchecked _ => []
  | .node ann _ _ child next => ann.vars ++ (child.vars ++ next.vars)

/-- The marks a node sets. -/
def annUse (ann : Ann) (stmt : Stmt) : Mark → Nat → Bool
  | .read, id => ann.value.any (AExpr.reads id) || (extIds ann stmt).contains id
  | .assigned, id => ann.assigns id || (extIds ann stmt).contains id
  | .called, id => ann.value.any (AExpr.calls id)

/-- The marks a tree sets. -/
def ATree.use (t : ATree) : Mark → Nat → Bool
  | .read, id => t.reads id || t.exts.contains id
  | .assigned, id => t.assigns id || t.exts.contains id
  | .called, id => t.calls id

/-- The symbol of a node is that of its statement. -/
def NodeLink (syms : List Symbol) (ann : Ann) (stmt : Stmt) (child : ATree) : Prop :=
  match ann with
  | .varDef id _ => child = .nil ∧ ∃ n rest isConst isImplicit isExported e sym,
      stmt = .varDef (n :: rest) isConst isImplicit isExported e ∧ syms[id]? = some sym ∧ sym.fixed = (some n, .var, isConst, isExported)
  | .func id _ => ∃ p sym, stmt = .funcProto p ∧ syms[id]? = some sym ∧ sym.fixed = (some p.name, .func, false, false)
  | _ => (∀ p, stmt ≠ .funcProto p)

/-- The same for a tree. -/
def Links (syms : List Symbol) : ATree → Prop
  | .nil => True
  | .unchecked _ => True
  | .node ann stmt _ child next => NodeLink syms ann stmt child ∧ Links syms child ∧ Links syms next

theorem NodeLink.keep {w s s' u ann stmt child} (ht : Tr w s s' u) (h : NodeLink s.syms ann stmt child) :
    NodeLink s'.syms ann stmt child := by
  unfold NodeLink at h ⊢
  split at h
  · obtain ⟨h0, n, rest, c, i, x, e, sym, h1, h2, h3⟩ := h
    obtain ⟨sym', h4, h5⟩ := ht.fixed _ _ h2
    exact ⟨h0, n, rest, c, i, x, e, sym', h1, h4, h5.trans h3⟩
  · obtain ⟨p, sym, h1, h2, h3⟩ := h
    obtain ⟨sym', h4, h5⟩ := ht.fixed _ _ h2
    exact ⟨p, sym', h1, h4, h5.trans h3⟩
  · exact h

theorem Links.keep {w s s' u} (ht : Tr w s s' u) : ∀ {t : ATree}, Links s.syms t → Links s'.syms t
  | .nil, _ => trivial
  | .unchecked _, _ => trivial
  | .node .., ⟨h1, h2, h3⟩ => ⟨h1.keep ht, h2.keep ht, h3.keep ht⟩

/-- The tree is what the check makes between the two states. -/
structure TreeOk (w : Bool) (s s' : SS) (t : ATree) : Prop where
  tr : Tr w s s' t.use
  links : Links s'.syms t
  range : ∀ id, id ∈ t.vars ∨ id ∈ t.exts → s.syms.length ≤ id ∧ id < s'.syms.length
  apart : ∀ id, id ∈ t.vars → id ∉ t.exts

theorem TreeOk.nil (w : Bool) (s : SS) : TreeOk w s s .nil :=
  ⟨.congr (.refl w s) fun m id => by cases m <;> simp [ATree.use, ATree.reads, ATree.assigns, ATree.calls, ATree.exts, noUse],
    trivial, (fun id h => by simp [ATree.vars, ATree.exts] at h), (fun id h => by simp [ATree.vars] at h)⟩

theorem TreeOk.leaveAlone (w : Bool) (s : SS) : ∀ t, TreeOk w s s (Skull.leaveAlone t)
  | .nil => .nil w s
  | .node .. => ⟨.congr (.refl w s) fun m id => by
      cases m <;> simp [Skull.leaveAlone, ATree.use, ATree.reads, ATree.assigns, ATree.calls, ATree.exts, noUse],
    trivial, (fun id h => by simp [Skull.leaveAlone, ATree.vars, ATree.exts] at h),
    (fun id h => by simp [Skull.leaveAlone, ATree.vars] at h)⟩

/-- One statement. -/
theorem TreeOk.node {w s s₁ s₂ s₃ ann stmt tok child} (h1 : Tr w s s₁ (annUse ann stmt)) (h2 : TreeOk w s₁ s₂ child)
    (h3 : Tr w s₂ s₃ noUse) (hl : NodeLink s₁.syms ann stmt child)
    (hr : ∀ id, id ∈ ann.vars ∨ id ∈ extIds ann stmt → s.syms.length ≤ id ∧ id < s₁.syms.length) :
    TreeOk w s s₃ (.node ann stmt tok child .nil) := by
  refine ⟨.congr ((h1.trans h2.tr).then h3) ?_, ⟨(hl.keep h2.tr).keep h3, h2.links.keep h3, trivial⟩, ?_, ?_⟩
  · intro m id
    cases m
    · simp only [ATree.use, ATree.reads, ATree.exts, annUse, orUse, List.append_nil, Bool.or_false, List.contains_eq_mem,
        List.mem_append, Bool.decide_or]
      generalize Option.any _ _ = a, child.reads id = b, decide (id ∈ extIds ann stmt) = c, decide (id ∈ child.exts) = d
      revert a b c d; decide
    · simp only [ATree.use, ATree.assigns, ATree.exts, annUse, orUse, List.append_nil, Bool.or_false, List.contains_eq_mem,
        List.mem_append, Bool.decide_or]
      generalize ann.assigns id = a, child.assigns id = b, decide (id ∈ extIds ann stmt) = c, decide (id ∈ child.exts) = d
      revert a b c d; decide
    · simp only [ATree.use, ATree.calls, annUse, orUse, Bool.or_false]
  · intro id h
    have a := h1.len
    have b := h2.tr.len
    have c := h3.len
    simp only [ATree.vars, ATree.exts, List.append_nil, List.mem_append] at h
    rcases h with (h | h) | (h | h)
    · have := hr id (.inl h); omega
    · have := h2.range id (.inl h); omega
    · have := hr id (.inr h); omega
    · have := h2.range id (.inr h); omega
  · intro id h
    simp only [ATree.vars, ATree.exts, List.append_nil, List.mem_append] at h ⊢
    rintro (h' | h')
    · rcases h with h | h
      · cases ann <;> simp [Ann.vars] at h
        simp [extIds] at h'
      · have := hr id (.inr h')
        have := h2.range id (.inl h)
        omega
    · rcases h with h | h
      · have := hr id (.inl h)
        have := h2.range id (.inr h')
        omega
      · exact h2.apart id h h'

/-- A statement and what comes after it. -/
theorem TreeOk.cons {w s s₁ s₂ ann stmt tok child next} (h1 : TreeOk w s s₁ (.node ann stmt tok child .nil)) (h2 : TreeOk w s₁ s₂ next) :
    TreeOk w s s₂ (.node ann stmt tok child next) := by
  refine ⟨.congr (h1.tr.trans h2.tr) ?_, ⟨h1.links.1.keep h2.tr, h1.links.2.1.keep h2.tr, h2.links⟩, ?_, ?_⟩
  · intro m id
    cases m
    · simp only [ATree.use, ATree.reads, ATree.exts, orUse, List.append_nil, Bool.or_false, List.contains_eq_mem,
        List.mem_append, Bool.decide_or]
      generalize Option.any _ _ = a, child.reads id = b, decide (id ∈ extIds ann stmt) = c, decide (id ∈ child.exts) = d,
        next.reads id = e, decide (id ∈ next.exts) = f
      revert a b c d e f; decide
    · simp only [ATree.use, ATree.assigns, ATree.exts, orUse, List.append_nil, Bool.or_false, List.contains_eq_mem,
        List.mem_append, Bool.decide_or]
      generalize ann.assigns id = a, child.assigns id = b, decide (id ∈ extIds ann stmt) = c, decide (id ∈ child.exts) = d,
        next.assigns id = e, decide (id ∈ next.exts) = f
      revert a b c d e f; decide
    · simp only [ATree.use, ATree.calls, orUse, Bool.or_false]
  · intro id h
    have a := h1.tr.len
    have b := h2.tr.len
    have r1 := h1.range id
    have r2 := h2.range id
    simp only [ATree.vars, ATree.exts, List.append_nil, List.mem_append] at h r1
    rcases h with (h | h | h) | (h | h | h)
    · have := r1 (.inl (.inl h)); omega
    · have := r1 (.inl (.inr h)); omega
    · have := r2 (.inl h); omega
    · have := r1 (.inr (.inl h)); omega
    · have := r1 (.inr (.inr h)); omega
    · have := r2 (.inr h); omega
  · intro id h
    have r1 := h1.range id
    have r2 := h2.range id
    have ap := h1.apart id
    simp only [ATree.vars, ATree.exts, List.append_nil, List.mem_append] at h r1 ap ⊢
    rintro (h' | h' | h')
    · rcases h with h | h | h
      · exact ap (.inl h) (.inl h')
      · exact ap (.inr h) (.inl h')
      · have := r1 (.inr (.inl h')); have := r2 (.inl h); omega
    · rcases h with h | h | h
      · exact ap (.inl h) (.inr h')
      · exact ap (.inr h) (.inr h')
      · have := r1 (.inr (.inr h')); have := r2 (.inl h); omega
    · rcases h with h | h | h
      · have := r1 (.inl (.inl h)); have := r2 (.inr h'); omega
      · have := r1 (.inl (.inr h)); have := r2 (.inr h'); omega
      · exact h2.apart id h h'

/- ### Statements -/

theorem scopeAddSymbol_keeps {id s s'} (h : scopeAddSymbol id s = .ok true s') : s'.syms = s.syms ∧ s'.diags = s.diags := by
  unfold scopeAddSymbol at h
  replace h := bind_ok.1 h
  obtain ⟨sym, s₁, h1, h⟩ := h
  have k1 := symAt_keeps id _ _ _ h1
  replace h := bind_ok.1 h
  obtain ⟨b, s₂, h2, h⟩ := h
  unfold symbolAlreadyExists at h2
  replace h2 := bind_ok.1 h2
  obtain ⟨ty, s₃, h3, h2⟩ := h2
  have k3 := findSymbolType_keeps _ _ _ _ h3
  split at h2
  · cases h2
    have k4 := Keeps.bind currentScope_keeps (fun i => addToScope_keeps i sym.name id) _ _ _ h
    exact ⟨k4.1.trans (k3.1.trans k1.1), k4.2.trans (k3.2.trans k1.2)⟩
  · replace h2 := bind_ok_unit.1 h2
    obtain ⟨s₄, h4, h2⟩ := h2
    cases h2
    cases h

theorem mustAdd_tr {w id s s'} (h : mustAdd id s = .ok () s') : Tr w s s' noUse := .of_eq (scopeAddSymbol_keeps (mustAdd_ok.1 h))

/-- A new symbol without marks. -/
theorem push_tr {w} (s : SS) (sym : Symbol) (h : ∀ m, sym.mark m = false) : Tr w s (s.push sym) noUse :=
  (Tr.push s sym).congr fun m id => by rw [h]; simp [noUse]

theorem warn_tr {cfg : Cfg} {code t s s'} (hc : isUnusedCode code = false) (h : warn cfg code t s = .ok () s') :
    Tr cfg.werror s s' noUse := by
  unfold warn at h
  replace h := bind_ok_unit.1 h
  obtain ⟨s₁, h1, h⟩ := h
  cases h1
  split at h
  · cases h
  · rename_i hw
    cases h
    refine ⟨Nat.le_refl _, fun id sym hs => ⟨sym, hs, rfl⟩, fun m id => by simp [SS.mark, SS.diag, noUse], [⟨code, t⟩], rfl, ?_,
      fun hw' => absurd hw' hw⟩
    intro d hd
    rw [List.mem_singleton.1 hd]
    exact hc

theorem condition_tr {cfg : Cfg} {c s a s'} (h : condition cfg c s = .ok a s') : Tr cfg.werror s s' a.use := by
  unfold condition at h
  replace h := bind_ok.1 h
  obtain ⟨e, s₁, h1, h⟩ := h
  replace h := bind_ok_unit.1 h
  obtain ⟨s₂, h2, h⟩ := h
  cases h
  refine (expr_tr c _ _ _ h1).then ?_
  unfold validateCond at h2
  split at h2
  · cases h2
  · split at h2
    · refine warn_tr ?_ h2
      split <;> rfl
    · cases h2; exact .refl _ _

/-- The marks of a node that only has an expression. -/
theorem use_expr (e : AExpr) (stmt : Stmt) (m : Mark) (id : Nat) : annUse (.expr e) stmt m id = e.use m id := by
  cases m <;> simp [annUse, Ann.value, Ann.assigns, extIds, AExpr.use]

theorem use_none (stmt : Stmt) (m : Mark) (id : Nat) : annUse .none stmt m id = noUse m id := by
  cases m <;> simp [annUse, Ann.value, Ann.assigns, extIds, noUse]

theorem use_ns (i : Nat) (stmt : Stmt) (m : Mark) (id : Nat) : annUse (.ns i) stmt m id = noUse m id := by
  cases m <;> simp [annUse, Ann.value, Ann.assigns, extIds, noUse]

/-- What the check of blocks gives. -/
def NodesTr (cfg : Cfg) (t : Tree) : Prop := ∀ before s a s', validateNodes cfg before t s = .ok a s' → TreeOk cfg.werror s s' a

theorem TreeOk.block {cfg child s a s'} (hn : NodesTr cfg child) (h : Skull.block (validateNodes cfg [] child) s = .ok a s') :
    ∃ s₁ s₂, Tr cfg.werror s s₁ noUse ∧ TreeOk cfg.werror s₁ s₂ a ∧ Tr cfg.werror s₂ s' noUse := by
  unfold Skull.block at h
  replace h := bind_ok_unit.1 h
  obtain ⟨s₁, h1, h⟩ := h
  replace h := bind_ok.1 h
  obtain ⟨r, s₂, h2, h⟩ := h
  refine ⟨s₁, s₂, .keeps makeChildScope_keeps h1, ?_, ?_⟩
  · have := Keeps.bind resetScopeHead_keeps (fun _ => Keeps.bind restoreParentScope_keeps fun _ => Keeps.bind makeAdjacentScope_keeps
      fun _ => Keeps.pure r)
    replace h := bind_ok_unit.1 h
    obtain ⟨s₃, _, h⟩ := h
    replace h := bind_ok_unit.1 h
    obtain ⟨s₄, _, h⟩ := h
    replace h := bind_ok_unit.1 h
    obtain ⟨s₅, _, h⟩ := h
    cases h
    exact hn _ _ _ _ h2
  · exact .keeps (Keeps.bind resetScopeHead_keeps (fun _ => Keeps.bind restoreParentScope_keeps fun _ =>
      Keeps.bind makeAdjacentScope_keeps fun _ => Keeps.pure r)) h

/-- A statement that defines nothing. -/
theorem TreeOk.plain {w s s₁ s₂ s₃ ann stmt tok child} (h1 : Tr w s s₁ (annUse ann stmt)) (h2 : TreeOk w s₁ s₂ child)
    (h3 : Tr w s₂ s₃ noUse) (hv : ann.vars = []) (hf : ann.isFunc = false) (hs : ∀ p, stmt ≠ .funcProto p) :
    TreeOk w s s₃ (.node ann stmt tok child .nil) := by
  refine .node h1 h2 h3 ?_ ?_
  · cases ann <;> first | exact hs | (cases hv; done) | (cases hf; done)
  · intro id h
    rw [hv] at h
    have : extIds ann stmt = [] := by cases ann <;> first | rfl | (cases hf; done)
    rw [this] at h
    simp at h

theorem TreeOk.leaf {w s s₁ ann stmt tok} (h1 : Tr w s s₁ (annUse ann stmt)) (hv : ann.vars = []) (hf : ann.isFunc = false)
    (hs : ∀ p, stmt ≠ .funcProto p) : TreeOk w s s₁ (.node ann stmt tok .nil .nil) :=
  .plain h1 (.nil _ _) (.refl _ _) hv hf hs

theorem return_tr {cfg e tok next s a s'} (h : validateReturn cfg e tok next s = .ok a s') :
    (a = .none ∧ Tr cfg.werror s s' noUse) ∨ (∃ x, a = .expr x ∧ Tr cfg.werror s s' x.use) := by
  unfold validateReturn at h
  replace h := bind_ok_unit.1 h
  obtain ⟨s₁, h1, h⟩ := h
  obtain rfl := sane_state h1
  replace h := bind_ok.1 h
  obtain ⟨o, s₂, h2, h⟩ := h
  replace h := bind_ok.1 h
  obtain ⟨s₃, s₄, h3, h⟩ := h
  cases h3
  replace h := bind_ok.1 h
  obtain ⟨f, s₅, h4, h⟩ := h
  replace h4 := funcAt_ok h4
  obtain ⟨rfl, _⟩ := h4
  replace h := bind_ok_unit.1 h
  obtain ⟨s₆, h5, h⟩ := h
  rw [checkReturn_ok] at h5
  obtain ⟨_, rfl⟩ := h5
  replace h := bind_ok_unit.1 h
  obtain ⟨s₇, h6, h⟩ := h
  rw [noDead_ok] at h6
  obtain ⟨_, rfl⟩ := h6
  cases h
  unfold validateOptExpr at h2
  split at h2
  · cases h2
    exact .inl ⟨rfl, .refl _ _⟩
  · replace h2 := bind_ok.1 h2
    obtain ⟨x, s₈, h7, h2⟩ := h2
    cases h2
    exact .inr ⟨x, rfl, expr_tr _ _ _ _ h7⟩

theorem typeAlias_tr {w isConst expr tok s s'} (h : validateTypeAlias isConst expr tok s = .ok () s') : Tr w s s' noUse := by
  unfold validateTypeAlias at h
  split at h
  · exact .keeps (.bind (headTok_keeps _) fun _ => .error _ _) h
  · split at h
    · exact .keeps (.bind (headTok_keeps _) fun _ => .error _ _) h
    · replace h := bind_ok.1 h
      obtain ⟨ty, s₁, h1, h⟩ := h
      replace h := bind_ok.1 h
      obtain ⟨t, s₂, h2, h⟩ := h
      replace h := bind_ok.1 h
      obtain ⟨n, s₃, h3, h⟩ := h
      replace h := bind_ok.1 h
      obtain ⟨id, s₄, h4, h⟩ := h
      cases h4
      exact ((((Tr.keeps (tokenToType_keeps _) h1).then (.keeps (headTok_keeps _) h2)).then (.keeps (tokName_keeps _) h3)).then
        (push_tr _ _ fun m => by cases m <;> rfl)).then (mustAdd_tr h)

theorem nodeToVar_tr {w cfg name isConst isImplicit isExported e s id s'}
    (h : nodeToVar cfg name isConst isImplicit isExported e s = .ok id s') :
    Tr w s s' noUse ∧ s.syms.length ≤ id ∧ ∃ n rest sym v, name = n :: rest ∧ s'.syms[id]? = some sym ∧ sym.kind = .var v ∧
      sym.fixed = (some n, .var, isConst, isExported) := by
  unfold nodeToVar at h
  replace h := bind_ok_unit.1 h
  obtain ⟨s₁, h1, h⟩ := h
  replace h := bind_ok.1 h
  obtain ⟨ty, s₂, h2, h⟩ := h
  replace h := bind_ok.1 h
  obtain ⟨t, s₃, h3, h⟩ := h
  replace h := bind_ok.1 h
  obtain ⟨str, s₄, h4, h⟩ := h
  replace h := bind_ok.1 h
  obtain ⟨var, s₅, h5, h⟩ := h
  replace h := bind_ok.1 h
  obtain ⟨link, s₆, h6, h⟩ := h
  replace h := bind_ok.1 h
  obtain ⟨i, s₇, h7, h⟩ := h
  rw [newSym_eq] at h7
  cases h7
  replace h := bind_ok_unit.1 h
  obtain ⟨s₈, h8, h⟩ := h
  cases h
  have k1 : Tr w s s₁ noUse := by
    refine .keeps ?_ h1
    unfold notVoidFuncAssign
    split
    · exact .ite (.error _ _) (.pure _)
    · exact .pure _
  have k2 : Tr w s₁ s₂ noUse := by
    refine .keeps (.ite (.pure _) (.bind (tokenToType_keeps _) fun o => ?_)) h2
    split
    · exact .pure _
    · exact .error _ _
  have k3 : Tr w s₂ s₃ noUse := .keeps (headTok_keeps _) h3
  have k4 : Tr w s₃ s₄ noUse := .keeps (tokName_keeps _) h4
  have k5 : Tr w s₄ s₅ noUse := .keeps (makeVariable_keeps _ _ _) h5
  have k6 : Tr w s₅ s₆ noUse := .keeps (linkageName_keeps _ _ _) h6
  have k := ((((k1.then k2).then k3).then k4).then k5).then k6
  rw [headTok_ok] at h3
  obtain ⟨⟨rest, h3⟩, _⟩ := h3
  rw [makeVariable_ok] at h5
  obtain ⟨_, hv, _⟩ := h5
  subst hv
  have k7 := scopeAddSymbol_keeps (mustAdd_ok.1 h8)
  refine ⟨(k.then (push_tr _ _ fun m => by cases m <;> rfl)).then (mustAdd_tr h8), k.len, t, rest, _, _, h3,
    by rw [k7.1]; exact push_get _ _, rfl, rfl⟩

theorem varDef_tr {cfg name isConst isImplicit isExported e tok tokEnd s a s'}
    (h : validateVarDef cfg name isConst isImplicit isExported e tok tokEnd s = .ok a s') :
    TreeOk cfg.werror s s' (.node a (.varDef name isConst isImplicit isExported e) tok .nil .nil) := by
  unfold validateVarDef at h
  replace h := bind_ok.1 h
  obtain ⟨o, s₁, h1, h⟩ := h
  have k1 : Tr cfg.werror s s₁ noUse := .keeps (tokenToType_keeps _) h1
  cases o with
  | some ty =>
    replace h := bind_ok_unit.1 h
    obtain ⟨s₂, h2, h⟩ := h
    cases h
    exact .leaf (.congr (k1.then (typeAlias_tr h2)) (use_none _)) rfl rfl (fun p h => by cases h)
  | none =>
    simp only at h
    unfold validateVar at h
    replace h := bind_ok.1 h
    obtain ⟨x, s₂, h2, h⟩ := h
    replace h := bind_ok.1 h
    obtain ⟨id, s₃, h3, h⟩ := h
    replace h := bind_ok_unit.1 h
    obtain ⟨s₄, h4, h⟩ := h
    replace h := bind_ok.1 h
    obtain ⟨v, s₅, h5, h⟩ := h
    replace h := bind_ok_unit.1 h
    obtain ⟨s₆, h6, h⟩ := h
    rw [compatible_ok] at h6
    obtain ⟨_, rfl⟩ := h6
    replace h := bind_ok_unit.1 h
    obtain ⟨s₇, h7, h⟩ := h
    cases h
    have k2 : Tr cfg.werror s₁ s₂ x.use := expr_tr _ _ _ _ h2
    obtain ⟨k3, hid, n, rest, sym, v', hn, hs, hk, hf⟩ := nodeToVar_tr (w := cfg.werror) h3
    have k4 : Tr cfg.werror s₃ s₄ noUse := by
      refine updVar_tr _ _ hs hk ⟨rfl, rfl⟩ (fun m => ?_) (fun _ _ _ => rfl) h4
      cases m <;> simp [Symbol.mark, hk, noUse]
    have k5 : Tr cfg.werror s₄ s₆ noUse := .keeps (varAt_keeps _) h5
    have k7 : Tr cfg.werror s₆ s' noUse := by
      unfold warnTrivial at h7
      split at h7
      · split at h7
        · cases h7; exact .refl _ _
        · exact warn_tr rfl h7
      · cases h7; exact .refl _ _
    have k3' := ((k3.then k4).then k5).then k7
    refine .node (.congr ((k1.after k2).then k3') ?_) (.nil _ _) (.refl _ _) ?_ ?_
    · intro m id; cases m <;> simp [annUse, Ann.value, Ann.assigns, extIds, AExpr.use]
    · obtain ⟨sym', h8, h9⟩ := ((k4.then k5).then k7).fixed _ _ hs
      exact ⟨rfl, n, rest, isConst, isImplicit, isExported, e, sym', by rw [hn], h8, h9.trans hf⟩
    · intro j h
      simp only [Ann.vars, extIds, List.mem_singleton, List.not_mem_nil, or_false] at h
      subst h
      obtain ⟨sym', h8, h9⟩ := ((k4.then k5).then k7).fixed _ _ hs
      have := k1.len
      have := k2.len
      have := get_lt h8
      omega

theorem varAssign_tr {cfg e tok s a s'} (h : validateVarAssign cfg e tok s = .ok a s') :
    TreeOk cfg.werror s s' (.node a (.varAssign e) tok .nil .nil) := by
  unfold validateVarAssign at h
  replace h := bind_ok.1 h
  obtain ⟨t, s₁, h1, h⟩ := h
  replace h := bind_ok.1 h
  obtain ⟨⟨id, v⟩, s₂, h2, h⟩ := h
  simp only at h
  split at h
  · cases h
  · replace h := bind_ok_unit.1 h
    obtain ⟨s₃, h3, h⟩ := h
    replace h := bind_ok.1 h
    obtain ⟨x, s₄, h4, h⟩ := h
    replace h := bind_ok_unit.1 h
    obtain ⟨s₅, h5, h⟩ := h
    rw [compatible_ok] at h5
    obtain ⟨_, rfl⟩ := h5
    replace h := bind_ok_unit.1 h
    obtain ⟨s₆, h6, h⟩ := h
    cases h
    have k1 : Tr cfg.werror s s₁ noUse := .keeps (headTok_keeps _) h1
    have k2 : Tr cfg.werror s₁ s₂ noUse := .keeps (scopeFindVar_keeps _) h2
    obtain ⟨sym, hs, hk⟩ := scopeFindVar_at h2
    have k3 : Tr cfg.werror s₂ s₃ (oneUse .assigned id) := by
      refine updVar_tr _ _ hs hk ⟨rfl, rfl⟩ (fun m => ?_) (oneUse_ne _ _) h3
      cases m <;> simp [Symbol.mark, hk, oneUse]
    have k4 : Tr cfg.werror s₃ s₅ x.use := expr_tr _ _ _ _ h4
    have k6 : Tr cfg.werror s₅ s' noUse := by
      refine .keeps ?_ h6
      unfold notRedundant
      split
      · exact .ite (.error _ _) (.pure _)
      · exact .pure _
    refine .leaf (.congr (((k1.then k2).after k3).trans (k4.then k6)) ?_) rfl rfl (fun p h => by cases h)
    intro m id; cases m <;> simp [annUse, Ann.value, Ann.assigns, extIds, AExpr.use, orUse, oneUse]

/-- The marks of external parameters. -/
def paramUse (isExternal : Bool) (ids : List Nat) : Mark → Nat → Bool
  | .read, id | .assigned, id => isExternal && ids.contains id
  | .called, _ => false

theorem scopeAddVar_keeps {id s s'} (h : scopeAddVar id s = .ok true s') : s'.syms = s.syms ∧ s'.diags = s.diags := by
  unfold scopeAddVar at h
  replace h := bind_ok.1 h
  obtain ⟨sym, s₁, h1, h⟩ := h
  have k1 := symAt_keeps id _ _ _ h1
  replace h := bind_ok.1 h
  obtain ⟨o, s₂, h2, h⟩ := h
  have k2 := lookup_keeps _ _ _ _ h2
  cases o with
  | some _ => cases h
  | none =>
    have k3 := scopeAddSymbol_keeps h
    exact ⟨k3.1.trans (k2.1.trans k1.1), k3.2.trans (k2.2.trans k1.2)⟩

theorem params_tr {w ext} : ∀ (ps : List Param) (s : SS) (r : List (Ty × Nat)) (s' : SS), validateParams ext ps s = .ok r s' →
    Tr w s s' (paramUse ext (r.map Prod.snd)) ∧ ∀ id ∈ r.map Prod.snd, s.syms.length ≤ id ∧ id < s'.syms.length
  | [], s, r, s', h => by
    unfold validateParams at h
    cases h
    exact ⟨.congr (.refl _ _) fun m id => by cases m <;> simp [paramUse, noUse], fun id h => by cases h⟩
  | p :: ps, s, r, s', h => by
    unfold validateParams at h
    replace h := bind_ok.1 h
    obtain ⟨o, s₁, h1, h⟩ := h
    cases o with
    | none => cases h
    | some ty =>
      simp only at h
      replace h := bind_ok.1 h
      obtain ⟨str, s₂, h2, h⟩ := h
      replace h := bind_ok.1 h
      obtain ⟨var, s₃, h3, h⟩ := h
      replace h := bind_ok.1 h
      obtain ⟨i, s₄, h4, h⟩ := h
      rw [newSym_eq] at h4
      cases h4
      replace h := bind_ok.1 h
      obtain ⟨b, s₅, h5, h⟩ := h
      cases b with
      | false => cases h
      | true =>
        simp only [if_true] at h
        replace h := bind_ok.1 h
        obtain ⟨rest, s₆, h6, h⟩ := h
        cases h
        have k1 : Tr w s s₁ noUse := .keeps (tokenToType_keeps _) h1
        have k2 : Tr w s₁ s₂ noUse := .keeps (tokName_keeps _) h2
        have k3 : Tr w s₂ s₃ noUse := .keeps (makeVariable_keeps _ _ _) h3
        have k := (k1.then k2).then k3
        have k4 := Tr.push (w := w) s₃ { name := str, exprType := some ty, loc := some p.name, kind := .var { var with isDefined := true, wasReassigned := ext, wasRead := ext } }
        have k5 : Tr w _ s₅ noUse := .of_eq (scopeAddVar_keeps h5)
        obtain ⟨k6, hr⟩ := params_tr (w := w) ps _ _ _ h6
        refine ⟨.congr (k.after ((k4.then k5).trans k6)) ?_, ?_⟩
        · intro m id
          cases m <;> simp only [paramUse, orUse, Symbol.mark, List.map_cons, List.contains_cons, Bool.and_false, Bool.false_or]
          all_goals
            rw [Bool.and_or_distrib_left, Bool.and_comm ext]
        · intro id h
          have l1 := k.len
          have l5 := k5.len
          have l6 := k6.len
          have l4 : (s₃.push { name := str, exprType := some ty, loc := some p.name, kind := .var { var with isDefined := true, wasReassigned := ext, wasRead := ext } }).syms.length = s₃.syms.length + 1 := by
            simp [SS.push]
          simp only [List.map_cons, List.mem_cons] at h
          rcases h with rfl | h
          · omega
          · have := hr id h
            omega

theorem funcParams_tr {w p id s ids s' sym g} (hs : s.syms[id]? = some sym) (hk : sym.fixed = (some p.name, .func, g))
    (h : validateFuncParams p id s = .ok ids s') :
    Tr w s s' (paramUse p.isExternal ids) ∧ ∀ i ∈ ids, s.syms.length ≤ i ∧ i < s'.syms.length := by
  unfold validateFuncParams at h
  split at h
  · cases h
    exact ⟨.congr (.refl _ _) fun m id => by cases m <;> simp [paramUse, noUse], fun id h => by cases h⟩
  · replace h := bind_ok_unit.1 h
    obtain ⟨s₁, h1, h⟩ := h
    replace h := bind_ok.1 h
    obtain ⟨ps, s₂, h2, h⟩ := h
    replace h := bind_ok_unit.1 h
    obtain ⟨s₃, h3, h⟩ := h
    replace h := bind_ok_unit.1 h
    obtain ⟨s₄, h4, h⟩ := h
    cases h
    have k1 : Tr w s s₁ noUse := .keeps makeChildScope_keeps h1
    obtain ⟨k2, hr⟩ := params_tr (w := w) _ _ _ _ h2
    obtain ⟨sym', g1, g2⟩ := (k1.after k2).fixed _ _ hs
    rw [hk] at g2
    have g3 : ∃ f, sym'.kind = .func f := by
      cases hk' : sym'.kind <;> simp [Symbol.fixed, hk', SymKind.symType] at g2
      exact ⟨_, rfl⟩
    obtain ⟨f, g3⟩ := g3
    have k3 : Tr w s₂ s₃ noUse := by
      refine updFunc_tr _ _ g1 g3 (fun m => ?_) (fun _ _ _ => rfl) h3
      cases m <;> simp [Symbol.mark, g3, noUse]
    have k4 : Tr w s₃ s' noUse := .keeps restoreParentScope_keeps h4
    refine ⟨((k1.after k2).then k3).then k4, fun i hi => ?_⟩
    have := hr i hi
    have := k1.len
    have := k3.len
    have := k4.len
    omega

theorem func_tr {cfg p tok child s r s'} (hn : NodesTr cfg child)
    (h : (do
      let s ← Chk.get
      setDepth 0
      let r ← validateFuncDecl cfg p
      let body ← block (validateNodes cfg [] child)
      postValidateFunc child
      setDepth s.whileDepth
      pure (Ann.func r.1 r.2, body) : Chk (Ann × ATree)) s = .ok r s') :
    TreeOk cfg.werror s s' (.node r.1 (.funcProto p) tok r.2 .nil) := by
  replace h := bind_ok.1 h
  obtain ⟨s₀, s₁, h0, h⟩ := h
  cases h0
  replace h := bind_ok_unit.1 h
  obtain ⟨s₂, h1, h⟩ := h
  replace h := bind_ok.1 h
  obtain ⟨d, s₃, h2, h⟩ := h
  replace h := bind_ok.1 h
  obtain ⟨body, s₄, h3, h⟩ := h
  replace h := bind_ok_unit.1 h
  obtain ⟨s₅, h4, h⟩ := h
  replace h := bind_ok_unit.1 h
  obtain ⟨s₆, h5, h⟩ := h
  cases h
  have k1 : Tr cfg.werror s s₂ noUse := .keeps (setDepth_keeps _) h1
  have k4 : Tr cfg.werror s₄ s₅ noUse := by
    refine .keeps (.bind .get fun _ => .bind (funcAt_keeps _) fun f => .ite (.pure _) (.bind ?_ fun _ => leaveFunc_keeps)) h4
    exact .ite (.error _ _) (.ite (.error _ _) (.pure _))
  have k5 : Tr cfg.werror s₅ s' noUse := .keeps (setDepth_keeps _) h5
  obtain ⟨a₁, a₂, b1, b2, b3⟩ := TreeOk.block hn h3
  unfold validateFuncDecl at h2
  replace h2 := bind_ok_unit.1 h2
  obtain ⟨t₁, g1, h2⟩ := h2
  replace h2 := bind_ok.1 h2
  obtain ⟨ret, t₂, g2, h2⟩ := h2
  replace h2 := bind_ok.1 h2
  obtain ⟨str, t₃, g3, h2⟩ := h2
  replace h2 := bind_ok.1 h2
  obtain ⟨link, t₄, g4, h2⟩ := h2
  replace h2 := bind_ok.1 h2
  obtain ⟨id, t₅, g5, h2⟩ := h2
  rw [newSym_eq] at g5
  cases g5
  replace h2 := bind_ok_unit.1 h2
  obtain ⟨t₆, g6, h2⟩ := h2
  replace h2 := bind_ok_unit.1 h2
  obtain ⟨t₇, g7, h2⟩ := h2
  replace h2 := bind_ok.1 h2
  obtain ⟨ids, t₈, g8, h2⟩ := h2
  cases h2
  have j1 : Tr cfg.werror s₂ t₁ noUse := .keeps (.bind isTopLvlScope_keeps fun _ => .ite (.error _ _) (.pure _)) g1
  have j2 : Tr cfg.werror t₁ t₂ noUse := by
    refine .keeps ?_ g2
    unfold validateReturnType
    split
    · exact .pure _
    · refine .bind (tokenToType_keeps _) fun o => ?_
      split
      · exact .pure _
      · exact .error _ _
  have j3 : Tr cfg.werror t₂ t₃ noUse := .keeps (tokName_keeps _) g3
  have j4 : Tr cfg.werror t₃ t₄ noUse := .keeps (linkageName_keeps _ _ _) g4
  have j := (((k1.then j1).then j2).then j3).then j4
  have j5 := push_tr (w := cfg.werror) t₄ { name := str, linkageName := link, exprType := some ret, loc := some p.name, kind := .func { numParams := p.numParams, paramTypes := [], returnType := ret, isExternal := p.isExternal, isExport := p.isExport } } (fun m => by cases m <;> rfl)
  have j6 : Tr cfg.werror _ t₆ noUse := .keeps (enterFunc_keeps _) g6
  have j7 : Tr cfg.werror t₆ t₇ noUse := mustAdd_tr g7
  obtain ⟨sym, f1, f2⟩ := (j6.then j7).fixed _ _ (push_get t₄ _)
  replace f2 : sym.fixed = (some p.name, .func, false, false) := f2
  obtain ⟨j8, hr⟩ := funcParams_tr (w := cfg.werror) f1 f2 g8
  obtain ⟨sym', f3, f4⟩ := (j8.then b1).fixed _ _ f1
  have jj := ((j.then j5).then j6).then j7
  refine .node (.congr ((jj.after j8).then b1) ?_) b2 ((b3.then k4).then k5) ⟨p, sym', rfl, f3, f4.trans f2⟩ ?_
  · intro m id
    cases m <;> simp only [annUse, Ann.value, Ann.assigns, extIds, paramUse, Option.any_none, Bool.false_or]
    all_goals cases p.isExternal <;> simp
  · intro i h
    simp only [Ann.vars, extIds, List.not_mem_nil, false_or] at h
    split at h
    · have := hr i h
      have := jj.len
      have := b1.len
      omega
    · cases h

theorem ns_tr {cfg tok child s r s'} (hn : NodesTr cfg child)
    (h : (do
      let id ← declareNamespace tok
      let body ← block (validateNodes cfg [] child)
      closeNamespace id
      pure (Ann.ns id, body) : Chk (Ann × ATree)) s = .ok r s') :
    TreeOk cfg.werror s s' (.node r.1 .namespaces tok r.2 .nil) := by
  replace h := bind_ok.1 h
  obtain ⟨id, s₁, h1, h⟩ := h
  replace h := bind_ok.1 h
  obtain ⟨body, s₂, h2, h⟩ := h
  replace h := bind_ok_unit.1 h
  obtain ⟨s₃, h3, h⟩ := h
  cases h
  unfold declareNamespace at h1
  replace h1 := bind_ok.1 h1
  obtain ⟨t, t₁, g1, h1⟩ := h1
  replace h1 := bind_ok.1 h1
  obtain ⟨n, t₂, g2, h1⟩ := h1
  replace h1 := bind_ok.1 h1
  obtain ⟨i, t₃, g3, h1⟩ := h1
  rw [newSym_eq] at g3
  cases g3
  replace h1 := bind_ok_unit.1 h1
  obtain ⟨t₄, g4, h1⟩ := h1
  cases h1
  obtain ⟨a₁, a₂, b1, b2, b3⟩ := TreeOk.block hn h2
  have j1 : Tr cfg.werror s t₁ noUse := .keeps (headTok_keeps _) g1
  have j2 : Tr cfg.werror t₁ t₂ noUse := .keeps (tokName_keeps _) g2
  have j3 := push_tr (w := cfg.werror) t₂ { name := n, loc := some t, kind := .ns none } (fun m => by cases m <;> rfl)
  have j4 : Tr cfg.werror _ s₁ noUse := mustAdd_tr g4
  obtain ⟨sym, f1, f2⟩ := (((j4.then b1).trans b2.tr).trans b3).fixed _ _ (push_get t₂ _)
  have f3 : ∃ o, sym.kind = .ns o := by
    cases hk' : sym.kind <;> simp [Symbol.fixed, hk', SymKind.symType] at f2
    exact ⟨_, rfl⟩
  obtain ⟨o, f3⟩ := f3
  have k3 : Tr cfg.werror s₂ s' noUse := by
    unfold closeNamespace at h3
    split at h3
    · cases h3
    · rw [updSym_eq _ f1] at h3
      cases h3
      refine .set _ f1 ?_ (fun m => ?_) (fun _ _ _ => rfl)
      · simp [Symbol.fixed, f3, SymKind.symType]
      · cases m <;> simp [Symbol.mark, f3, noUse]
  exact .plain (.congr ((((j1.then j2).then j3).then j4).then b1) (use_ns _ _)) b2 (b3.then k3) rfl rfl (fun p h => by cases h)

theorem stmt_tr {cfg before stmt tok tokEnd child next s r s'} (hn : NodesTr cfg child)
    (h : validateStmt cfg before stmt tok tokEnd child next (validateNodes cfg [] child) s = .ok r s') :
    TreeOk cfg.werror s s' (.node r.1 stmt tok r.2 .nil) := by
  unfold validateStmt at h
  split at h
  · replace h := bind_ok.1 h
    obtain ⟨a, s₁, h1, h⟩ := h
    cases h
    rcases return_tr h1 with ⟨rfl, k⟩ | ⟨x, rfl, k⟩
    · exact .leaf (.congr k (use_none _)) rfl rfl (fun p h => by cases h)
    · exact .leaf (.congr k (use_expr _ _)) rfl rfl (fun p h => by cases h)
  · replace h := bind_ok_unit.1 h
    obtain ⟨s₁, h1, h⟩ := h
    cases h
    rw [noDead_ok] at h1
    obtain ⟨_, rfl⟩ := h1
    exact .leaf (.congr (.refl _ _) (use_none _)) rfl rfl (fun p h => by cases h)
  · exact func_tr hn h
  · replace h := bind_ok.1 h
    obtain ⟨a, s₁, h1, h⟩ := h
    cases h
    exact varDef_tr h1
  · replace h := bind_ok.1 h
    obtain ⟨a, s₁, h1, h⟩ := h
    cases h
    exact varAssign_tr h1
  · cases h
  · replace h := bind_ok.1 h
    obtain ⟨a, s₁, h1, h⟩ := h
    cases h
    exact .plain (.congr (expr_tr _ _ _ _ h1) (use_expr _ _)) (.leaveAlone _ _ _) (.refl _ _) rfl rfl (fun p h => by cases h)
  · replace h := bind_ok.1 h
    obtain ⟨a, s₁, h1, h⟩ := h
    cases h
  · replace h := bind_ok_unit.1 h
    obtain ⟨s₁, h1, h⟩ := h
    rw [needBlock_ok] at h1
    obtain ⟨_, rfl⟩ := h1
    replace h := bind_ok.1 h
    obtain ⟨e, s₂, h2, h⟩ := h
    replace h := bind_ok.1 h
    obtain ⟨body, s₃, h3, h⟩ := h
    cases h
    obtain ⟨a₁, a₂, b1, b2, b3⟩ := TreeOk.block hn h3
    exact .plain (.congr ((condition_tr h2).then b1) (use_expr _ _)) b2 b3 rfl rfl (fun p h => by cases h)
  · replace h := bind_ok_unit.1 h
    obtain ⟨s₁, h1, h⟩ := h
    rw [needIf_ok] at h1
    obtain ⟨_, rfl⟩ := h1
    replace h := bind_ok_unit.1 h
    obtain ⟨s₁, h1, h⟩ := h
    rw [needBlock_ok] at h1
    obtain ⟨_, rfl⟩ := h1
    replace h := bind_ok.1 h
    obtain ⟨body, s₃, h3, h⟩ := h
    cases h
    obtain ⟨a₁, a₂, b1, b2, b3⟩ := TreeOk.block hn h3
    exact .plain (.congr b1 (use_none _)) b2 b3 rfl rfl (fun p h => by cases h)
  · replace h := bind_ok_unit.1 h
    obtain ⟨s₁, h1, h⟩ := h
    rw [needBlock_ok] at h1
    obtain ⟨_, rfl⟩ := h1
    replace h := bind_ok_unit.1 h
    obtain ⟨s₁, h1, h⟩ := h
    rw [needIf_ok] at h1
    obtain ⟨_, rfl⟩ := h1
    replace h := bind_ok.1 h
    obtain ⟨e, s₂, h2, h⟩ := h
    replace h := bind_ok.1 h
    obtain ⟨body, s₃, h3, h⟩ := h
    cases h
    obtain ⟨a₁, a₂, b1, b2, b3⟩ := TreeOk.block hn h3
    exact .plain (.congr ((condition_tr h2).then b1) (use_expr _ _)) b2 b3 rfl rfl (fun p h => by cases h)
  · replace h := bind_ok.1 h
    obtain ⟨s₀, s₁, h0, h⟩ := h
    cases h0
    replace h := bind_ok_unit.1 h
    obtain ⟨s₂, h1, h⟩ := h
    have k1 : Tr cfg.werror s s₂ noUse := .keeps (setDepth_keeps _) h1
    replace h := bind_ok_unit.1 h
    obtain ⟨s₃, h2, h⟩ := h
    rw [needBlock_ok] at h2
    obtain ⟨_, rfl⟩ := h2
    replace h := bind_ok.1 h
    obtain ⟨e, s₄, h3, h⟩ := h
    replace h := bind_ok.1 h
    obtain ⟨body, s₅, h4, h⟩ := h
    obtain ⟨a₁, a₂, b1, b2, b3⟩ := TreeOk.block hn h4
    replace h := bind_ok.1 h
    obtain ⟨s₆, s₇, h5, h⟩ := h
    cases h5
    replace h := bind_ok_unit.1 h
    obtain ⟨s₈, h6, h⟩ := h
    cases h
    exact .plain (.congr ((k1.after (condition_tr h3)).then b1) (use_expr _ _)) b2 (b3.then (.keeps (setDepth_keeps _) h6)) rfl rfl
      (fun p h => by cases h)
  · replace h := bind_ok_unit.1 h
    obtain ⟨s₁, h1, h⟩ := h
    cases h
    rw [jump_ok] at h1
    obtain ⟨_, rfl⟩ := h1
    exact .leaf (.congr (.refl _ _) (use_none _)) rfl rfl (fun p h => by cases h)
  · replace h := bind_ok_unit.1 h
    obtain ⟨s₁, h1, h⟩ := h
    cases h
    rw [jump_ok] at h1
    obtain ⟨_, rfl⟩ := h1
    exact .leaf (.congr (.refl _ _) (use_none _)) rfl rfl (fun p h => by cases h)
  · exact ns_tr hn h
  · replace h := bind_ok_unit.1 h
    obtain ⟨s₁, h1, h⟩ := h
    cases h
    refine .leaf (.congr (.keeps ?_ h1) (use_none _)) rfl rfl (fun p h => by cases h)
    exact .bind (headTok_keeps _) fun _ => .bind (tokName_keeps _) fun _ => .ite (.error _ _) (.ite (.error _ _) (.pure _))
  all_goals
    cases h
    exact .leaf (.congr (.refl _ _) (use_none _)) rfl rfl (fun p h => by cases h)

theorem nodes_tr {cfg : Cfg} : ∀ t, NodesTr cfg t
  | .nil => by
    intro before s a s' h
    unfold validateNodes at h
    cases h
    exact .nil _ _
  | .node stmt tok tokEnd child next => by
    intro before s a s' h
    unfold validateNodes at h
    replace h := bind_ok_unit.1 h
    obtain ⟨s₁, h1, h⟩ := h
    obtain rfl := sane_state h1
    replace h := bind_ok.1 h
    obtain ⟨r, s₂, h2, h⟩ := h
    replace h := bind_ok.1 h
    obtain ⟨rest, s₃, h3, h⟩ := h
    cases h
    exact .cons (stmt_tr (nodes_tr child) h2) (nodes_tr next _ _ _ _ h3)

end Skull
