import Verif.Proofs.Names
import Verif.Props.Scope
/-
C34 to C36: which names may be declared, how long they are visible, and the names of namespaces.

The theorems speak of the statements of a program and of the environment there (`At`, see Spec/Program and Spec/Typing).
-/
namespace Skull
open Spec

/-! ## C34 No declaration shadows or redefines a visible name -/

/-- A statement of an accepted program declares a name that denotes nothing visible and is no builtin type, or denotes an alias
without a type.  (Missing: blocks behind calls, calls with more than 65535 arguments, aliases without a type.) -/
theorem C34_partial (cfg : Cfg) (t : Tree) (ha : Accepted cfg t) (hc : Counted t) (hb : CallsBare t)
    {c E before stmt tok tokEnd child next} (h : At (cfg.world False) t c E before (.node stmt tok tokEnd child next))
    (u : Token) (x : List Char) (hi : Introduces E stmt tok tokEnd u) (hx : Text u x) :
    (E.decl x = none ∧ builtinType x = none) ∨ E.decl x = some (.alias none) := by
  obtain ⟨E', h1⟩ := accepted_at ha hc hb (returns := False) (ext := false) False.elim h
  exact (h1.introduces hi hx).cases

/-- The parameters of a function have names that denote nothing visible outside, are no builtin types, and differ from the
function's name and from each other. -/
theorem C34_params_partial (cfg : Cfg) (t : Tree) (ha : Accepted cfg t) (hc : Counted t) (hb : CallsBare t)
    {c E before p tok tokEnd child next} (h : At (cfg.world False) t c E before (.node (.funcProto p) tok tokEnd child next))
    (i : Nat) (q : Param) (x : List Char) (hq : p.params[i]? = some q) (hx : Text q.name x) (hd : '.' ∉ x) :
    E.decl x = none ∧ builtinType x = none ∧ ¬ Text p.name x ∧
      ∀ (j : Nat) (r : Param), i < j → p.params[j]? = some r → ¬ Text r.name x := by
  obtain ⟨E', h1⟩ := accepted_at ha hc hb (returns := False) (ext := false) False.elim h
  cases h1 with
  | func _ _ h2 _ h3 =>
    obtain ⟨h4, h5, h6⟩ := h3.free i q x hq hx hd
    rw [resolve_undotted hd] at h4
    simp only [Env.add, List.lookup] at h4
    split at h4
    · cases h4
    · rename_i hne
      refine ⟨?_, h5, ?_, h6⟩
      · unfold Env.decl; rw [resolve_undotted hd, h4]; rfl
      · intro h7; cases text_det h2 h7; simp at hne

/-- As stated; false. -/
def C34_full : Prop := ∀ (cfg : Cfg) (t : Tree), Parsed t → Accepted cfg t → Counted t → CallsBare t →
  ∀ {c E before stmt tok tokEnd child next}, At (cfg.world False) t c E before (.node stmt tok tokEnd child next) →
  ∀ u x, Introduces E stmt tok tokEnd u → Text u x → E.decl x = none ∧ builtinType x = none

/-- `X: Int = Bool` makes an alias `X` without a type, which may be declared again in a block. -/
local notation "aliasSrc" => "X: Int = Bool\nif true {\nX := 1\n}\n"

theorem C34_false : ¬ C34_full := by
  intro h
  have ha : acceptsSrc aliasSrc = true := by decide +kernel
  have hr : ∃ name c i ex e n ty eq tok te u tokEnd cond tok₁ tokEnd₁ n₂ name₂ c₂ i₂ ex₂ e₂ tok₂ te₂ u₂ tokEnd₂ next₁ next₂,
      parsed aliasSrc = .node (.varDef name c i ex e) (n :: ty :: eq :: tok) (te :: u :: tokEnd) .nil
        (.node (.ifs cond) tok₁ tokEnd₁ (.node (.varDef (n₂ :: name₂) c₂ i₂ ex₂ e₂) tok₂ (te₂ :: u₂ :: tokEnd₂) .nil next₁) next₂) ∧
      (tokenToString n = some ['X'] ∧ eq.ty = .operEqual ∧ u.ty = .identifier ∧ tokenToString u = some "Bool".toList ∧
        tokenToString n₂ = some ['X'] ∧ u₂.ty = .intConst) := by
    have : (match parsed aliasSrc with
        | .node (.varDef _ _ _ _ _) (n :: _ :: eq :: _) (_ :: u :: _) .nil
            (.node (.ifs _) _ _ (.node (.varDef (n₂ :: _) _ _ _ _) _ (_ :: u₂ :: _) .nil _) _) =>
          decide (tokenToString n = some ['X'] ∧ eq.ty = .operEqual ∧ u.ty = .identifier ∧ tokenToString u = some "Bool".toList ∧
            tokenToString n₂ = some ['X'] ∧ u₂.ty = .intConst)
        | _ => false) = true := by decide +kernel
    split at this
    · rename_i hs
      exact ⟨_, _, _, _, _, _, _, _, _, _, _, _, _, _, _, _, _, _, _, _, _, _, _, _, _, _, _, hs, of_decide_eq_true this⟩
    · cases this
  have hc : treeCounted (parsed aliasSrc) = true := by decide +kernel
  obtain ⟨name, c, i, ex, e, n, ty, eq, tok, te, u, tokEnd, cond, tok₁, tokEnd₁, n₂, name₂, c₂, i₂, ex₂, e₂, tok₂, te₂, u₂, tokEnd₂,
    next₁, next₂, h1, h2, h3, h4, h5, h6, h7⟩ := hr
  have hb : CallsBare (parsed aliasSrc) := by
    have : (match parsed aliasSrc with
        | .node (.varDef ..) _ _ .nil (.node (.ifs _) _ _ (.node (.varDef ..) _ _ .nil .nil) .nil) => true
        | _ => false) = true := by decide +kernel
    split at this
    · rename_i hs
      rw [hs]
      simp [CallsBare]
    · cases this
  obtain ⟨a, s, h8⟩ := accepted_src ha
  obtain ⟨E₂, h8⟩ := semantic_sound (world_models sampleCfg False) h8 ((treeCounted_iff _).1 hc) (ext := false) False.elim
  have hcl := (treeCounted_iff _).1 hc
  have hpa := parsed_src ha
  have hac := accepted_src ha
  generalize parsed aliasSrc = t at *
  subst h1
  have hst : ∃ E₁, StmtOk (sampleCfg.world False) .main .start [] (.varDef name c i ex e) (n :: ty :: eq :: tok) (te :: u :: tokEnd) .nil
      (.node (.ifs cond) tok₁ tokEnd₁ (.node (.varDef (n₂ :: name₂) c₂ i₂ ex₂ e₂) tok₂ (te₂ :: u₂ :: tokEnd₂) .nil next₁) next₂) E₁ ∧
      E₁.decl ['X'] = some (.alias none) := by
    cases h8 with
    | node _ h9 _ =>
      refine ⟨_, h9, ?_⟩
      cases h9 with
      | alias g1 _ g2 g3 _ =>
        cases text_det g3 h2
        cases g2 with
        | name g _ => rw [h3] at g; simp at g
        | ref g _ => rw [h3] at g; cases g
        | other => simp [Env.decl, Env.resolve, path, follow, Env.add, Env.start]
      | varDef g1 =>
        have := TypeAt.det g1 (.name (.inl h4) h5)
        exact absurd this (by decide)
  obtain ⟨E₁, h9, h10⟩ := hst
  have hn : ¬ ∃ σ, TypeAt E₁ (u₂ :: tokEnd₂) (some σ) := by
    rintro ⟨σ, h⟩
    cases TypeAt.det h (.other (by simp [h7]) (by simp [h7]) (by simp [h7]))
  have hat : At (sampleCfg.world False) _ _ E₁ [] (.node (.varDef (n₂ :: name₂) c₂ i₂ ex₂ e₂) tok₂ (te₂ :: u₂ :: tokEnd₂) .nil next₁) :=
    .next h9 (.body .ifs .here)
  have := (h _ _ hpa hac hcl hb hat n₂ ['X'] (.inr ⟨hn, rfl⟩) h6).1
  rw [h10] at this
  cases this

example : acceptsSrc "x := 1\nif true {\ny := 2\n}\ny := x\n" = true := by decide +kernel
example : refusals "x := 1\nif true {\nx := 2\n}\n" = some [.errVarAlreadyDefined, .warnCondAlwaysTrue] := by decide +kernel
example : refusals "f(x: Int, x: Int) {\nnoop\n}\n" = some [.errShadowVar] := by decide +kernel

/-! ## C35 Names are gone when their block ends -/

/-- Statements whose block is a branch or a loop. -/
def IsBranch : Stmt → Prop
  | .ifs _ | .elifs _ | .elses | .whiles _ => True
  | _ => False

/-- When a block ends, a name denotes what the blocks around have declared, whatever the block has declared; and a name that they
have not declared can be declared again. -/
theorem C35_scopes (cfg : Cfg) (s s' : SS) (f g : List (List Char × Nat)) (fs : Frames) (ds : List Decl)
    (h : ScopeRun cfg s (f :: g :: fs) ds) (hc : closeBlock s = .ok () s') (x : List Char) (hx : '.' ∉ x) :
    lookup x s' = .ok (innermost (g :: fs) x) s' ∧ (innermost (g :: fs) x = none → builtinType x = none →
      ∀ sym, Declarable sym → sym.name = x → ∃ s'', declareSym sym s' = .ok true s'') := by
  refine ⟨C33_innermost cfg s' _ _ (.closeBlock h hc) x hx, fun hn hb sym hd hs => ?_⟩
  subst hs
  exact (C33_defined cfg s' _ _ (.closeBlock h hc)).2.2 sym hd hx hn hb

/-- After a branch or a loop of an accepted program every name denotes what it denoted before, and may be declared if it might
before.  (Missing: blocks behind calls, calls with more than 65535 arguments.) -/
theorem C35_partial (cfg : Cfg) (t : Tree) (ha : Accepted cfg t) (hc : Counted t) (hb : CallsBare t)
    {c E before stmt tok tokEnd child next} (h : At (cfg.world False) t c E before (.node stmt tok tokEnd child next))
    (hs : IsBranch stmt) : ∃ E', At (cfg.world False) t c E' (stmt :: before) next ∧
      ∀ x, E'.resolve x = E.resolve x ∧ E'.decl x = E.decl x ∧ (E'.Free x ↔ E.Free x) := by
  obtain ⟨E', h1⟩ := accepted_at ha hc hb (returns := False) (ext := false) False.elim h
  have hw := h.wf .start
  refine ⟨E', h.trans (.next h1 .here), fun x => ?_⟩
  have hv : E'.vis = E.vis := by cases h1 <;> first | rfl | exact hs.elim
  obtain ⟨h2, h3⟩ := (h1.grows hw).decl hw hv x
  refine ⟨h2, h3, ?_⟩
  unfold Env.Free
  rw [h3]

/-- After a function of an accepted program every name denotes what it denoted before, apart from the name of the function: the
parameters and the names declared in the body are gone. -/
theorem C35_function_partial (cfg : Cfg) (t : Tree) (ha : Accepted cfg t) (hc : Counted t) (hb : CallsBare t)
    {c E before p tok tokEnd child next} (h : At (cfg.world False) t c E before (.node (.funcProto p) tok tokEnd child next)) :
    ∃ E' f, Text p.name f ∧ At (cfg.world False) t c E' (.funcProto p :: before) next ∧
      ∀ x, firstPart x ≠ f → E'.resolve x = E.resolve x ∧ E'.decl x = E.decl x ∧ (E'.Free x ↔ E.Free x) := by
  obtain ⟨E', h1⟩ := accepted_at ha hc hb (returns := False) (ext := false) False.elim h
  have hw := h.wf .start
  have hv : ∃ f, Text p.name f ∧ E'.vis = (f, E.decls.length) :: E.vis := by cases h1 with | func _ _ h => exact ⟨_, h, rfl⟩
  obtain ⟨f, hf, hv⟩ := hv
  refine ⟨E', f, hf, h.trans (.next h1 .here), fun x hx => ?_⟩
  obtain ⟨h2, h3⟩ := (h1.grows hw).decl_cons hw hv x hx
  refine ⟨h2, h3, ?_⟩
  unfold Env.Free
  rw [h3]

/-- The statement after a branch or a loop uses variables only that were visible before it. -/
theorem C35_use_partial (cfg : Cfg) (t : Tree) (ha : Accepted cfg t) (hc : Counted t) (hb : CallsBare t)
    {c E before stmt tok tokEnd child stmt₂ tok₂ tokEnd₂ child₂ next₂}
    (h : At (cfg.world False) t c E before (.node stmt tok tokEnd child (.node stmt₂ tok₂ tokEnd₂ child₂ next₂)))
    (hs : IsBranch stmt) (e : Expr) (he : stmtExpr stmt₂ = some e) (hna : ∀ name isConst isImplicit isExported e,
      stmt₂ ≠ .varDef name isConst isImplicit isExported e) (u : Token) (hu : SubExpr (.ident u) e) :
    ∃ x τ m, Text u x ∧ E.decl x = some (.var τ m) := by
  obtain ⟨E', h1, h2⟩ := C35_partial cfg t ha hc hb h hs
  obtain ⟨E'', h3⟩ := accepted_at ha hc hb (returns := False) (ext := false) False.elim h1
  have hm : e ≠ .missing := by rintro rfl; cases hu
  obtain ⟨τ, h4⟩ := h3.value he hm (by rintro ⟨⟨_, _, _, _, _, h⟩, _⟩; exact hna _ _ _ _ _ h)
  obtain ⟨σ, h5⟩ := HasType.sub e h4 hu
  cases h5 with
  | ident h5 h6 => rw [(h2 _).2.1] at h6; exact ⟨_, _, _, h5, h6⟩

/-- As stated; false. -/
def C35_full : Prop := ∀ (cfg : Cfg) (t : Tree), Parsed t → Accepted cfg t →
  ∀ {c E before stmt tok tokEnd child stmt₂ tok₂ tokEnd₂ child₂ next₂},
  At (cfg.world False) t c E before (.node stmt tok tokEnd child (.node stmt₂ tok₂ tokEnd₂ child₂ next₂)) → IsBranch stmt →
  ∀ e, stmtExpr stmt₂ = some e → (∀ name isConst isImplicit isExported e, stmt₂ ≠ .varDef name isConst isImplicit isExported e) →
  ∀ u, SubExpr (.ident u) e → ∃ x τ m, Text u x ∧ E.decl x = some (.var τ m)

local notation "goneSrc" => "f(a: Int) {\nnoop\n}\nf(1) {\nif true {\nx := 1\n}\nreturn x\n}\n"

theorem C35_false : ¬ C35_full := by
  intro h
  have ha : acceptsSrc goneSrc = true := by decide +kernel
  have hr : ∃ cond tok tokEnd child u tok₂ tokEnd₂ child₂ next₂,
      callShape (parsed goneSrc) = some (.ifs cond, tok, tokEnd, child, .node (.ret (.ident u)) tok₂ tokEnd₂ child₂ next₂) ∧
      tokenToString u = some ['x'] := by
    have : (match callShape (parsed goneSrc) with
        | some (.ifs _, _, _, _, .node (.ret (.ident u)) _ _ _ _) => tokenToString u == some ['x']
        | _ => false) = true := by decide +kernel
    split at this
    · rename_i hs
      exact ⟨_, _, _, _, _, _, _, _, _, hs, by simpa using this⟩
    · cases this
  obtain ⟨cond, tok, tokEnd, child, u, tok₂, tokEnd₂, child₂, next₂, h1, h2⟩ := hr
  obtain ⟨c, E, n, args, num, h3, _, h4⟩ := callBlock ha (by decide +kernel) h1
  obtain ⟨x, τ, m, h5, h6⟩ := h _ _ (parsed_src ha) (accepted_src ha) h3 trivial _ rfl (by intros; simp) u .here
  cases text_det h5 h2
  rw [no_decl h4 (by decide) (by decide)] at h6
  cases h6

example : refusals "if true {\nx := 1\n}\nreturn x\n" = some [.errVarNotFound, .warnCondAlwaysTrue] := by decide +kernel
example : refusals "f(x: Int) {\nnoop\n}\nreturn x\n" = some [.errVarNotFound] := by decide +kernel

/-! ## C36 A dotted name denotes a member of that namespace -/

/-- After a namespace `n` of an accepted program `n.x` denotes what `x` denotes at the end of the namespace.  If `x` was not visible
before the namespace, that is something declared in it.  (Missing: see C36_false; blocks behind calls, calls with more than 65535
arguments.) -/
theorem C36_partial (cfg : Cfg) (t : Tree) (ha : Accepted cfg t) (hc : Counted t) (hb : CallsBare t)
    {c E before tok tokEnd child next} (h : At (cfg.world False) t c E before (.node .namespaces tok tokEnd child next))
    (u : Token) (n : List Char) (hu : tok.tail.head? = some u) (hn : Text u n) (hd : '.' ∉ n) :
    ∃ c₁ E₁ before₁ E', At (cfg.world False) t c₁ E₁ before₁ .nil ∧ (∃ stmts, Reach (cfg.world False) c.inner (E.add n (.ns [])) []
        child c.inner E₁ stmts .nil) ∧ At (cfg.world False) t c E' (.namespaces :: before) next ∧
      (∀ x, '.' ∉ x → E'.resolve (n ++ '.' :: x) = E₁.resolve x) ∧
      (∀ x id, E₁.resolve x = some id → E'.resolve (n ++ '.' :: x) = some id) ∧
      ∀ x id, '.' ∉ x → E.resolve x = none → x ≠ n → E'.resolve (n ++ '.' :: x) = some id → E.decls.length < id := by
  obtain ⟨E', h1⟩ := accepted_at ha hc hb (returns := False) (ext := false) False.elim h
  have hw := h.wf .start
  cases h1 with
  | @namespaces _ _ E₁ _ n' k t' ts _ _ _ g1 g2 g3 =>
    cases hu
    cases text_det g1 hn
    obtain ⟨b₁, hr⟩ := Stmts.reach _ g3
    have hwn : (E.add n (.ns [])).WF := hw.add _ (fun _ h => by cases h; rfl)
    have hg := Stmts.grows _ g3 hwn
    have hlen : E.decls.length < E₁.decls.length := by
      have := hg.ext.len
      simp only [Env.add, List.length_append, List.length_cons, List.length_nil] at this
      omega
    have hk : E₁.decls[E.decls.length]? = some (.ns []) := by
      rw [hg.ext.same _ (by simp [Env.add])]
      simp [Env.add]
    have hres : ∀ x, Env.resolve ⟨(n, E.decls.length) :: E.vis, E₁.decls.set E.decls.length (.ns E₁.vis)⟩ (n ++ '.' :: x) =
        follow (E₁.decls.set E.decls.length (.ns E₁.vis)) E₁.vis (path x) := by
      intro x
      unfold Env.resolve
      rw [path_dot hd]
      obtain ⟨more, hm⟩ := path_first x
      rw [hm, follow]
      simp [hlen]
    have hund : ∀ x, '.' ∉ x → Env.resolve ⟨(n, E.decls.length) :: E.vis, E₁.decls.set E.decls.length (.ns E₁.vis)⟩ (n ++ '.' :: x) =
        E₁.resolve x := by
      intro x hx
      rw [hres, resolve_undotted hx, path_undotted hx]
      rfl
    refine ⟨_, E₁, _, _, h.trans (.body (.ns g1) hr), ⟨_, hr⟩, h.trans (.next (.namespaces g1 g2 g3) .here), hund, ?_, ?_⟩
    · intro x id hx
      rw [hres]
      exact follow_set hk _ _ hx
    · intro x id hx hx' hne hid
      rw [hund x hx, resolve_undotted hx] at hid
      rw [resolve_undotted hx] at hx'
      exact Stmts.newer _ g3 hwn (fun p hp h => by
        simp only [Env.add, List.mem_cons] at hp
        rcases hp with rfl | hp
        · exact absurd h.symm hne
        · exfalso
          exact lookup_some_of_mem hp h hx') hid (by simp [Env.add])
where
  lookup_some_of_mem {x : List Char} : ∀ {l : List (List Char × Nat)} {p : List Char × Nat}, p ∈ l → p.1 = x → l.lookup x = none → False
    | [], _, h, _, _ => by cases h
    | q :: l, p, hp, hx, hl => by
      simp only [List.lookup] at hl
      split at hl
      · cases hl
      · rename_i hne
        cases hp with
        | head => subst hx; simp at hne
        | tail _ hp => exact lookup_some_of_mem hp hx hl

/-- As stated; false. -/
def C36_full : Prop := ∀ (cfg : Cfg) (t : Tree), Parsed t → Accepted cfg t → Counted t → CallsBare t →
  ∀ {c E before tok tokEnd child next}, At (cfg.world False) t c E before (.node .namespaces tok tokEnd child next) →
  ∀ {E'}, At (cfg.world False) t c E' (.namespaces :: before) next → ∀ u n, tok.tail.head? = some u → Text u n → '.' ∉ n →
  ∀ x id, '.' ∉ x → E'.resolve (n ++ '.' :: x) = some id → E.decls.length < id

/-- Names from outside are found through the namespace too. -/
local notation "nsSrc" => "x := 1\nnamespace n {\ny := 2\n}\nz := n.x\n"

theorem C36_false : ¬ C36_full := by
  intro h
  have ha : acceptsSrc nsSrc = true := by decide +kernel
  have hr : ∃ a name c i ex e tok tokEnd k n tok₁ tokEnd₁ b name₂ c₂ i₂ ex₂ e₂ tok₂ tokEnd₂ next,
      parsed nsSrc = .node (.varDef (a :: name) c i ex e) (a :: tok) tokEnd .nil
        (.node .namespaces (k :: n :: tok₁) tokEnd₁ (.node (.varDef (b :: name₂) c₂ i₂ ex₂ e₂) (b :: tok₂) tokEnd₂ .nil .nil) next) ∧
      tokenToString a = some ['x'] ∧ tokenToString n = some ['n'] ∧ tokenToString b = some ['y'] := by
    have : (match parsed nsSrc with
        | .node (.varDef (a :: _) _ _ _ _) (a' :: _) _ .nil
            (.node .namespaces (_ :: n :: _) _ (.node (.varDef (b :: _) _ _ _ _) (b' :: _) _ .nil .nil) _) =>
          decide (a' = a ∧ b' = b ∧ tokenToString a = some ['x'] ∧ tokenToString n = some ['n'] ∧ tokenToString b = some ['y'])
        | _ => false) = true := by decide +kernel
    split at this
    · rename_i hs
      obtain ⟨rfl, rfl, g⟩ := of_decide_eq_true this
      exact ⟨_, _, _, _, _, _, _, _, _, _, _, _, _, _, _, _, _, _, _, _, _, hs, g⟩
    · cases this
  have hc : treeCounted (parsed nsSrc) = true := by decide +kernel
  have hb : CallsBare (parsed nsSrc) := by
    have : (match parsed nsSrc with
        | .node (.varDef ..) _ _ .nil (.node .namespaces _ _ (.node (.varDef ..) _ _ .nil .nil) (.node (.varDef ..) _ _ .nil .nil)) => true
        | _ => false) = true := by decide +kernel
    split at this
    · rename_i hs
      rw [hs]
      simp [CallsBare]
    · cases this
  obtain ⟨a, name, c, i, ex, e, tok, tokEnd, k, n, tok₁, tokEnd₁, b, name₂, c₂, i₂, ex₂, e₂, tok₂, tokEnd₂, next, h1, h2, h3, h4⟩ := hr
  obtain ⟨_, _, h8⟩ := accepted_src ha
  obtain ⟨E₂, h8⟩ := semantic_sound (world_models sampleCfg False) h8 ((treeCounted_iff _).1 hc) (ext := false) False.elim
  have hcl := (treeCounted_iff _).1 hc
  have hpa := parsed_src ha
  have hac := accepted_src ha
  generalize parsed nsSrc = t at *
  subst h1
  have hvis : ∀ {c E before a name isConst isImplicit isExported e tok tokEnd child next E' x},
      StmtOk (sampleCfg.world False) c E before (.varDef (a :: name) isConst isImplicit isExported e) (a :: tok) tokEnd child next E' →
      tokenToString a = some x → E'.vis = (x, E.decls.length) :: E.vis ∧ E'.decls.length = E.decls.length + 1 := by
    intro c E before a name isConst isImplicit isExported e tok tokEnd child next E' x h h'
    cases h with
    | alias _ _ _ h => cases text_det h h'; exact ⟨rfl, by simp [Env.add]⟩
    | varDef _ _ _ _ h => cases text_det h h'; exact ⟨rfl, by simp [Env.add]⟩
  cases h8 with
  | @node _ _ E₀ _ _ _ _ _ _ _ _ h9 h10 =>
    obtain ⟨v1, v2⟩ := hvis h9 h2
    cases h10 with
    | node _ h11 _ =>
      have hat := h _ _ hpa hac hcl hb (.next h9 .here) (.next h9 (.next h11 .here)) n ['n'] rfl h3 (by decide) ['x'] 1 (by decide) (by
        cases h11 with
        | namespaces g1 g2 g3 =>
          cases text_det g1 h3
          cases g3 with
          | node _ g4 g5 =>
            cases g5
            obtain ⟨v3, v4⟩ := hvis g4 h4
            have hl : E₀.decls.length = 2 := by simpa [Env.start] using v2
            simp only [Env.add, List.length_append, List.length_cons, List.length_nil, hl] at v3 v4 ⊢
            unfold Env.resolve
            simp only [List.cons_append, List.nil_append]
            simp [path, follow, v3, v4, v1, List.lookup, Env.start])
      rw [v2] at hat
      exact absurd hat (by decide)

example : acceptsSrc "namespace n {\ny := 2\n}\nz := n.y\n" = true := by decide +kernel
example : refusals "namespace n {\ny := 2\n}\nz := n.x\n" = some [.errVarNotFound] := by decide +kernel

end Skull
