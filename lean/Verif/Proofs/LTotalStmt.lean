import Verif.Proofs.LTotal
import Verif.Proofs.LRun
import Verif.Proofs.Shaped
import Verif.Proofs.Scoped
/-
Generating code for checked statements does not fail.
-/
namespace Skull
open Spec

/-- Code can be generated for the expression, with what these symbols stand for. -/
structure FineE (cfg : LCfg) (ds : List Nat) (a : AExpr) : Prop where
  wt : WtE cfg.syms a
  compares : Compares a
  names : ∀ id, a.reads id = true ∨ a.calls id = true → id ∈ ds

theorem FineE.tot {cfg ds a s} (h : FineE cfg ds a) (hr : Ready cfg ds s) : Tot (genExprL cfg a) s fun _ s' => After s s' :=
  (tot_expr a s h.wt h.compares h.names hr).mono fun _ _ h => h.1

theorem FineE.sub {cfg ds ds' a} (h : FineE cfg ds a) (hd : ∀ id ∈ ds, id ∈ ds') : FineE cfg ds' a :=
  ⟨h.wt, h.compares, fun id hi => hd id (h.names id hi)⟩

/-- All that a statement of this node needs is known. -/
def KnownNode (ds : List Nat) (ann : Ann) : Prop := (∀ id, names id ann → id ∈ ds) ∧ ∀ e, ann.value = some e → Compares e

theorem KnownNode.fine {cfg : LCfg} {ds ann e} (h : KnownNode ds ann) (he : ann.value = some e) (w : WtE cfg.syms e) : FineE cfg ds e :=
  ⟨w, h.2 e he, fun id hi => h.1 id (.inl ⟨e, he, hi⟩)⟩

/- ### Variables -/

theorem tot_assign {cfg : LCfg} {id v x s} (hv : cfg.var id = some v) (hr : s.refs id ≠ none) :
    Tot (assignL cfg id x) s fun _ s' => After s s' ∧ s'.refs id ≠ none := by
  unfold assignL
  refine .bind (.ofOption hv (.bind (.get ?_)))
  split
  · refine .modify ⟨⟨⟨fun i hi => ?_, fun _ h => h, Nat.le_refl _, fun h => h⟩, rfl⟩, by simp⟩
    simp only
    split
    · simp
    · exact hi
  · cases h : s.refs id with
    | none => exact absurd h hr
    | some p => exact .bind (.ofOption rfl (tot_emit.mono fun _ _ h' => ⟨h', h'.refs _ hr⟩))

theorem tot_assignConst {cfg : LCfg} {id v x s} (hv : cfg.var id = some v) (hc : s.isConst id v = true) (hg : s.isGlobal id = false) :
    Tot (assignL cfg id x) s fun _ s' => After s s' ∧ s'.refs id ≠ none := by
  unfold assignL
  refine .bind (.ofOption hv (.bind (.get ?_)))
  rw [if_pos (by simp [hc, hg])]
  refine .modify ⟨⟨⟨fun i hi => ?_, fun _ h => h, Nat.le_refl _, fun h => h⟩, rfl⟩, by simp⟩
  simp only
  split
  · simp
  · exact hi

theorem tot_setupVar {cfg : LCfg} {id v x s} (hv : cfg.var id = some v) :
    Tot (setupVarL cfg id x) s fun _ s' => After s s' ∧ s'.refs id ≠ none := by
  unfold setupVarL
  refine .bind (.ofOption hv (.bind (.get ?_)))
  split
  · unfold globalVarL
    have key : ∀ g, After s { s with
        isGlobal := fun i => if i = id then true else s.isGlobal i
        refs := fun i => if i = id then some (.global s.globals.length) else s.refs i
        globals := g } := by
      intro g
      refine ⟨⟨fun i hi => ?_, fun _ h => h, Nat.le_refl _, fun h => h⟩, rfl⟩
      simp only
      split
      · simp
      · exact hi
    refine .bind (.modify ?_)
    cases hx : x.isConstant
    · exact (tot_assign hv (by simp)).mono fun _ _ h => ⟨(key _).trans h.1, h.2⟩
    · exact .pure ⟨key _, by simp⟩
  · unfold localVarL
    have key : After s { s with isGlobal := fun i => if i = id then false else s.isGlobal i } :=
      ⟨⟨fun _ h => h, fun _ h => h, Nat.le_refl _, fun h => h⟩, rfl⟩
    refine .bind (.modify (.bind (.get ?_)))
    split
    · rename_i hc
      exact (tot_assignConst hv hc (by simp)).mono fun _ _ h => ⟨key.trans h.1, h.2⟩
    · refine tot_newReg.andThen fun r s1 h1 => tot_emit.andThen fun _ s2 h2 => .bind (.modify ?_)
      have k3 : After s2 { s2 with refs := fun i => if i = id then some (.reg r) else s2.refs i } := by
        refine ⟨⟨fun i hi => ?_, fun _ h => h, Nat.le_refl _, fun h => h⟩, rfl⟩
        simp only
        split
        · simp
        · exact hi
      exact (tot_assign hv (by simp)).mono fun _ _ h => ⟨key.trans (h1.trans (h2.trans (k3.trans h.1))), h.2⟩

/- ### Simple statements -/

theorem Ready.var {cfg : LCfg} {ds s id sym v} (h : Ready cfg ds s) (h1 : cfg.syms[id]? = some sym) (h2 : sym.kind = .var v)
    (h3 : s.refs id ≠ none) : Ready cfg (ds ++ [id]) s := by
  refine h.append fun i hi => ?_
  rw [List.mem_singleton.1 hi]
  exact ⟨fun _ => h3, fun h => absurd (noFunc_of h1 h2) h⟩

theorem Ready.func {cfg : LCfg} {ds s id sym f} (h : Ready cfg ds s) (h1 : cfg.syms[id]? = some sym) (h2 : sym.kind = .func f)
    (h3 : s.funcRef id ≠ none) : Ready cfg (ds ++ [id]) s := by
  refine h.append fun i hi => ?_
  rw [List.mem_singleton.1 hi]
  exact ⟨fun h => absurd (noVar_of h1 h2) h, fun _ => h3⟩

/-- Statements without blocks, and those behind whose blocks nothing is generated. -/
def isSimple : Stmt → Bool
  | .ifs _ | .elifs _ | .elses | .whiles _ | .funcProto _ | .namespaces | .unknown => false
  | _ => true

theorem tot_noop {cfg : LCfg} {s} : Tot (noopL cfg) s fun _ s' => After s s' := by
  unfold noopL
  split
  · refine tot_newReg.andThen fun r s1 h1 => tot_emit.andThen fun _ s2 h2 => ?_
    exact tot_emit.mono fun _ _ h3 => (h1.trans h2).trans h3
  · exact .pure (.refl _)

theorem tot_simple {cfg : LCfg} {loop before ann stmt child next ds s} (hs : isSimple stmt = true)
    (w : WtNode cfg.syms loop before ann stmt child next) (hk : KnownNode ds ann) (hr : Ready cfg ds s) :
    Tot (simpleL cfg ann stmt) s fun u s' => After s s' ∧ Ready cfg (ds ++ lasting (outer child) ann) s' ∧ (u ≠ none → Spec.Quiet next) := by
  have nothing : ∀ {u : Option (Option Ty)} {s'}, After s s' → (u ≠ none → Spec.Quiet next) →
      After s s' ∧ Ready cfg (ds ++ []) s' ∧ (u ≠ none → Spec.Quiet next) := by
    intro u s' h hq
    exact ⟨h, by simpa using h.toLater.ready hr, hq⟩
  cases w with
  | alias => exact .pure (nothing (.refl _) (by simp))
  | varDef h1 h2 h3 h4 h5 h6 h7 h8 h9 h10 =>
    refine ((hk.fine rfl h9).tot hr).andThen fun x s1 g1 => (tot_setupVar (var_of h1 h2)).andThen fun _ s2 g2 => .pure ⟨g1.trans g2.1, ?_, by simp⟩
    exact Ready.var ((g1.trans g2.1).toLater.ready hr) h1 h2 g2.2
  | @assign e id sym v a next h1 h2 h3 h4 h5 h6 h7 =>
    refine ((hk.fine rfl h7).tot hr).andThen fun x s1 g1 => (tot_assign (var_of h1 h2) ?_).andThen fun _ s2 g2 => .pure (nothing (g1.trans g2.1) (by simp))
    refine g1.refs _ ((hr _ (hk.1 _ (.inr (by simp [Ann.assigns])))).1 ?_)
    rw [var_of h1 h2]
    simp
  | ret h1 => exact tot_emit.andThen fun _ _ h => .pure (nothing h fun _ => h1)
  | retValue h1 h2 h3 =>
    exact ((hk.fine rfl h2).tot hr).andThen fun x s1 g1 => tot_emit.andThen fun _ _ h => .pure (nothing (g1.trans h) fun _ => h3)
  | call h1 h2 => exact ((hk.fine rfl h1).tot hr).andThen fun x s1 g1 => .pure (nothing g1 (by simp))
  | ifs | elifs | elses | whiles | func | ns => cases hs
  | breaks h1 h2 => exact .bind (.get (tot_emit.andThen fun _ _ h => .pure (nothing h fun _ => h2)))
  | continues h1 h2 => exact .bind (.get (tot_emit.andThen fun _ _ h => .pure (nothing h fun _ => h2)))
  | unreachable h1 => exact tot_emit.andThen fun _ _ h => .pure (nothing h fun _ => h1)
  | other h1 =>
    rcases h1 with rfl | rfl | rfl | rfl
    · exact tot_noop.andThen fun _ _ h => .pure (nothing h (by simp))
    · exact .pure (nothing (.refl _) (by simp))
    · exact .pure (nothing (.refl _) (by simp))
    · cases hs

theorem quiet_outer {syms} : ∀ (t : ATree) {loop before}, WtTree syms loop before t → Spec.Quiet t → outer t = []
  | .nil, _, _, _, _ => rfl
  | .unchecked _, _, _, _, h => h.elim
  | .node ann stmt tok child next, loop, before, w, h => by
    cases w with
    | node w _ wn =>
      unfold outer
      rw [quiet_outer next wn h.2]
      have : ann = .none := by
        rcases h.1 with rfl | rfl | rfl <;> cases w <;> rfl
      subst this
      rfl

/- ### Blocks -/

theorem tot_codeBlock {body : LGen (Option (Option Ty))} {target s} {P : LState → Prop} (h : Tot body s fun _ s' => After s s' ∧ P s') :
    Tot (codeBlockL body target) s fun _ s' => After s s' := by
  unfold codeBlockL
  refine h.andThen fun r s1 h1 => ?_
  cases r with
  | none => exact tot_emit.mono fun _ _ g => h1.1.trans g
  | some _ => exact .pure h1.1

theorem tot_while {cfg ds e body s} {P : LState → Prop} (he : FineE cfg ds e) (hr : Ready cfg ds s) (hp : Placed s)
    (hb : ∀ s, Ready cfg ds s → Placed s → Tot body s fun _ s' => After s s' ∧ P s') : Tot (whileL cfg e body) s fun _ s' => After s s' := by
  unfold whileL
  refine (tot_currentRef hp).andThen fun f s' ⟨hs, hf⟩ => ?_
  subst hs
  refine (tot_appendBlock hf).andThen fun a s1 g1 => (tot_appendBlock (Nat.lt_of_lt_of_le hf g1.len)).andThen fun b s2 g2 => ?_
  have g12 := g1.trans g2
  refine (tot_appendBlock (Nat.lt_of_lt_of_le hf g12.len)).andThen fun c s3 g3 => .bind (.modify ?_)
  have g4 := (g12.trans g3).trans (.loop s3 (some a) (some c))
  refine tot_emit.andThen fun _ s5 g5 => tot_position.andThen fun _ s6 g6 => ?_
  have g46 := (g4.trans g5).trans g6
  refine (he.tot (g46.toLater.ready hr)).andThen fun x s7 g7 => tot_emit.andThen fun _ s8 g8 => tot_position.andThen fun _ s9 g9 => ?_
  have g49 := ((g46.trans g7).trans g8).trans g9
  refine (tot_codeBlock (hb s9 (g49.toLater.ready hr) (g49.placed hp))).andThen fun _ s10 g10 => tot_position.andThen fun _ s11 g11 => .modify ?_
  exact ((g49.trans g10).trans g11).trans (.loop s11 none none)

theorem enter_later (s : LState) (sym f id ps) : Later s (s.enter sym f id ps) := by
  constructor
  · intro i hi
    simp only [LState.enter]
    split
    · simp
    · exact hi
  · intro i hi
    simp only [LState.enter, LState.addFunc]
    split
    · simp
    · exact hi
  · simp [LState.enter, LState.addFunc]
  · intro h i r hi
    simp only [LState.enter, LState.addFunc, List.length_append, List.length_singleton] at hi ⊢
    split at hi
    · cases hi; omega
    · have := h i r hi; omega

theorem addFunc_after (s : LState) (sym f id bs) : After s (s.addFunc sym f id bs) := by
  refine ⟨⟨fun i hi => hi, ?_, ?_, ?_⟩, rfl⟩
  · intro i hi
    simp only [LState.addFunc]
    split
    · simp
    · exact hi
  · simp [LState.addFunc]
  · intro h i r hi
    simp only [LState.addFunc, List.length_append, List.length_singleton] at hi ⊢
    split at hi
    · cases hi; omega
    · have := h i r hi; omega

theorem enter_placed {s : LState} (h : Placed s) (sym f id ps) : Placed (s.enter sym f id ps) :=
  ⟨(enter_later s sym f id ps).bound h.bound, by simp [LState.enter, LState.addFunc]⟩

theorem leave_after {s s1 s2 : LState} (h : Later s s1) (h' : After s1 s2) (f r) : After s (s2.leave f r s) := by
  have h2 := h.trans h'.toLater
  have key : ∀ s3 : LState, s3 = { s2 with currentFunc := s.currentFunc } ∨ (∃ i n, s3 = ({ s2 with currentFunc := s.currentFunc } : LState).gen i n) →
      After s { s3 with curFn := s.curFn, curBlock := s.curBlock } := by
    rintro s3 (rfl | ⟨i, n, rfl⟩)
    · exact ⟨⟨h2.refs, h2.funcs, h2.len, h2.bound⟩, rfl⟩
    · exact ⟨⟨h2.refs, h2.funcs, by simpa [LState.gen] using h2.len, fun hb => by simpa [LState.gen] using h2.bound hb⟩, rfl⟩
  unfold LState.leave
  split
  · exact key _ (.inr ⟨_, _, rfl⟩)
  · exact key _ (.inl rfl)

theorem tot_spillParams {cfg : LCfg} : ∀ {ps s}, (∀ i ∈ ps, ∃ v, cfg.var i = some v) → (∀ i ∈ ps, s.refs i ≠ none) →
    Tot (spillParams cfg ps) s fun _ s' => After s s'
  | [], s, _, _ => .pure (.refl _)
  | p :: ps, s, hv, hr => by
    obtain ⟨v, h1⟩ := hv p (by simp)
    obtain ⟨old, h2⟩ := Option.ne_none_iff_exists'.1 (hr p (by simp))
    have key : Tot (spillParam cfg p) s fun _ s' => After s s' := by
      unfold spillParam
      refine .bind (.ofOption h1 (.bind (.get (.bind (.ofOption h2 ?_)))))
      refine tot_newReg.andThen fun r s1 g1 => tot_emit.andThen fun _ s2 g2 => tot_emit.andThen fun _ s3 g3 => .modify ?_
      refine ((g1.trans g2).trans g3).trans ⟨⟨fun i hi => ?_, fun _ h => h, Nat.le_refl _, fun h => h⟩, rfl⟩
      simp only
      split
      · simp
      · exact hi
    unfold spillParams
    refine key.andThen fun _ s1 g1 => ?_
    exact (tot_spillParams (fun i hi => hv i (by simp [hi])) fun i hi => g1.refs i (hr i (by simp [hi]))).mono fun _ _ g2 => g1.trans g2

theorem tot_debugParams {cfg : LCfg} {ps s} (hv : ∀ i ∈ ps, ∃ v, cfg.var i = some v) (hr : ∀ i ∈ ps, s.refs i ≠ none) :
    Tot (debugParams cfg ps) s fun _ s' => After s s' := by
  unfold debugParams
  split
  · exact tot_spillParams hv hr
  · exact .pure (.refl _)

theorem tot_function {cfg : LCfg} {id ps body s sym f} {P : LState → Prop} (hf : cfg.func id = some (sym, f))
    (hv : ∀ i ∈ ps, ∃ v, cfg.var i = some v)
    (hb : f.isExternal = false → ∀ s₀, After (s.enter sym f id (ps.take f.numParams)) s₀ → Tot body s₀ fun _ s' => After s₀ s' ∧ P s') :
    Tot (functionL cfg id ps body) s fun _ s' => After s s' ∧ s'.funcRef id ≠ none := by
  unfold functionL
  refine .bind (.ofOption hf (.bind ⟨_, _, rfl, ?_⟩))
  dsimp only
  by_cases hx : f.isExternal = true
  · rw [if_pos hx]
    exact .pure ⟨addFunc_after s sym f id [], by simp⟩
  · rw [if_neg hx]
    unfold setParams
    refine .bind (.modify (.bind (.get (.bind ⟨_, _, appendBlock_addFunc s sym f id (ps.take f.numParams), .bind (.positionAt (.bind (.modify ?_)))⟩))))
    refine (tot_debugParams (s := s.enter sym f id (ps.take f.numParams)) (fun i hi => hv i (List.mem_of_mem_take hi)) fun i hi => by
      simp [LState.enter, hi]).andThen fun _ s₀ h0 => ?_
    refine (hb (Bool.eq_false_iff.2 hx) s₀ h0).andThen fun r s2 ⟨h, _⟩ => .bind (.modify ?_)
    have h := h0.trans h
    have k := leave_after (enter_later s sym f id (ps.take f.numParams)) h f r
    have kf : (s2.leave f r s).funcRef id ≠ none := by
      have : s2.funcRef id ≠ none := h.funcs id (by simp [LState.enter, LState.addFunc])
      unfold LState.leave
      split <;> exact this
    have e : ∀ (u : Unit) s', (u, s') = ((), s2.leave f r s) → After s s' ∧ s'.funcRef id ≠ none := by
      rintro _ _ h; cases h; exact ⟨k, kf⟩
    unfold LState.leave at e
    by_cases hv : f.returnType = .prim .void ∧ r ≠ some (some (.prim .void))
    · rw [if_pos hv] at e ⊢
      exact .bind ⟨_, _, rfl, _, _, rfl, e _ _ rfl⟩
    · rw [if_neg hv] at e ⊢
      exact ⟨_, _, rfl, e _ _ rfl⟩

theorem enter_ready {cfg : LCfg} {ds s id sym f ps} (hr : Ready cfg ds s) (h1 : cfg.syms[id]? = some sym) (h2 : sym.kind = .func f)
    (hl : ps.length = f.numParams) (hp : ∀ i ∈ ps, ∃ sym v, cfg.syms[i]? = some sym ∧ sym.kind = .var v) :
    Ready cfg (ds ++ id :: ps) (s.enter sym f id (ps.take f.numParams)) := by
  rw [show ps.take f.numParams = ps from by rw [← hl]; exact List.take_length]
  refine Ready.append ((enter_later s sym f id ps).ready hr) ?_
  intro i hi
  rcases List.mem_cons.1 hi with rfl | hi
  · exact ⟨fun h => absurd (noVar_of h1 h2) h, fun _ => by simp [LState.enter, LState.addFunc]⟩
  · obtain ⟨sym', v, g1, g2⟩ := hp i hi
    refine ⟨fun _ => ?_, fun h => absurd (noFunc_of g1 g2) h⟩
    simp [LState.enter, hi]

/- ### Lists of statements -/

/-- The statements get code, and what they leave behind has a place. -/
def Leaves (cfg : LCfg) (ds : List Nat) (t : ATree) (s : LState) (m : LGen (Option (Option Ty))) : Prop :=
  Tot m s fun _ s' => After s s' ∧ Ready cfg (ds ++ outer t) s'

def TreeTot (cfg : LCfg) (t : ATree) : Prop := ∀ loop before ds s, WtTree cfg.syms loop before t → Shaped t → ComparesAll t →
  Scoped ds t → Ready cfg ds s → Placed s →
  (¬ AfterIf before → Leaves cfg ds t s (genTreeL cfg .stmts t)) ∧
  ∀ e f entry b fin, FineE cfg ds e → f < s.funcs.length → Leaves cfg ds t s (genTreeL cfg (.afterIf e f entry b fin) t)

theorem tot_closeIf {cfg ds e f entry b fin s} (he : FineE cfg ds e) (hr : Ready cfg ds s) :
    Tot (closeIf cfg (.afterIf e f entry b fin)) s fun _ s' => After s s' := by
  unfold closeIf
  refine tot_position.andThen fun _ s1 g1 => (he.tot (g1.toLater.ready hr)).andThen fun _ s2 g2 => tot_emit.andThen fun _ s3 g3 => ?_
  exact tot_position.mono fun _ _ g4 => ((g1.trans g2).trans g3).trans g4

theorem tot_nextIf {cfg ds e f entry b s} (he : FineE cfg ds e) (hf : f < s.funcs.length) (hr : Ready cfg ds s) :
    Tot (nextIf cfg e f entry b) s fun _ s' => After s s' := by
  unfold nextIf
  refine tot_position.andThen fun _ s1 g1 => (tot_appendBlock (Nat.lt_of_lt_of_le hf g1.len)).andThen fun _ s2 g2 => ?_
  refine (he.tot ((g1.trans g2).toLater.ready hr)).andThen fun _ s3 g3 => tot_emit.andThen fun _ s4 g4 => .pure ?_
  exact ((g1.trans g2).trans g3).trans g4

theorem tree_tot {cfg : LCfg} : ∀ (t : ATree), TreeTot cfg t := by
  intro t
  induction t with
  | nil =>
    intro loop before ds s _ _ _ _ hr hp
    refine ⟨fun _ => .pure ⟨.refl _, by simpa [outer] using hr⟩, fun e f entry b fin he hf => ?_⟩
    have := (tot_closeIf (f := f) (entry := entry) (b := b) (fin := fin) he hr).andThen (f := fun _ => (pure none : LGen (Option (Option Ty))))
      (Q := fun _ s' => After s s' ∧ Ready cfg (ds ++ outer .nil) s') fun _ s1 g => .pure ⟨g, by simpa [outer] using g.toLater.ready hr⟩
    exact this
  | unchecked => intro _ _ _ _ _ h; exact h.elim
  | node ann stmt tok child next ihc ihn =>
    intro loop before ds s w hsh hc hsc hr hp
    cases w with
    | node w wc wn =>
    obtain ⟨hs1, hs2, hs3⟩ := hsh
    obtain ⟨hc1, hc2, hc3⟩ := hc
    obtain ⟨hd1, hd2, hd3⟩ := hsc
    have hk : KnownNode ds ann := ⟨hd1, hc1⟩
    have all : ∀ s, Ready cfg ds s → Placed s →
        ((∀ e, stmt ≠ .elifs e) → stmt ≠ .elses → (stmt = .comment → ¬ AfterIf before) →
          Leaves cfg ds (.node ann stmt tok child next) s (genTreeL cfg .stmts (.node ann stmt tok child next))) ∧
        ∀ e f entry b fin, FineE cfg ds e → f < s.funcs.length → staysInChain (.node ann stmt tok child next) = true →
          Leaves cfg ds (.node ann stmt tok child next) s (genTreeL cfg (.afterIf e f entry b fin) (.node ann stmt tok child next)) := by
      clear hr hp s
      intro s hr hp
      let Post : Option (Option Ty) → LState → Prop := fun _ s' => After s s' ∧ Ready cfg (ds ++ outer (.node ann stmt tok child next)) s'
      have post : ∀ {s1 s'}, After s s1 → After s1 s' ∧ Ready cfg (ds ++ lasting (outer child) ann ++ outer next) s' → Post none s' := by
        intro s1 s' h1 h2
        exact ⟨h1.trans h2.1, by rw [List.append_assoc] at h2; exact h2.2⟩
      -- the statements behind
      have follow : ∀ {s1}, After s s1 → Ready cfg (ds ++ lasting (outer child) ann) s1 → ¬ AfterIf (stmt :: before) →
          Tot (genTreeL cfg .stmts next) s1 Post := by
        intro s1 ha hr1 hb
        exact ((ihn loop (stmt :: before) _ s1 wn hs3 hc3 hd3 hr1 (ha.placed hp)).1 hb).mono fun _ _ h => post ha h
      have followIf : ∀ {s1 e f entry b fin}, After s s1 → Ready cfg (ds ++ lasting (outer child) ann) s1 → FineE cfg ds e → f < s1.funcs.length →
          Tot (genTreeL cfg (.afterIf e f entry b fin) next) s1 Post := by
        intro s1 e f entry b fin ha hr1 he hf
        exact ((ihn loop (stmt :: before) _ s1 wn hs3 hc3 hd3 hr1 (ha.placed hp)).2 e f entry b fin
          (he.sub fun id hi => List.mem_append_left _ hi) hf).mono fun _ _ h => post ha h
      have body : (∀ e, stmt ≠ .expr e) → isForeign stmt = false → annDefs ann = [] → ∀ s1, Ready cfg ds s1 → Placed s1 →
          Tot (genTreeL cfg .stmts child) s1 fun _ s' => After s1 s' ∧ Ready cfg (ds ++ outer child) s' := by
        intro he hx ha s1 h1 h2
        rw [ha, List.append_nil] at hd2
        rcases hs2 with ⟨e, hs2⟩ | hs2
        · exact absurd hs2 (he e)
        · exact (ihc _ [] ds s1 wc hs2 (hc2 hx) hd2 h1 h2).1 (by simp [AfterIf])
      have main : ∀ (_ : ∀ e, stmt ≠ .elifs e) (_ : stmt ≠ .elses) (_ : stmt = .comment → ¬ AfterIf before),
          Tot (genTreeL cfg .stmts (.node ann stmt tok child next)) s Post := by
        intro n1 n2 n3
        have simple : isSimple stmt = true → ¬ AfterIf (stmt :: before) →
            Tot (do match ← simpleL cfg ann stmt with
                    | some ty => pure (some ty)
                    | none => genTreeL cfg .stmts next : LGen (Option (Option Ty))) s Post := by
          intro hs hb
          refine (tot_simple hs w hk hr).andThen fun u s1 ⟨g1, g2, g3⟩ => ?_
          cases u with
          | none => exact follow g1 g2 hb
          | some ty =>
            refine .pure ⟨g1, ?_⟩
            have := quiet_outer next wn (g3 (by simp))
            simpa [outer, this] using g2
        cases stmt with
        | varDef | varAssign | expr | noop | imports | ret | unreachable | breaks | continues => exact simple rfl (by simp [AfterIf])
        | comment => exact simple rfl (n3 rfl)
        | unknown => exact absurd rfl hs1
        | elifs e => exact absurd rfl (n1 e)
        | elses => exact absurd rfl n2
        | whiles x =>
          cases w with
          | @whiles _ a _ _ h1 h2 h3 =>
            have fe := hk.fine rfl h1
            have key : Tot (do whileL cfg a (genTreeL cfg .stmts child); genTreeL cfg .stmts next : LGen (Option (Option Ty))) s Post :=
              (tot_while fe hr hp (body (by simp) rfl rfl)).andThen fun _ s1 g => follow g (by simpa using g.toLater.ready hr) (by simp [AfterIf])
            exact key
          | other h => simp at h
        | ifs x =>
          cases w with
          | @ifs _ a _ _ h1 h2 h3 =>
            have fe := hk.fine rfl h1
            have key : Tot (do
              let f ← currentRef
              let s ← LGen.get
              let fin ← appendBlock f
              let ifTrue ← appendBlock f
              positionAt f ifTrue
              codeBlockL (genTreeL cfg .stmts child) fin
              genTreeL cfg (.afterIf a f s.curBlock ifTrue fin) next : LGen (Option (Option Ty))) s Post := by
              refine (tot_currentRef hp).andThen fun f s' ⟨hs, hf⟩ => ?_
              subst hs
              refine .bind (.get ?_)
              refine (tot_appendBlock hf).andThen fun fin s1 g1 => (tot_appendBlock (Nat.lt_of_lt_of_le hf g1.len)).andThen fun b s2 g2 => ?_
              refine tot_position.andThen fun _ s3 g3 => ?_
              have g13 := (g1.trans g2).trans g3
              refine (tot_codeBlock (body (by simp) rfl rfl s3 (g13.toLater.ready hr) (g13.placed hp))).andThen fun _ s4 g4 => ?_
              have g14 := g13.trans g4
              exact followIf g14 (by simpa using g14.toLater.ready hr) fe (Nat.lt_of_lt_of_le hf g14.len)
            exact key
          | other h => simp at h
        | funcProto x =>
          cases w with
          | @func _ id sym f params _ _ h1 h2 h3 h4 h5 h6 h7 h8 h9 =>
            have key : Tot (do functionL cfg id params (genTreeL cfg .stmts child); genTreeL cfg .stmts next : LGen (Option (Option Ty))) s Post := by
              have hpar : ∀ i ∈ params, ∃ sym v, cfg.syms[i]? = some sym ∧ sym.kind = .var v := by
                intro i hi
                obtain ⟨k, hk, rfl⟩ := List.getElem_of_mem hi
                have hk' : k < f.paramTypes.length := by omega
                obtain ⟨sym, v, g1, g2, _⟩ := h8 k _ _ (List.getElem?_eq_getElem hk) (List.getElem?_eq_getElem hk')
                exact ⟨sym, v, g1, g2⟩
              refine (tot_function (P := fun _ => True) (func_of h1 h2) (fun i hi => by obtain ⟨_, v, g1, g2⟩ := hpar i hi; exact ⟨v, var_of g1 g2⟩) fun hx s₀ g0 => ?_).andThen fun _ s1 ⟨g1, g2⟩ => ?_
              · rcases hs2 with ⟨e, hs2⟩ | hs2
                · cases hs2
                · exact Tot.mono ((ihc _ [] _ _ wc hs2 (hc2 (by rw [← hx, h3]; rfl)) hd2 (g0.toLater.ready (enter_ready hr h1 h2 h7 hpar)) (g0.placed (enter_placed hp _ _ _ _))).1 (by simp [AfterIf]))
                    fun _ _ g => ⟨g.1, trivial⟩
              · exact follow g1 (Ready.func (g1.toLater.ready hr) h1 h2 g2) (by simp [AfterIf])
            exact key
          | other h => simp at h
        | namespaces =>
          cases w with
          | ns h1 =>
            have key : Tot (do let _ ← genTreeL cfg .stmts child; genTreeL cfg .stmts next : LGen (Option (Option Ty))) s Post :=
              (body (by simp) rfl rfl s hr hp).andThen fun _ s1 g => follow g.1 g.2 (by simp [AfterIf])
            exact key
          | other h => simp at h
      refine ⟨main, fun e f entry b fin he hf hst => ?_⟩
      cases stmt with
      | comment =>
        have ha : lasting (outer child) ann = [] := by cases w; rfl
        exact followIf (.refl s) (by simpa [ha] using hr) he hf
      | elifs x =>
        cases w with
        | @elifs _ a _ _ h1 h2 h3 h4 =>
          have fe := hk.fine rfl h1
          have key : Tot (do
            let ifFalse ← nextIf cfg e f entry b
            let ifTrue' ← appendBlock f
            positionAt f ifTrue'
            codeBlockL (genTreeL cfg .stmts child) fin
            genTreeL cfg (.afterIf a f ifFalse ifTrue' fin) next : LGen (Option (Option Ty))) s Post := by
            refine (tot_nextIf he hf hr).andThen fun c s1 g1 => (tot_appendBlock (Nat.lt_of_lt_of_le hf g1.len)).andThen fun b s2 g2 => ?_
            refine tot_position.andThen fun _ s3 g3 => ?_
            have g13 := (g1.trans g2).trans g3
            refine (tot_codeBlock (body (by simp) rfl rfl s3 (g13.toLater.ready hr) (g13.placed hp))).andThen fun _ s4 g4 => ?_
            have g14 := g13.trans g4
            exact followIf g14 (by simpa using g14.toLater.ready hr) fe (Nat.lt_of_lt_of_le hf g14.len)
          exact key
        | other h => simp at h
      | elses =>
        cases w with
        | elses h1 h2 =>
          have key : Tot (do
            let ifFalse ← nextIf cfg e f entry b
            positionAt f ifFalse
            codeBlockL (genTreeL cfg .stmts child) fin
            positionAt f fin
            genTreeL cfg .stmts next : LGen (Option (Option Ty))) s Post := by
            refine (tot_nextIf he hf hr).andThen fun c s1 g1 => tot_position.andThen fun _ s2 g2 => ?_
            have g12 := g1.trans g2
            refine (tot_codeBlock (body (by simp) rfl rfl s2 (g12.toLater.ready hr) (g12.placed hp))).andThen fun _ s3 g3 => tot_position.andThen fun _ s4 g4 => ?_
            have g14 := (g12.trans g3).trans g4
            exact follow g14 (by simpa using g14.toLater.ready hr) (by simp [AfterIf])
          exact key
        | other h => simp at h
      | _ => cases hst
    refine ⟨fun hb => ?_, fun e f entry b fin he hf => ?_⟩
    · by_cases h1 : ∃ e, stmt = .elifs e
      · obtain ⟨e, rfl⟩ := h1
        cases w with
        | elifs _ _ _ h => exact absurd h hb
        | other h => simp at h
      · by_cases h2 : stmt = .elses
        · subst h2
          cases w with
          | elses h => exact absurd h hb
          | other h => simp at h
        · exact (all s hr hp).1 (fun e h => h1 ⟨e, h⟩) h2 fun _ => hb
    · cases hst : staysInChain (.node ann stmt tok child next) with
      | true => exact (all s hr hp).2 e f entry b fin he hf hst
      | false =>
        rw [genTreeL_close hst]
        refine (tot_closeIf he hr).andThen fun _ s1 g1 => ?_
        refine ((all s1 (g1.toLater.ready hr) (g1.placed hp)).1 ?_ ?_ ?_).mono fun _ _ g2 => ⟨g1.trans g2.1, g2.2⟩
        · rintro e rfl; cases hst
        · rintro rfl; cases hst
        · rintro rfl; cases hst

theorem codegenL_total {cfg : Cfg} {t : Tree} {a : ATree} {ss : SS} (hp : Parsed t) (he : ¬ EmptyProgram t) (h : semantic cfg t = .ok a ss)
    (hc : ComparesAll a) (fold debug) (name : List Char) : ∃ s, codegenL ⟨ss.syms, fold, debug⟩ name a = some s := by
  have w := (semantic_wt hp h).2
  have hr : Ready ⟨ss.syms, fold, debug⟩ [] (setupL name) := fun _ h => by cases h
  have hpl : Placed (setupL name) := by
    refine ⟨fun id r h => ?_, by simp [setupL]⟩
    simp only [setupL] at h ⊢
    split at h
    · cases h; simp
    · cases h
  obtain ⟨r, s1, h1, _⟩ := (tree_tot a _ [] [] _ w (semantic_shaped hp he h) hc (semantic_scoped hp h) hr hpl).1 (by simp [AfterIf])
  unfold codegenL genModuleL
  cases r with
  | none => exact ⟨s1.gen [.ret (.int 0)] s1.nextReg, by rw [show (_ : Option _) = _ from LGen.bind_eq.2 ⟨none, s1, h1, rfl⟩]; rfl⟩
  | some ty => exact ⟨s1, by rw [show (_ : Option _) = _ from LGen.bind_eq.2 ⟨some ty, s1, h1, rfl⟩]; rfl⟩

end Skull
