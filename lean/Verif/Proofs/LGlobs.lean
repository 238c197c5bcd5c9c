import Verif.Proofs.LProgram
/-
Every variable outside functions has a global of its own.
-/
namespace Skull
open Spec

/-- The variable has this global. -/
def LState.globalOf (s : LState) (id g : Nat) : Prop := s.isGlobal id = true ∧ s.refs id = some (.global g)

/-- Variables have globals that are there, and different variables have different ones. -/
structure GlobsOk (s : LState) : Prop where
  there : ∀ id g, s.globalOf id g → g < s.globals.length
  inj : ∀ i j g, s.globalOf i g → s.globalOf j g → i = j

theorem GlobsOk.of {s s' : LState} (h : GlobsOk s) (h1 : ∀ id g, s'.globalOf id g → s.globalOf id g)
    (h2 : s.globals.length ≤ s'.globals.length) : GlobsOk s' :=
  ⟨fun id g hg => Nat.lt_of_lt_of_le (h.there id g (h1 id g hg)) h2, fun i j g hi hj => h.inj i j g (h1 i g hi) (h1 j g hj)⟩

theorem GlobsOk.gen {s : LState} (h : GlobsOk s) (is n) : GlobsOk (s.gen is n) := h.of (fun _ _ h => h) (Nat.le_refl _)
theorem GlobsOk.at {s : LState} (h : GlobsOk s) (f b) : GlobsOk (s.at f b) := h.of (fun _ _ h => h) (Nat.le_refl _)
theorem GlobsOk.setLoop {s : LState} (h : GlobsOk s) (l) : GlobsOk (s.setLoop l) := h.of (fun _ _ h => h) (Nat.le_refl _)
theorem GlobsOk.jump {s : LState} (h : GlobsOk s) (r b) : GlobsOk (s.jump r b) := by
  cases r with
  | none => exact h.gen _ _
  | some _ => exact h
theorem GlobsOk.appended {s s' : LState} {f b} (h : GlobsOk s) (ha : Appended f b s s') : GlobsOk s' := by
  rw [ha.rest]
  exact h.of (fun _ _ h => h) (Nat.le_refl _)

theorem globs_varDef {cfg : LCfg} {id e s s' u} (h : GlobsOk s)
    (hr : (do let v ← genExprL cfg e; setupVarL cfg id v.val; pure (none : Option (Option Ty))) s = some (u, s')) : GlobsOk s' := by
  obtain ⟨x, s1, h1, hr⟩ := LGen.bind_eq.1 hr
  obtain ⟨is, n, hc, rfl⟩ := genExprL_code e h1
  obtain ⟨w, s2, h2, hr⟩ := LGen.bind_eq.1 hr
  obtain ⟨rfl, rfl⟩ := LGen.pure_eq.1 hr
  have h := h.gen is n
  generalize s.gen is n = s at h h2
  unfold setupVarL at h2
  obtain ⟨var, hv, h2⟩ := LGen.bind_ofOption.1 h2
  rw [LGen.bind_get] at h2
  split at h2
  · unfold globalVarL at h2
    rw [LGen.bind_modify] at h2
    have key : ∀ gs, GlobsOk { s with
        isGlobal := fun i => if i = id then true else s.isGlobal i
        refs := fun i => if i = id then some (.global s.globals.length) else s.refs i
        globals := s.globals ++ [gs] } := by
      intro gs
      have hg : ∀ i g, LState.globalOf { s with
          isGlobal := fun i => if i = id then true else s.isGlobal i
          refs := fun i => if i = id then some (.global s.globals.length) else s.refs i
          globals := s.globals ++ [gs] } i g → i = id ∧ g = s.globals.length ∨ i ≠ id ∧ s.globalOf i g := by
        rintro i g ⟨g1, g2⟩
        dsimp only at g1 g2
        by_cases hi : i = id
        · rw [if_pos hi] at g2; cases g2; exact .inl ⟨hi, rfl⟩
        · rw [if_neg hi] at g1 g2; exact .inr ⟨hi, g1, g2⟩
      constructor
      · intro i g hi
        simp only [List.length_append, List.length_cons, List.length_nil]
        rcases hg i g hi with ⟨_, rfl⟩ | ⟨_, h'⟩
        · omega
        · have := h.there i g h'; omega
      · intro i j g hi hj
        rcases hg i g hi with ⟨rfl, rfl⟩ | ⟨_, hi'⟩ <;> rcases hg j _ hj with ⟨rfl, hgg⟩ | ⟨_, hj'⟩
        · rfl
        · exact absurd (h.there _ _ hj') (Nat.lt_irrefl _)
        · exact absurd (hgg ▸ h.there _ _ hi') (Nat.lt_irrefl _)
        · exact h.inj i j g hi' hj'
    split at h2
    · obtain ⟨_, h2⟩ := LGen.pure_eq.1 h2
      rw [← h2]
      exact key _
    · rename_i hcst
      obtain ⟨p, _, rfl⟩ := assignL_store hv (by simp [hcst]) h2
      exact (key _).gen _ _
  · unfold localVarL at h2
    rw [LGen.bind_modify, LGen.bind_get] at h2
    have key : ∀ (t : LState), t.isGlobal = (fun i => if i = id then false else s.isGlobal i) → t.globals = s.globals →
        (∀ i, i ≠ id → t.refs i = s.refs i) → GlobsOk t := by
      intro t t1 t2 t3
      refine h.of ?_ (by rw [t2]; exact Nat.le_refl _)
      rintro i g ⟨g1, g2⟩
      have hi : i ≠ id := by rintro rfl; rw [t1] at g1; simp at g1
      refine ⟨?_, ?_⟩
      · rw [t1] at g1; simpa only [if_neg hi] using g1
      · rw [← t3 i hi]; exact g2
    split at h2
    · rename_i hvc
      rw [assignL_const hv (by exact hvc) (by simp) h2]
      exact key _ rfl rfl fun i hi => if_neg hi
    · rename_i hvc
      rw [bind_newReg, bind_emit, LGen.bind_modify] at h2
      obtain ⟨p, _, rfl⟩ := assignL_store hv (Bool.and_eq_false_iff.2 (.inl (by exact Bool.eq_false_iff.2 hvc))) h2
      refine GlobsOk.gen (key _ ?_ ?_ ?_) _ _
      · rfl
      · rfl
      · intro i hi
        exact if_neg hi

theorem globs_simple {cfg : LCfg} {ann stmt s s' u} (hp : isPlain stmt = true) (h : GlobsOk s) (ha : AssignOk cfg ann)
    (hr : simpleL cfg ann stmt s = some (u, s')) : GlobsOk s' := by
  cases stmt with
  | varDef a b c d e =>
    cases ann with
    | varDef id x => exact globs_varDef h hr
    | none => obtain ⟨rfl, rfl⟩ := LGen.pure_eq.1 hr; exact h
    | _ => exact (LGen.ub_eq (s := s).1 hr).elim
  | varAssign a =>
    cases ann with
    | varAssign id e =>
      have hr : (do let v ← genExprL cfg e; assignL cfg id v.val; pure none : LGen (Option (Option Ty))) s = some (u, s') := hr
      obtain ⟨x, s1, h1, hr⟩ := LGen.bind_eq.1 hr
      obtain ⟨is, n, hc, rfl⟩ := genExprL_code e h1
      obtain ⟨w, s2, h2, hr⟩ := LGen.bind_eq.1 hr
      obtain ⟨rfl, rfl⟩ := LGen.pure_eq.1 hr
      cases hv : cfg.var id with
      | none =>
        unfold assignL at h2
        obtain ⟨a, h3, _⟩ := LGen.bind_ofOption.1 h2
        rw [hv] at h3; cases h3
      | some v =>
        obtain ⟨p, _, rfl⟩ := assignL_store hv (by simp [LState.isConst, ha id e v rfl hv]) h2
        exact (h.gen _ _).gen _ _
    | _ => exact (LGen.ub_eq (s := s).1 hr).elim
  | expr a =>
    cases ann with
    | expr e =>
      cases e with
      | call t args id ty =>
        have hr : (do let _ ← genExprL cfg (.call t args id ty); pure none : LGen (Option (Option Ty))) s = some (u, s') := hr
        obtain ⟨x, s1, h1, hr⟩ := LGen.bind_eq.1 hr
        obtain ⟨is, n, hc, rfl⟩ := genExprL_code _ h1
        obtain ⟨rfl, rfl⟩ := LGen.pure_eq.1 hr
        exact h.gen _ _
      | _ => exact (LGen.ub_eq (s := s).1 hr).elim
    | _ => exact (LGen.ub_eq (s := s).1 hr).elim
  | noop =>
    obtain ⟨_, s1, h1, hr⟩ := LGen.bind_eq.1 hr
    obtain ⟨_, rfl⟩ := LGen.pure_eq.1 hr
    unfold noopL at h1
    split at h1
    · rw [bind_newReg, bind_emit] at h1
      cases emit_eq.1 h1
      exact ((h.gen _ _).gen _ _).gen _ _
    · obtain ⟨_, rfl⟩ := LGen.pure_eq.1 h1; exact h
  | imports => obtain ⟨rfl, rfl⟩ := LGen.pure_eq.1 hr; exact h
  | comment => obtain ⟨rfl, rfl⟩ := LGen.pure_eq.1 hr; exact h
  | _ => cases hp

theorem globs_stop {cfg : LCfg} {ann stmt s s' u} (hp : (∃ e, stmt = .ret e) ∨ stmt = .unreachable) (h : GlobsOk s)
    (hr : simpleL cfg ann stmt s = some (u, s')) : GlobsOk s' := by
  rcases hp with ⟨e, rfl⟩ | rfl
  · cases ann with
    | none =>
      have hr : (do emit .retVoid; pure (some (some (.prim .void))) : LGen (Option (Option Ty))) s = some (u, s') := hr
      rw [bind_emit] at hr
      obtain ⟨rfl, rfl⟩ := LGen.pure_eq.1 hr
      exact h.gen _ _
    | expr x =>
      have hr : (do let v ← genExprL cfg x; emit (.ret v.val); pure (some v.ty) : LGen (Option (Option Ty))) s = some (u, s') := hr
      obtain ⟨y, s1, h1, hr⟩ := LGen.bind_eq.1 hr
      obtain ⟨is, n, hc, rfl⟩ := genExprL_code _ h1
      rw [bind_emit] at hr
      obtain ⟨rfl, rfl⟩ := LGen.pure_eq.1 hr
      exact (h.gen _ _).gen _ _
    | _ => exact (LGen.ub_eq (s := s).1 hr).elim
  · have hr : (do emit .unreachable; pure (some (some (.prim .void))) : LGen (Option (Option Ty))) s = some (u, s') := hr
    rw [bind_emit] at hr
    obtain ⟨rfl, rfl⟩ := LGen.pure_eq.1 hr
    exact h.gen _ _

theorem GlobsOk.enter {s : LState} (h : GlobsOk s) (sym f id ps) : GlobsOk (s.enter sym f id ps) := by
  refine h.of ?_ (Nat.le_refl _)
  rintro i g ⟨g1, g2⟩
  have g2 : (if i ∈ ps then some (LVal.param (ps.idxOf i)) else s.refs i) = some (.global g) := g2
  split at g2
  · cases g2
  · exact ⟨g1, g2⟩

theorem GlobsOk.spill {cfg : LCfg} : ∀ {ps s u s'}, GlobsOk s → spillParams cfg ps s = some (u, s') → GlobsOk s'
  | [], s, u, s', h, hr => by obtain ⟨_, rfl⟩ := LGen.pure_eq.1 hr; exact h
  | p :: ps, s, u, s', h, hr => by
    obtain ⟨w, s1, h1, hr⟩ := LGen.bind_eq.1 hr
    obtain ⟨v, old, hv, ho, e1⟩ := spillParam_eq h1
    refine GlobsOk.spill (h.of ?_ (by rw [e1]; exact Nat.le_refl _)) hr
    rintro i g ⟨g1, g2⟩
    rw [e1] at g1 g2
    have g2 : (if i = p then some (LVal.reg s.nextReg) else s.refs i) = some (.global g) := g2
    split at g2
    · cases g2
    · exact ⟨g1, g2⟩

theorem GlobsOk.debug {cfg : LCfg} {ps s u s'} (h : GlobsOk s) (hr : debugParams cfg ps s = some (u, s')) : GlobsOk s' := by
  unfold debugParams at hr
  split at hr
  · exact h.spill hr
  · obtain ⟨_, rfl⟩ := LGen.pure_eq.1 hr; exact h

theorem GlobsOk.leave {s : LState} (h : GlobsOk s) (f r old) : GlobsOk (s.leave f r old) := by
  unfold LState.leave
  split
  · exact (h.gen [.retVoid] s.nextReg).of (fun _ _ h => h) (Nat.le_refl _)
  · exact h.of (fun _ _ h => h) (Nat.le_refl _)

theorem gen_globs {cfg mode t s r s'} (h : GenRun cfg mode t s r s') : AssignsOk cfg t → GlobsOk s → GlobsOk s' := by
  induction h with
  | nil => exact fun _ h => h
  | plain hp hs _ ih => exact fun ha h => ih ha.2.2 (globs_simple hp h ha.1 hs)
  | stop hp hs => exact fun _ h => globs_stop hp h hs
  | breaks => exact fun _ h => h.gen _ _
  | continues => exact fun _ h => h.gen _ _
  | whiles _ a1 a2 a3 e4 _ _ _ ih1 ih2 =>
    intro ha h
    subst e4
    exact ih2 ha.2.2 (((((ih1 ha.2.1 ((((((((h.appended a1).appended a2).appended a3).setLoop _).gen _ _).at _ _).gen _ _).at _ _))).jump _ _).at _ _).setLoop none)
  | ifs _ a1 a2 _ _ ih1 ih2 => exact fun ha h => ih2 ha.2.2 ((ih1 ha.2.1 (((h.appended a1).appended a2).at _ _)).jump _ _)
  | elifs a1 _ a2 _ _ ih1 ih2 =>
    exact fun ha h => ih2 ha.2.2 ((ih1 ha.2.1 (((((h.at _ _).appended a1).gen _ _).appended a2).at _ _)).jump _ _)
  | elses a1 _ _ _ ih1 ih2 =>
    exact fun ha h => ih2 ha.2.2 (((ih1 ha.2.1 (((((h.at _ _).appended a1).gen _ _)).at _ _)).jump _ _).at _ _)
  | comment _ ih => exact fun ha h => ih ha.2.2 h
  | endIf _ _ _ ih => exact fun ha h => ih ha (((h.at _ _).gen _ _).at _ _)
  | external _ _ _ ih => exact fun ha h => ih ha.2.2 (h.of (fun _ _ h => h) (Nat.le_refl _))
  | func _ _ h0 _ _ ih1 ih2 => exact fun ha h => ih2 ha.2.2 ((ih1 ha.2.1 ((h.enter ..).debug h0)).leave ..)
  | ns _ _ ih1 ih2 => exact fun ha h => ih2 ha.2.2 (ih1 ha.2.1 h)

theorem codegenL_globs {cfg name t s} (h : codegenL cfg name t = some s) (ha : AssignsOk cfg t) : GlobsOk s := by
  obtain ⟨r, s₁, h1, h2⟩ := codegenL_run h
  have h0 : GlobsOk (setupL name) := ⟨fun _ _ h => (by cases h.1), fun _ _ _ h => (by cases h.1)⟩
  have h1 := gen_globs h1 ha h0
  rcases h2 with ⟨_, rfl⟩ | ⟨_, rfl⟩
  · exact h1
  · exact h1.gen _ _

end Skull
