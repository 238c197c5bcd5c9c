import Verif.Proofs.LFrame
/-
The code of statements without blocks.
-/
namespace Skull
open Spec

mutual
theorem ECode.mono {cfg : LCfg} {R R' : LEnv} (hR : R.Le R') {n e is x m} : ECode cfg R n e is x m → ECode cfg R' n e is x m
  | .load h1 h2 h3 => .load h1 (hR.refs _ _ h2).1 (by rw [(hR.refs _ _ h2).2.1, hR.isConst h2]; exact h3)
  | .value h1 h2 h3 => .value h1 (hR.refs _ _ h2).1 (by rw [(hR.refs _ _ h2).2.1, hR.isConst h2]; exact h3)
  | .const => .const
  | .call h1 h2 h3 => .call h1 (h2.mono hR) (hR.funcs _ _ h3)
  | .ref h1 h2 => .ref h1 (hR.refs _ _ h2).1
  | .deref h1 h2 h3 => .deref h1 (hR.refs _ _ h2).1 h3
  | .not h1 h2 => .not (h1.mono hR) h2
  | .neg h1 h2 => .neg (h1.mono hR) h2
  | .bin h1 h2 h3 => .bin (h1.mono hR) (h2.mono hR) h3
theorem ACode.mono {cfg : LCfg} {R R' : LEnv} (hR : R.Le R') {n k as is vs m} : ACode cfg R n k as is vs m → ACode cfg R' n k as is vs m
  | .nil => .nil
  | .cons h1 h2 => .cons (h1.mono hR) (h2.mono hR)
end

/-- The next free number of an instruction and of a global. -/
structure LMark where
  reg : Nat
  glob : Nat

/-- The global for a variable. -/
def LGlobal.For (v : Variable) (init : LVal) : LGlobal := ⟨v.linkageName, v.type, !v.isExported, init⟩

/-- The code of a statement of function `f` that has no block and does not jump.  `G` are the globals. -/
inductive SCode (cfg : LCfg) (R : LEnv) (G : List LGlobal) : Nat → LMark → Ann → Stmt → List LInstr → LMark → Prop
  | alias {f k n c i x e} : SCode cfg R G f k .none (.varDef n c i x e) [] k
  | globalConst {k id e v is x n st} : cfg.var id = some v → ECode cfg R k.reg e is x n → x.val.isConstant = true →
      R.refs id = some (.global k.glob) → R.isGlobal id = true → G[k.glob]? = some (.For v x.val) →
      (∃ a b c d e, st = .varDef a b c d e) → SCode cfg R G 0 k (.varDef id e) st is ⟨n, k.glob + 1⟩
  | global {k id e v is x n st} : cfg.var id = some v → ECode cfg R k.reg e is x n → x.val.isConstant = false →
      R.refs id = some (.global k.glob) → R.isGlobal id = true → G[k.glob]? = some (.For v (.null v.type)) →
      (∃ a b c d e, st = .varDef a b c d e) →
      SCode cfg R G 0 k (.varDef id e) st (is ++ [.store x.val (.global k.glob)]) ⟨n, k.glob + 1⟩
  | localMut {f k id e v is x n st} : f ≠ 0 → cfg.var id = some v → R.isConst id v = false → ECode cfg R k.reg e is x n →
      R.refs id = some (.reg n) → R.isGlobal id = false → (∃ a b c d e, st = .varDef a b c d e) →
      SCode cfg R G f k (.varDef id e) st (is ++ [.alloca n v.type, .store x.val (.reg n)]) ⟨n + 1, k.glob⟩
  | localConst {f k id e v is x n st} : f ≠ 0 → cfg.var id = some v → R.isConst id v = true → ECode cfg R k.reg e is x n →
      R.refs id = some x.val → R.isGlobal id = false → (∃ a b c d e, st = .varDef a b c d e) →
      SCode cfg R G f k (.varDef id e) st is ⟨n, k.glob⟩
  | assign {f k id e v is x n p st} : cfg.var id = some v → R.isConst id v = false → ECode cfg R k.reg e is x n → R.refs id = some p →
      SCode cfg R G f k (.varAssign id e) (.varAssign st) (is ++ [.store x.val p]) ⟨n, k.glob⟩
  | call {f k t args id ty is x n st} : ECode cfg R k.reg (.call t args id ty) is x n →
      SCode cfg R G f k (.expr (.call t args id ty)) (.expr st) is ⟨n, k.glob⟩
  | noop {f k ann} : cfg.debug = true →
      SCode cfg R G f k ann .noop [.alloca k.reg (.prim .int), .store (.int 0) (.reg k.reg)] ⟨k.reg + 1, k.glob⟩
  | quiet {f k ann st} : st = .noop ∨ st = .imports ∨ st = .comment → SCode cfg R G f k ann st [] k

/-- The code of `return` and `unreachable`. -/
inductive StopCode (cfg : LCfg) (R : LEnv) : Nat → LMark → Ann → Stmt → List LInstr → LMark → Prop
  | retVoid {f k st} : StopCode cfg R f k .none (.ret st) [.retVoid] k
  | ret {f k e is x n st} : ECode cfg R k.reg e is x n → StopCode cfg R f k (.expr e) (.ret st) (is ++ [.ret x.val]) ⟨n, k.glob⟩
  | unreachable {f k ann} : StopCode cfg R f k ann .unreachable [.unreachable] k

theorem SCode.mono {cfg R R' G G' f k ann st is k'} (hR : R.Le R') (hG : ∀ (i : Nat) (g : LGlobal), G[i]? = some g → G'[i]? = some g)
    (h : SCode cfg R G f k ann st is k') : SCode cfg R' G' f k ann st is k' := by
  cases h with
  | alias => exact .alias
  | globalConst h1 h2 h3 h4 h5 h6 h7 =>
    exact .globalConst h1 (h2.mono hR) h3 (hR.refs _ _ h4).1 ((hR.refs _ _ h4).2.1.trans h5) (hG _ _ h6) h7
  | global h1 h2 h3 h4 h5 h6 h7 => exact .global h1 (h2.mono hR) h3 (hR.refs _ _ h4).1 ((hR.refs _ _ h4).2.1.trans h5) (hG _ _ h6) h7
  | localMut h0 h1 h2 h3 h4 h5 h6 => exact .localMut h0 h1 ((hR.isConst h4).trans h2) (h3.mono hR) (hR.refs _ _ h4).1 ((hR.refs _ _ h4).2.1.trans h5) h6
  | localConst h0 h1 h2 h3 h4 h5 h6 => exact .localConst h0 h1 ((hR.isConst h4).trans h2) (h3.mono hR) (hR.refs _ _ h4).1 ((hR.refs _ _ h4).2.1.trans h5) h6
  | assign h1 h2 h3 h4 => exact .assign h1 ((hR.isConst h4).trans h2) (h3.mono hR) (hR.refs _ _ h4).1
  | call h1 => exact .call (h1.mono hR)
  | noop h => exact .noop h
  | quiet h => exact .quiet h

theorem StopCode.mono {cfg R R' f k ann st is k'} (hR : R.Le R') (h : StopCode cfg R f k ann st is k') : StopCode cfg R' f k ann st is k' := by
  cases h with
  | retVoid => exact .retVoid
  | ret h => exact .ret (h.mono hR)
  | unreachable => exact .unreachable

theorem SCode.straight {cfg R G f k ann st is k'} (h : SCode cfg R G f k ann st is k') : Straight k.reg is k'.reg ∧ k.glob ≤ k'.glob := by
  cases h with
  | alias => exact ⟨.nil, Nat.le_refl _⟩
  | globalConst _ h => exact ⟨h.straight, Nat.le_succ _⟩
  | global _ h => exact ⟨h.straight.append .store, Nat.le_succ _⟩
  | localMut _ _ _ h => exact ⟨h.straight.append (.append (is := [_]) (.one rfl rfl) .store), Nat.le_refl _⟩
  | localConst _ _ _ h => exact ⟨h.straight, Nat.le_refl _⟩
  | assign _ _ h => exact ⟨h.straight.append .store, Nat.le_refl _⟩
  | call h => exact ⟨h.straight, Nat.le_refl _⟩
  | noop => exact ⟨.append (is := [_]) (.one rfl rfl) .store, Nat.le_refl _⟩
  | quiet => exact ⟨.nil, Nat.le_refl _⟩

/-- The next free numbers. -/
def LState.mark (s : LState) : LMark := ⟨s.nextReg, s.globals.length⟩

@[simp] theorem LState.gen_mark (s : LState) (is n) : (s.gen is n).mark = ⟨n, s.globals.length⟩ := rfl

/-- What a statement without blocks does to the state. -/
structure SimpleStep (is : List LInstr) (ds : List Nat) (s s' : LState) : Prop where
  funcs : s'.funcs = (s.gen is s'.nextReg).funcs
  curFn : s'.curFn = s.curFn
  curBlock : s'.curBlock = s.curBlock
  currentFunc : s'.currentFunc = s.currentFunc
  whileCond : s'.whileCond = s.whileCond
  whileEnd : s'.whileEnd = s.whileEnd
  env : s.env.Le s'.env
  others : ∀ id, id ∉ ds → s'.refs id = s.refs id ∧ s'.funcRef id = s.funcRef id ∧ s'.isGlobal id = s.isGlobal id ∧
    s'.spilled id = s.spilled id
  globals : ∃ gs, s'.globals = s.globals ++ gs
  reg : s.nextReg ≤ s'.nextReg

theorem SimpleStep.ofGen {s : LState} {is n ds} (hn : s.nextReg ≤ n) : SimpleStep is ds s (s.gen is n) :=
  ⟨rfl, rfl, rfl, rfl, rfl, rfl, .refl _, fun _ _ => ⟨rfl, rfl, rfl, rfl⟩, ⟨[], by simp⟩, hn⟩

theorem SimpleStep.frame {is ds s s'} (h : SimpleStep is ds s s') (hb : HasBlock s) : LFrame (Here s) ds s s' := by
  have hg : LGrow (Here s) ds s (s.gen is s'.nextReg) := .gen h.reg
  refine ⟨⟨h.reg, h.globals, ?_, ?_, h.env, h.others, ?_⟩, h.curFn, h.currentFunc, ?_, .inl ⟨h.curFn, h.curBlock⟩⟩
  · rw [h.funcs]; exact hg.grow
  · rw [h.funcs]; exact hg.same
  · rw [h.funcs]; exact hg.heads
  · rw [h.funcs, h.curFn, h.curBlock]; exact hb.gen _ _

/-- The declared symbols of a node, without its blocks. -/
def Ann.defs : Ann → List Nat
  | .varDef id _ => [id]
  | .func id ps => id :: ps
  | _ => []

/-- The numbers of functions and symbols: the main function is function 0 and symbol 0. -/
def MainOk (s : LState) : Prop := s.currentFunc = 0 ↔ s.curFn = 0

theorem assignL_const {cfg id v s s' var u} (hv : cfg.var id = some var) (hc : s.isConst id var = true) (hg : s.isGlobal id = false)
    (h : assignL cfg id v s = some (u, s')) : s' = { s with refs := fun i => if i = id then some v else s.refs i } := by
  unfold assignL at h
  obtain ⟨a, h1, h⟩ := LGen.bind_ofOption.1 h
  cases hv.symm.trans h1
  rw [LGen.bind_get, if_pos (by simp [hc, hg])] at h
  exact LGen.modify_eq.1 h

theorem assignL_store {cfg id v s s' var u} (hv : cfg.var id = some var) (hc : (s.isConst id var && (!s.isGlobal id || v.isConstant)) = false)
    (h : assignL cfg id v s = some (u, s')) : ∃ p, s.refs id = some p ∧ s' = s.gen [.store v p] s.nextReg := by
  unfold assignL at h
  obtain ⟨a, h1, h⟩ := LGen.bind_ofOption.1 h
  cases hv.symm.trans h1
  rw [LGen.bind_get, if_neg (by simp [hc])] at h
  obtain ⟨p, h2, h⟩ := LGen.bind_ofOption.1 h
  exact ⟨p, h2, emit_eq.1 h⟩

/-- The state with a variable's reference set. -/
def LState.setRef (s : LState) (id : Nat) (p : LVal) (g : Bool) : LState :=
  { s with
    refs := fun i => if i = id then some p else s.refs i
    isGlobal := fun i => if i = id then g else s.isGlobal i }

theorem setRef_le {s : LState} {id p g} (hf : s.refs id = none) : s.env.Le (s.setRef id p g).env := by
  refine ⟨?_, fun _ _ h => h⟩
  intro i q hq
  have hi : i ≠ id := by rintro rfl; rw [show s.env.refs i = s.refs i from rfl, hf] at hq; cases hq
  exact ⟨by show (if i = id then some p else s.refs i) = some q; rw [if_neg hi]; exact hq,
    by show (if i = id then g else s.isGlobal i) = s.isGlobal i; rw [if_neg hi], rfl⟩

theorem setRef_ref {s : LState} {id p g} : (s.setRef id p g).env.refs id = some p := by
  show (if id = id then some p else s.refs id) = some p
  rw [if_pos rfl]

theorem setRef_glob {s : LState} {id p g} : (s.setRef id p g).env.isGlobal id = g := by
  show (if id = id then g else s.isGlobal id) = g
  rw [if_pos rfl]

theorem varDef_code {cfg : LCfg} {id e s s' u st} (hst : ∃ a b c d e, st = .varDef a b c d e) (hm : MainOk s) (hf : s.refs id = none)
    (h : (do let v ← genExprL cfg e; setupVarL cfg id v.val; pure (none : Option (Option Ty))) s = some (u, s')) :
    u = none ∧ ∃ is, SCode cfg s'.env s'.globals s.curFn s.mark (.varDef id e) st is s'.mark ∧ SimpleStep is [id] s s' := by
  obtain ⟨x, s1, h1, h⟩ := LGen.bind_eq.1 h
  obtain ⟨is, n, hc, rfl⟩ := genExprL_code e h1
  have hle := hc.straight.le
  obtain ⟨w, s2, h2, h⟩ := LGen.bind_eq.1 h
  obtain ⟨rfl, rfl⟩ := LGen.pure_eq.1 h
  refine ⟨rfl, ?_⟩
  unfold setupVarL at h2
  obtain ⟨var, hv, h2⟩ := LGen.bind_ofOption.1 h2
  rw [LGen.bind_get] at h2
  have hf' : (s.gen is n).refs id = none := hf
  have others : ∀ (t : LState) p g i, i ∉ [id] → (t.setRef id p g).refs i = t.refs i ∧ (t.setRef id p g).funcRef i = t.funcRef i ∧
      (t.setRef id p g).isGlobal i = t.isGlobal i ∧ (t.setRef id p g).spilled i = t.spilled i := by
    intro t p g i hi
    simp only [List.mem_singleton] at hi
    exact ⟨by show (if i = id then some p else t.refs i) = t.refs i; rw [if_neg hi], rfl,
      by show (if i = id then g else t.isGlobal i) = t.isGlobal i; rw [if_neg hi], rfl⟩
  by_cases htop : s.currentFunc = 0
  · rw [LState.gen_currentFunc, if_pos htop] at h2
    unfold globalVarL at h2
    rw [LGen.bind_modify] at h2
    have hfn : s.curFn = 0 := hm.1 htop
    by_cases hcst : x.val.isConstant = true
    · rw [if_pos hcst, if_pos hcst] at h2
      obtain ⟨_, h2⟩ := LGen.pure_eq.1 h2
      have hs : s2 = { (s.gen is n).setRef id (.global s.globals.length) true with
          globals := s.globals ++ [⟨var.linkageName, var.type, !var.isExported, x.val⟩] } := h2.symm
      have hR := setRef_le (p := .global s.globals.length) (g := true) hf'
      refine ⟨is, ?_, ?_⟩
      · have hmk : s2.mark = ⟨n, s.mark.glob + 1⟩ := by rw [hs]; simp [LState.mark, LState.setRef]
        rw [hmk, hs, hfn]
        refine SCode.globalConst (k := s.mark) hv (hc.mono hR) hcst (setRef_ref (s := s.gen is n)) (setRef_glob (s := s.gen is n)) ?_ hst
        simp [LGlobal.For, LState.mark]
      · rw [hs]
        exact ⟨rfl, rfl, rfl, rfl, rfl, rfl, hR, others (s.gen is n) (.global s.globals.length) true, ⟨_, rfl⟩, hle⟩
    · have hcst : x.val.isConstant = false := Bool.eq_false_iff.2 hcst
      rw [if_neg (by simp [hcst]), if_neg (by simp [hcst])] at h2
      obtain ⟨p, h3, h4⟩ := assignL_store hv (by simp [hcst]) h2
      simp only [if_pos] at h3
      cases h3
      have hs : s2 = { (s.gen (is ++ [.store x.val (.global s.globals.length)]) n).setRef id (.global s.globals.length) true with
          globals := s.globals ++ [⟨var.linkageName, var.type, !var.isExported, .null var.type⟩] } := by
        rw [h4]
        have := LState.gen_gen s is [.store x.val (.global s.globals.length)] n n
        rw [← this]
        rfl
      have hR := setRef_le (s := s.gen (is ++ [.store x.val (.global s.globals.length)]) n) (id := id) (p := .global s.globals.length)
        (g := true) hf
      refine ⟨is ++ [.store x.val (.global s.globals.length)], ?_, ?_⟩
      · have hmk : s2.mark = ⟨n, s.mark.glob + 1⟩ := by rw [hs]; simp [LState.mark, LState.setRef]
        rw [hmk, hs, hfn]
        refine SCode.global (k := s.mark) hv (hc.mono hR) hcst (setRef_ref (s := s.gen _ n)) (setRef_glob (s := s.gen _ n)) ?_ hst
        simp [LGlobal.For, LState.mark]
      · rw [hs]
        exact ⟨rfl, rfl, rfl, rfl, rfl, rfl, hR, others (s.gen is n) (.global s.globals.length) true, ⟨_, rfl⟩, hle⟩
  · rw [LState.gen_currentFunc, if_neg htop] at h2
    unfold localVarL at h2
    rw [LGen.bind_modify, LGen.bind_get] at h2
    have hfn : s.curFn ≠ 0 := fun h => htop (hm.2 h)
    by_cases hvc : s.isConst id var = true
    · rw [if_pos (by exact hvc)] at h2
      have h3 := assignL_const hv (by exact hvc) (if_pos rfl) h2
      have hs : s2 = (s.gen is n).setRef id x.val false := h3
      have hR := setRef_le (p := x.val) (g := false) hf'
      refine ⟨is, ?_, ?_⟩
      · rw [hs]
        exact .localConst hfn hv hvc (hc.mono hR) setRef_ref setRef_glob hst
      · rw [hs]
        exact ⟨rfl, rfl, rfl, rfl, rfl, rfl, hR, others _ _ _, ⟨[], by simp [LState.setRef]⟩, hle⟩
    · have hvc : s.isConst id var = false := Bool.eq_false_iff.2 hvc
      rw [if_neg (by intro h; exact absurd (show s.isConst id var = true from h) (by simp [hvc])), bind_newReg, bind_emit, LGen.bind_modify] at h2
      obtain ⟨p, h3, h4⟩ := assignL_store hv (Bool.and_eq_false_iff.2 (.inl (by exact hvc))) h2
      simp only [if_pos] at h3
      cases h3
      have hs : s2 = (s.gen (is ++ [.alloca n var.type, .store x.val (.reg n)]) (n + 1)).setRef id (.reg n) false := by
        rw [h4]
        have h5 := LState.gen_gen s is ([] ++ [.alloca n var.type] ++ [.store x.val (.reg n)]) n (n + 1)
        rw [← LState.gen_gen _ _ _ (n + 1), ← LState.gen_gen _ _ _ (n + 1)] at h5
        rw [show is ++ [LInstr.alloca n var.type, .store x.val (.reg n)] = is ++ ([] ++ [.alloca n var.type] ++ [.store x.val (.reg n)]) from rfl, ← h5]
        rfl
      have hR := setRef_le (s := s.gen (is ++ [.alloca n var.type, .store x.val (.reg n)]) (n + 1)) (id := id) (p := .reg n)
        (g := false) hf
      refine ⟨is ++ [.alloca n var.type, .store x.val (.reg n)], ?_, ?_⟩
      · rw [hs]
        exact .localMut hfn hv hvc (hc.mono hR) setRef_ref setRef_glob hst
      · rw [hs]
        exact ⟨rfl, rfl, rfl, rfl, rfl, rfl, hR, others _ _ _, ⟨[], by simp [LState.setRef]⟩, by show s.nextReg ≤ n + 1; omega⟩


theorem SimpleStep.same {s : LState} {ds} : SimpleStep [] ds s s := by
  have := SimpleStep.ofGen (s := s) (is := []) (n := s.nextReg) (ds := ds) (Nat.le_refl _)
  rwa [s.gen_nil] at this

/-- The variable of an assignment is not constant. -/
def AssignOk (cfg : LCfg) (ann : Ann) : Prop := ∀ id e v, ann = .varAssign id e → cfg.var id = some v → v.isConst = false

theorem simpleL_code {cfg : LCfg} {ann stmt s s' u} (hp : isPlain stmt = true) (hm : MainOk s) (hf : ∀ id ∈ ann.defs, s.refs id = none)
    (ha : AssignOk cfg ann) (h : simpleL cfg ann stmt s = some (u, s')) :
    u = none ∧ ∃ is, SCode cfg s'.env s'.globals s.curFn s.mark ann stmt is s'.mark ∧ SimpleStep is ann.defs s s' := by
  cases stmt with
  | varDef a b c d e =>
    cases ann with
    | varDef id x => exact varDef_code ⟨_, _, _, _, _, rfl⟩ hm (hf id (by simp [Ann.defs])) h
    | none =>
      obtain ⟨rfl, rfl⟩ := LGen.pure_eq.1 h
      exact ⟨rfl, [], .alias, .same⟩
    | _ => exact (LGen.ub_eq (s := s).1 h).elim
  | varAssign a =>
    cases ann with
    | varAssign id e =>
      have h : (do let v ← genExprL cfg e; assignL cfg id v.val; pure none : LGen (Option (Option Ty))) s = some (u, s') := h
      obtain ⟨x, s1, h1, h⟩ := LGen.bind_eq.1 h
      obtain ⟨is, n, hc, rfl⟩ := genExprL_code e h1
      have hle := hc.straight.le
      obtain ⟨w, s2, h2, h⟩ := LGen.bind_eq.1 h
      obtain ⟨rfl, rfl⟩ := LGen.pure_eq.1 h
      cases hv : cfg.var id with
      | none =>
        unfold assignL at h2
        obtain ⟨a, h3, _⟩ := LGen.bind_ofOption.1 h2
        rw [hv] at h3; cases h3
      | some v =>
        have hvc : s.isConst id v = false := by unfold LState.isConst; rw [ha id e v rfl hv]; rfl
        obtain ⟨p, h3, h4⟩ := assignL_store hv (Bool.and_eq_false_iff.2 (.inl (by exact hvc))) h2
        rw [LState.gen_gen] at h4
        subst h4
        exact ⟨rfl, _, .assign hv (by exact hvc) hc h3, .ofGen hle⟩
    | _ => exact (LGen.ub_eq (s := s).1 h).elim
  | expr a =>
    cases ann with
    | expr e =>
      cases e with
      | call t args id ty =>
        have h : (do let _ ← genExprL cfg (.call t args id ty); pure none : LGen (Option (Option Ty))) s = some (u, s') := h
        obtain ⟨x, s1, h1, h⟩ := LGen.bind_eq.1 h
        obtain ⟨is, n, hc, rfl⟩ := genExprL_code _ h1
        obtain ⟨rfl, rfl⟩ := LGen.pure_eq.1 h
        exact ⟨rfl, _, .call hc, .ofGen hc.straight.le⟩
      | _ => exact (LGen.ub_eq (s := s).1 h).elim
    | _ => exact (LGen.ub_eq (s := s).1 h).elim
  | noop =>
    have h : (do noopL cfg; pure none : LGen (Option (Option Ty))) s = some (u, s') := h
    obtain ⟨_, s1, h1, h⟩ := LGen.bind_eq.1 h
    obtain ⟨rfl, rfl⟩ := LGen.pure_eq.1 h
    unfold noopL at h1
    split at h1
    · rename_i hd
      rw [bind_newReg, bind_emit] at h1
      cases emit_eq.1 h1
      rw [LState.gen_gen, LState.gen_gen]
      exact ⟨rfl, _, .noop hd, .ofGen (Nat.le_succ _)⟩
    · obtain ⟨_, rfl⟩ := LGen.pure_eq.1 h1
      exact ⟨rfl, [], .quiet (by simp), .same⟩
  | imports =>
    obtain ⟨rfl, rfl⟩ := LGen.pure_eq.1 h
    exact ⟨rfl, [], .quiet (by simp), .same⟩
  | comment =>
    obtain ⟨rfl, rfl⟩ := LGen.pure_eq.1 h
    exact ⟨rfl, [], .quiet (by simp), .same⟩
  | _ => cases hp

theorem stopL_code {cfg : LCfg} {ann stmt s s' u} (hp : (∃ e, stmt = .ret e) ∨ stmt = .unreachable)
    (h : simpleL cfg ann stmt s = some (u, s')) :
    (∃ ty, u = some ty) ∧ ∃ is, StopCode cfg s'.env s.curFn s.mark ann stmt is s'.mark ∧ SimpleStep is [] s s' := by
  rcases hp with ⟨e, rfl⟩ | rfl
  · cases ann with
    | none =>
      have h : (do emit .retVoid; pure (some (some (.prim .void))) : LGen (Option (Option Ty))) s = some (u, s') := h
      rw [bind_emit] at h
      obtain ⟨rfl, rfl⟩ := LGen.pure_eq.1 h
      exact ⟨⟨_, rfl⟩, _, .retVoid, .ofGen (Nat.le_refl _)⟩
    | expr x =>
      have h : (do let v ← genExprL cfg x; emit (.ret v.val); pure (some v.ty) : LGen (Option (Option Ty))) s = some (u, s') := h
      obtain ⟨y, s1, h1, h⟩ := LGen.bind_eq.1 h
      obtain ⟨is, n, hc, rfl⟩ := genExprL_code _ h1
      rw [bind_emit, LState.gen_gen] at h
      obtain ⟨rfl, rfl⟩ := LGen.pure_eq.1 h
      exact ⟨⟨_, rfl⟩, _, .ret hc, .ofGen hc.straight.le⟩
    | _ => exact (LGen.ub_eq (s := s).1 h).elim
  · have h : (do emit .unreachable; pure (some (some (.prim .void))) : LGen (Option (Option Ty))) s = some (u, s') := h
    rw [bind_emit] at h
    obtain ⟨rfl, rfl⟩ := LGen.pure_eq.1 h
    exact ⟨⟨_, rfl⟩, _, .unreachable, .ofGen (Nat.le_refl _)⟩

theorem stopL_void {cfg : LCfg} {ann stmt s s' ty} (hp : (∃ e, stmt = .ret e) ∨ stmt = .unreachable)
    (h : simpleL cfg ann stmt s = some (some ty, s')) (hv : ∀ e x, stmt = .ret x → ann ≠ .expr e) : ty = some (.prim .void) := by
  rcases hp with ⟨e, rfl⟩ | rfl
  · cases ann with
    | none =>
      have h : (do emit .retVoid; pure (some (some (.prim .void))) : LGen (Option (Option Ty))) s = some (some ty, s') := h
      rw [bind_emit] at h
      cases (LGen.pure_eq.1 h).1
      rfl
    | expr x => exact (hv x e rfl rfl).elim
    | _ => exact (LGen.ub_eq (s := s).1 h).elim
  · have h : (do emit .unreachable; pure (some (some (.prim .void))) : LGen (Option (Option Ty))) s = some (some ty, s') := h
    rw [bind_emit] at h
    cases (LGen.pure_eq.1 h).1
    rfl

theorem breakL_code {cfg : LCfg} {ann s s' u} (h : simpleL cfg ann .breaks s = some (u, s')) :
    u = some (some (.prim .void)) ∧ s' = s.gen [.br s.whileEnd] s.nextReg := by
  have h : (do let s ← LGen.get; emit (.br s.whileEnd); pure (some (some (.prim .void))) : LGen (Option (Option Ty))) s = some (u, s') := h
  rw [LGen.bind_get, bind_emit] at h
  obtain ⟨rfl, rfl⟩ := LGen.pure_eq.1 h
  exact ⟨rfl, rfl⟩

theorem continueL_code {cfg : LCfg} {ann s s' u} (h : simpleL cfg ann .continues s = some (u, s')) :
    u = some (some (.prim .void)) ∧ s' = s.gen [.br s.whileCond] s.nextReg := by
  have h : (do let s ← LGen.get; emit (.br s.whileCond); pure (some (some (.prim .void))) : LGen (Option (Option Ty))) s = some (u, s') := h
  rw [LGen.bind_get, bind_emit] at h
  obtain ⟨rfl, rfl⟩ := LGen.pure_eq.1 h
  exact ⟨rfl, rfl⟩

end Skull
