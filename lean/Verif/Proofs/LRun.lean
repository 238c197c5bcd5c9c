import Verif.Proofs.LStmt
/-
The generator as a relation: which states it goes through.
-/
namespace Skull
open Spec

/-- The builder moved to a block. -/
def LState.at (s : LState) (f b : Nat) : LState := { s with curFn := f, curBlock := b }

/-- The end of a block that control goes on behind, flow.c:264-286. -/
def LState.jump (s : LState) (r : Option (Option Ty)) (target : Nat) : LState :=
  match r with
  | none => s.gen [.br (some target)] s.nextReg
  | some _ => s

/-- The innermost loop. -/
def LState.setLoop (s : LState) (l : Option (Nat × Nat)) : LState :=
  { s with whileCond := l.map (·.1), whileEnd := l.map (·.2) }

/-- A function added. -/
def LState.addFunc (s : LState) (sym : Symbol) (f : Func) (id : Nat) (blocks : List (List LInstr)) : LState :=
  { s with
    funcs := s.funcs ++ [⟨sym.linkageName, f.paramTypes, f.returnType, !(f.isExternal || f.isExport), blocks⟩]
    funcRef := fun i => if i = id then some s.funcs.length else s.funcRef i }

/-- Parameters set, and the builder at the first block of the function. -/
def LState.enter (s : LState) (sym : Symbol) (f : Func) (id : Nat) (params : List Nat) : LState :=
  { s.addFunc sym f id [[]] with
    refs := fun i => if i ∈ params then some (.param (params.idxOf i)) else s.refs i
    curFn := s.funcs.length
    curBlock := 0
    currentFunc := id }

/-- The end of a function, and the builder back at `old`. -/
def LState.leave (s : LState) (f : Func) (r : Option (Option Ty)) (old : LState) : LState :=
  { (if f.returnType = .prim .void ∧ r ≠ some (some (.prim .void)) then s.gen [.retVoid] s.nextReg else s) with
    currentFunc := old.currentFunc, curFn := old.curFn, curBlock := old.curBlock }

/-- The code at the beginning of a function that copies the parameters to memory: the `i`th of them comes next. -/
inductive EntryCode (cfg : LCfg) (R : LEnv) : Nat → Nat → List Nat → List LInstr → Nat → Prop
  | nil {i n} : EntryCode cfg R i n [] [] n
  | cons {i n p ps v is m} : cfg.var p = some v → R.refs p = some (.reg n) → R.spilled p = true → EntryCode cfg R (i + 1) (n + 1) ps is m →
      EntryCode cfg R i n (p :: ps) ([.alloca n v.type, .store (.param i) (.reg n)] ++ is) m

/-- What copying the parameters does to the state. -/
structure SpillStep (is : List LInstr) (ps : List Nat) (s s' : LState) : Prop where
  funcs : s'.funcs = (s.gen is s'.nextReg).funcs
  curFn : s'.curFn = s.curFn
  curBlock : s'.curBlock = s.curBlock
  currentFunc : s'.currentFunc = s.currentFunc
  whileCond : s'.whileCond = s.whileCond
  whileEnd : s'.whileEnd = s.whileEnd
  isGlobal : s'.isGlobal = s.isGlobal
  funcRef : s'.funcRef = s.funcRef
  globals : s'.globals = s.globals
  others : ∀ id, id ∉ ps → s'.refs id = s.refs id ∧ s'.spilled id = s.spilled id
  straight : Straight s.nextReg is s'.nextReg

theorem SpillStep.same {ps} {s : LState} : SpillStep [] ps s s :=
  ⟨by rw [s.gen_nil], rfl, rfl, rfl, rfl, rfl, rfl, rfl, rfl, fun _ _ => ⟨rfl, rfl⟩, .nil⟩

theorem EntryCode.mono {cfg R R' i n ps is m} (hR : R.Le R') (h : EntryCode cfg R i n ps is m) : EntryCode cfg R' i n ps is m := by
  induction h with
  | nil => exact .nil
  | cons h1 h2 h3 _ ih => exact .cons h1 (hR.refs _ _ h2).1 ((hR.refs _ _ h2).2.2.trans h3) ih

theorem spillParam_eq {cfg : LCfg} {p s u s'} (h : spillParam cfg p s = some (u, s')) :
    ∃ v old, cfg.var p = some v ∧ s.refs p = some old ∧
      s' = { s.gen [.alloca s.nextReg v.type, .store old (.reg s.nextReg)] (s.nextReg + 1) with
        refs := fun i => if i = p then some (.reg s.nextReg) else s.refs i
        spilled := fun i => if i = p then true else s.spilled i } := by
  unfold spillParam at h
  obtain ⟨v, h1, h⟩ := LGen.bind_ofOption.1 h
  rw [LGen.bind_get] at h
  obtain ⟨old, h2, h⟩ := LGen.bind_ofOption.1 h
  rw [bind_newReg, bind_emit, bind_emit] at h
  refine ⟨v, old, h1, h2, ?_⟩
  rw [LGen.modify_eq.1 h, LState.gen_gen, LState.gen_gen]
  rfl

theorem spillParams_eq {cfg : LCfg} : ∀ {ps s u s'}, spillParams cfg ps s = some (u, s') →
    ∃ is, SpillStep is ps s s' ∧ (ps.Nodup → ∀ j, (∀ (i p : Nat), ps[i]? = some p → s.refs p = some (.param (j + i))) →
      EntryCode cfg s'.env j s.nextReg ps is s'.nextReg)
  | [], s, u, s', h => by
    obtain ⟨_, rfl⟩ := LGen.pure_eq.1 h
    exact ⟨[], .same, fun _ _ _ => .nil⟩
  | p :: ps, s, u, s', h => by
    obtain ⟨w, s1, h1, h⟩ := LGen.bind_eq.1 h
    obtain ⟨v, old, hv, ho, e1⟩ := spillParam_eq h1
    obtain ⟨is, st, hc⟩ := spillParams_eq h
    have f1 : s1.funcs = (s.gen [.alloca s.nextReg v.type, .store old (.reg s.nextReg)] (s.nextReg + 1)).funcs := by rw [e1]
    have n1 : s1.nextReg = s.nextReg + 1 := by rw [e1]; rfl
    have c1 : s1.curFn = s.curFn ∧ s1.curBlock = s.curBlock := by rw [e1]; exact ⟨rfl, rfl⟩
    have st1 : Straight s.nextReg [.alloca s.nextReg v.type, .store old (.reg s.nextReg)] (s.nextReg + 1) :=
      .append (is := [_]) (.one rfl rfl) .store
    have hs := st.straight
    rw [n1] at hs
    refine ⟨[.alloca s.nextReg v.type, .store old (.reg s.nextReg)] ++ is, ⟨?_, st.curFn.trans (by rw [e1]; rfl), st.curBlock.trans (by rw [e1]; rfl),
      st.currentFunc.trans (by rw [e1]; rfl), st.whileCond.trans (by rw [e1]; rfl), st.whileEnd.trans (by rw [e1]; rfl),
      st.isGlobal.trans (by rw [e1]; rfl), st.funcRef.trans (by rw [e1]; rfl), st.globals.trans (by rw [e1]; rfl), ?_, st1.append hs⟩, ?_⟩
    · rw [st.funcs, ← LState.gen_gen s _ _ (s.nextReg + 1)]
      unfold LState.gen
      simp only [f1, c1.1, c1.2]
      rfl
    · intro i hi
      simp only [List.mem_cons, not_or] at hi
      have := st.others i hi.2
      rw [this.1, this.2, e1]
      exact ⟨if_neg hi.1, if_neg hi.1⟩
    · intro hn j hj
      have hn := List.nodup_cons.1 hn
      have hold : old = .param j := by
        have := hj 0 p rfl
        rw [ho] at this
        exact Option.some.inj this
      subst hold
      have k := hc hn.2 (j + 1) (by
        intro i q hq
        have hne : q ≠ p := by rintro rfl; exact hn.1 (List.mem_of_getElem? hq)
        have := hj (i + 1) q (by simpa using hq)
        rw [e1]
        show (if q = p then some _ else s.refs q) = _
        rw [if_neg hne, this]
        congr 2
        omega)
      rw [n1] at k
      have op := st.others p hn.1
      refine .cons hv ?_ ?_ k
      · show s'.refs p = _
        rw [op.1, e1]
        exact if_pos rfl
      · show s'.spilled p = _
        rw [op.2, e1]
        exact if_pos rfl

/-- The states the generator goes through. -/
inductive GenRun (cfg : LCfg) : LMode → ATree → LState → Option (Option Ty) → LState → Prop
  | nil {s} : GenRun cfg .stmts .nil s none s
  | plain {ann stmt tok child next s s₁ r s'} : isPlain stmt = true → simpleL cfg ann stmt s = some (none, s₁) →
      GenRun cfg .stmts next s₁ r s' → GenRun cfg .stmts (.node ann stmt tok child next) s r s'
  | stop {ann stmt tok child next s ty s'} : (∃ e, stmt = .ret e) ∨ stmt = .unreachable → simpleL cfg ann stmt s = some (some ty, s') →
      GenRun cfg .stmts (.node ann stmt tok child next) s (some ty) s'
  | breaks {ann tok child next s} :
      GenRun cfg .stmts (.node ann .breaks tok child next) s (some (some (.prim .void))) (s.gen [.br s.whileEnd] s.nextReg)
  | continues {ann tok child next s} :
      GenRun cfg .stmts (.node ann .continues tok child next) s (some (some (.prim .void))) (s.gen [.br s.whileCond] s.nextReg)
  | whiles {cond x tok child next s f a b c s₁ s₂ s₃ s₄ is v n r s₅ r' s'} : s.funcRef s.currentFunc = some f →
      Appended f a s s₁ → Appended f b s₁ s₂ → Appended f c s₂ s₃ → s₄ = ((s₃.setLoop (some (a, c))).gen [.br (some a)] s₃.nextReg).at f a →
      ECode cfg s₄.env s₄.nextReg cond is v n → GenRun cfg .stmts child ((s₄.gen (is ++ [.condBr v.val b c]) n).at f b) r s₅ →
      GenRun cfg .stmts next (((s₅.jump r a).at f c).setLoop none) r' s' →
      GenRun cfg .stmts (.node (.expr cond) (.whiles x) tok child next) s r' s'
  | ifs {cond x tok child next s f fin b s₁ s₂ r s₃ r' s'} : s.funcRef s.currentFunc = some f →
      Appended f fin s s₁ → Appended f b s₁ s₂ → GenRun cfg .stmts child (s₂.at f b) r s₃ →
      GenRun cfg (.afterIf cond f s.curBlock b fin) next (s₃.jump r fin) r' s' →
      GenRun cfg .stmts (.node (.expr cond) (.ifs x) tok child next) s r' s'
  | elifs {cond cond' x tok child next s f entry b b' c fin s₁ s₂ is v n r s₃ r' s'} : Appended f c (s.at f entry) s₁ →
      ECode cfg s₁.env s₁.nextReg cond is v n → Appended f b' (s₁.gen (is ++ [.condBr v.val b c]) n) s₂ →
      GenRun cfg .stmts child (s₂.at f b') r s₃ → GenRun cfg (.afterIf cond' f c b' fin) next (s₃.jump r fin) r' s' →
      GenRun cfg (.afterIf cond f entry b fin) (.node (.expr cond') (.elifs x) tok child next) s r' s'
  | elses {cond ann tok child next s f entry b c fin s₁ is v n r s₂ r' s'} : Appended f c (s.at f entry) s₁ →
      ECode cfg s₁.env s₁.nextReg cond is v n → GenRun cfg .stmts child ((s₁.gen (is ++ [.condBr v.val b c]) n).at f c) r s₂ →
      GenRun cfg .stmts next ((s₂.jump r fin).at f fin) r' s' →
      GenRun cfg (.afterIf cond f entry b fin) (.node ann .elses tok child next) s r' s'
  | comment {cond f entry b fin ann tok child next s r s'} : GenRun cfg (.afterIf cond f entry b fin) next s r s' →
      GenRun cfg (.afterIf cond f entry b fin) (.node ann .comment tok child next) s r s'
  | endIf {cond f entry b fin t s is v n r s'} : staysInChain t = false → ECode cfg s.env s.nextReg cond is v n →
      GenRun cfg .stmts t (((s.at f entry).gen (is ++ [.condBr v.val b fin]) n).at f fin) r s' →
      GenRun cfg (.afterIf cond f entry b fin) t s r s'
  | external {id ps x tok child next s sym f r s'} : cfg.func id = some (sym, f) → f.isExternal = true →
      GenRun cfg .stmts next (s.addFunc sym f id []) r s' → GenRun cfg .stmts (.node (.func id ps) (.funcProto x) tok child next) s r s'
  | func {id ps x tok child next s sym f u s₀ r s₁ r' s'} : cfg.func id = some (sym, f) → f.isExternal = false →
      debugParams cfg (ps.take f.numParams) (s.enter sym f id (ps.take f.numParams)) = some (u, s₀) → GenRun cfg .stmts child s₀ r s₁ →
      GenRun cfg .stmts next (s₁.leave f r s) r' s' → GenRun cfg .stmts (.node (.func id ps) (.funcProto x) tok child next) s r' s'
  | ns {ann tok child next s r s₁ r' s'} : GenRun cfg .stmts child s r s₁ → GenRun cfg .stmts next s₁ r' s' →
      GenRun cfg .stmts (.node ann .namespaces tok child next) s r' s'

theorem codeBlockL_eq {body : LGen (Option (Option Ty))} {target s u s'} (h : codeBlockL body target s = some (u, s')) :
    ∃ r s₁, body s = some (r, s₁) ∧ s' = s₁.jump r target := by
  unfold codeBlockL at h
  obtain ⟨r, s1, h1, h⟩ := LGen.bind_eq.1 h
  refine ⟨r, s1, h1, ?_⟩
  cases r with
  | none => exact emit_eq.1 h
  | some _ => exact (LGen.pure_eq.1 h).2.symm

theorem nextIf_eq {cfg e f entry b s c s'} (h : nextIf cfg e f entry b s = some (c, s')) :
    ∃ s₁ is v n, Appended f c (s.at f entry) s₁ ∧ ECode cfg s₁.env s₁.nextReg e is v n ∧ s' = s₁.gen (is ++ [.condBr v.val b c]) n := by
  unfold nextIf at h
  rw [bind_positionAt] at h
  obtain ⟨c', s1, h1, h⟩ := bind_appendBlock.1 h
  obtain ⟨x, s2, h2, h⟩ := LGen.bind_eq.1 h
  obtain ⟨is, n, hc, rfl⟩ := genExprL_code e h2
  rw [bind_emit, LState.gen_gen] at h
  obtain ⟨rfl, rfl⟩ := LGen.pure_eq.1 h
  exact ⟨s1, is, x, n, appendBlock_eq h1, hc, rfl⟩

theorem whileL_eq {cfg e body s u s'} (h : whileL cfg e body s = some (u, s')) :
    ∃ f a b c s₁ s₂ s₃ s₄ is v n r s₅, s.funcRef s.currentFunc = some f ∧
      Appended f a s s₁ ∧ Appended f b s₁ s₂ ∧ Appended f c s₂ s₃ ∧ s₄ = ((s₃.setLoop (some (a, c))).gen [.br (some a)] s₃.nextReg).at f a ∧
      ECode cfg s₄.env s₄.nextReg e is v n ∧ body ((s₄.gen (is ++ [.condBr v.val b c]) n).at f b) = some (r, s₅) ∧
      s' = ((s₅.jump r a).at f c).setLoop none := by
  unfold whileL at h
  obtain ⟨f, hf, h⟩ := bind_currentRef.1 h
  obtain ⟨a, s1, h1, h⟩ := bind_appendBlock.1 h
  obtain ⟨b, s2, h2, h⟩ := bind_appendBlock.1 h
  obtain ⟨c, s3, h3, h⟩ := bind_appendBlock.1 h
  rw [LGen.bind_modify, bind_emit, bind_positionAt] at h
  obtain ⟨x, s4, h4, h⟩ := LGen.bind_eq.1 h
  obtain ⟨is, n, hc, rfl⟩ := genExprL_code e h4
  rw [bind_emit, LState.gen_gen, bind_positionAt] at h
  obtain ⟨_, s5, h5, h⟩ := LGen.bind_eq.1 h
  obtain ⟨r, s6, h6, rfl⟩ := codeBlockL_eq h5
  rw [bind_positionAt] at h
  have h7 := LGen.modify_eq.1 h
  exact ⟨f, a, b, c, s1, s2, s3, _, is, x, n, r, s6, hf, appendBlock_eq h1, appendBlock_eq h2, appendBlock_eq h3, rfl, hc, h6, h7⟩

theorem modify_append_one {α : Type} (g : α → α) (a : α) : ∀ l : List α, (l ++ [a]).modify l.length g = l ++ [g a]
  | [] => rfl
  | b :: l => by simp [modify_append_one g a l]

theorem appendBlock_addFunc (s : LState) (sym : Symbol) (f : Func) (id : Nat) (ps : List Nat) :
    appendBlock s.funcs.length ({ s.addFunc sym f id [] with
      refs := fun i => if i ∈ ps then some (.param (ps.idxOf i)) else s.refs i } : LState) =
    some (0, { s.addFunc sym f id [[]] with refs := fun i => if i ∈ ps then some (.param (ps.idxOf i)) else s.refs i }) := by
  unfold appendBlock LState.addFunc
  simp [modify_append_one]

theorem functionL_eq {cfg id ps body s u s'} (h : functionL cfg id ps body s = some (u, s')) :
    ∃ sym f, cfg.func id = some (sym, f) ∧ (f.isExternal = true ∧ s' = s.addFunc sym f id [] ∨
      f.isExternal = false ∧ ∃ u s₀ r s₁, debugParams cfg (ps.take f.numParams) (s.enter sym f id (ps.take f.numParams)) = some (u, s₀) ∧
        body s₀ = some (r, s₁) ∧ s' = s₁.leave f r s) := by
  unfold functionL at h
  obtain ⟨⟨sym, f⟩, hf, h⟩ := LGen.bind_ofOption.1 h
  refine ⟨sym, f, hf, ?_⟩
  obtain ⟨ref, s1, h1, h⟩ := LGen.bind_eq.1 h
  cases h1
  by_cases hx : f.isExternal = true
  · rw [if_pos hx] at h
    exact .inl ⟨hx, (LGen.pure_eq.1 h).2.symm⟩
  · rw [if_neg hx] at h
    refine .inr ⟨Bool.eq_false_iff.2 hx, ?_⟩
    unfold setParams at h
    rw [LGen.bind_modify, LGen.bind_get] at h
    obtain ⟨b, s2, h2, h⟩ := bind_appendBlock.1 h
    have h3 := appendBlock_addFunc s sym f id (ps.take f.numParams)
    have h4 := h2.symm.trans h3
    cases h4
    rw [bind_positionAt, LGen.bind_modify] at h
    obtain ⟨u, s0, h0, h⟩ := LGen.bind_eq.1 h
    obtain ⟨r, s3, h5, h⟩ := LGen.bind_eq.1 h
    refine ⟨u, s0, r, s3, h0, h5, ?_⟩
    rw [LGen.bind_modify] at h
    unfold LState.leave
    by_cases hv : f.returnType = .prim .void ∧ r ≠ some (some (.prim .void))
    · rw [if_pos hv] at h ⊢
      rw [bind_emit] at h
      exact (Prod.mk.inj (Option.some.inj h)).2.symm
    · rw [if_neg hv] at h ⊢
      exact (Prod.mk.inj (Option.some.inj h)).2.symm

theorem genTreeL_close {cfg e f entry b fin t} (h : staysInChain t = false) :
    genTreeL cfg (.afterIf e f entry b fin) t = (do closeIf cfg (.afterIf e f entry b fin); genTreeL cfg .stmts t) := by
  cases t with
  | nil => rfl
  | unchecked t =>
    funext s
    show none = LGen.bind _ _ s
    unfold LGen.bind
    split <;> rfl
  | node ann stmt tok child next => cases stmt <;> first | rfl | cases h

theorem simpleL_plain {cfg ann stmt s u s'} (hp : isPlain stmt = true) (h : simpleL cfg ann stmt s = some (u, s')) : u = none := by
  have fin : ∀ {α : Type} {m : LGen α}, (do let _ ← m; pure none : LGen (Option (Option Ty))) s = some (u, s') → u = none := by
    intro α m h
    obtain ⟨_, _, _, h⟩ := LGen.bind_eq.1 h
    exact (LGen.pure_eq.1 h).1.symm
  have fin2 : ∀ {α β : Type} {m : LGen α} {g : α → LGen β},
      (do let a ← m; let _ ← g a; pure none : LGen (Option (Option Ty))) s = some (u, s') → u = none := by
    intro α β m g h
    obtain ⟨_, _, _, h⟩ := LGen.bind_eq.1 h
    obtain ⟨_, _, _, h⟩ := LGen.bind_eq.1 h
    exact (LGen.pure_eq.1 h).1.symm
  cases stmt with
  | varDef =>
    cases ann with
    | varDef => exact fin2 h
    | none => exact (LGen.pure_eq.1 h).1.symm
    | _ => exact (LGen.ub_eq (s := s).1 h).elim
  | varAssign =>
    cases ann with
    | varAssign => exact fin2 h
    | _ => exact (LGen.ub_eq (s := s).1 h).elim
  | expr =>
    cases ann with
    | expr e =>
      cases e with
      | call => exact fin h
      | _ => exact (LGen.ub_eq (s := s).1 h).elim
    | _ => exact (LGen.ub_eq (s := s).1 h).elim
  | noop => exact fin h
  | imports | comment => exact (LGen.pure_eq.1 h).1.symm
  | _ => cases hp

theorem gen_runs {cfg : LCfg} : ∀ (t : ATree), (∀ {s r s'}, genTreeL cfg .stmts t s = some (r, s') → GenRun cfg .stmts t s r s') ∧
    ∀ {e f entry b fin s r s'}, genTreeL cfg (.afterIf e f entry b fin) t s = some (r, s') → GenRun cfg (.afterIf e f entry b fin) t s r s' := by
  have close : ∀ {t e f entry b fin s r s'}, (∀ {s r s'}, genTreeL cfg .stmts t s = some (r, s') → GenRun cfg .stmts t s r s') →
      staysInChain t = false → genTreeL cfg (.afterIf e f entry b fin) t s = some (r, s') →
      GenRun cfg (.afterIf e f entry b fin) t s r s' := by
    intro t e f entry b fin s r s' ih hc h
    rw [genTreeL_close hc] at h
    obtain ⟨_, s1, h1, h⟩ := LGen.bind_eq.1 h
    unfold closeIf at h1
    rw [bind_positionAt] at h1
    obtain ⟨x, s2, h2, h1⟩ := LGen.bind_eq.1 h1
    obtain ⟨is, n, hcode, rfl⟩ := genExprL_code e h2
    rw [bind_emit, LState.gen_gen] at h1
    cases LGen.modify_eq.1 h1
    exact .endIf hc hcode (ih h)
  intro t
  induction t with
  | nil =>
    have hs : ∀ {s r s'}, genTreeL cfg .stmts .nil s = some (r, s') → GenRun cfg .stmts .nil s r s' := by
      intro s r s' h
      have h : (do closeIf cfg .stmts; pure none : LGen (Option (Option Ty))) s = some (r, s') := h
      obtain ⟨rfl, rfl⟩ := LGen.pure_eq.1 h
      exact .nil
    exact ⟨hs, close hs rfl⟩
  | unchecked t => exact ⟨fun {s _ _} h => (LGen.ub_eq (s := s).1 h).elim, fun {_ _ _ _ _ s _ _} h => (LGen.ub_eq (s := s).1 h).elim⟩
  | node ann stmt tok child next ihc ihn =>
    have hs : ∀ {s r s'}, genTreeL cfg .stmts (.node ann stmt tok child next) s = some (r, s') →
        GenRun cfg .stmts (.node ann stmt tok child next) s r s' := by
      intro s r s' h
      have simple : isPlain stmt = true ∨ (∃ e, stmt = .ret e) ∨ stmt = .unreachable ∨ stmt = .breaks ∨ stmt = .continues →
          (do match ← simpleL cfg ann stmt with
              | some ty => pure (some ty)
              | none => genTreeL cfg .stmts next : LGen (Option (Option Ty))) s = some (r, s') →
          GenRun cfg .stmts (.node ann stmt tok child next) s r s' := by
        intro hs h
        obtain ⟨u, s1, h1, h⟩ := LGen.bind_eq.1 h
        rcases hs with hs | hs | hs | rfl | rfl
        · cases simpleL_plain hs h1
          exact .plain hs h1 (ihn.1 h)
        · obtain ⟨⟨ty, rfl⟩, _⟩ := stopL_code (.inl hs) h1
          obtain ⟨rfl, rfl⟩ := LGen.pure_eq.1 h
          exact .stop (.inl hs) h1
        · obtain ⟨⟨ty, rfl⟩, _⟩ := stopL_code (.inr hs) h1
          obtain ⟨rfl, rfl⟩ := LGen.pure_eq.1 h
          exact .stop (.inr hs) h1
        · obtain ⟨rfl, rfl⟩ := breakL_code h1
          obtain ⟨rfl, rfl⟩ := LGen.pure_eq.1 h
          exact .breaks
        · obtain ⟨rfl, rfl⟩ := continueL_code h1
          obtain ⟨rfl, rfl⟩ := LGen.pure_eq.1 h
          exact .continues
      cases stmt with
      | varDef | varAssign | expr | noop | imports | comment => exact simple (.inl rfl) h
      | ret e => exact simple (.inr (.inl ⟨_, rfl⟩)) h
      | unreachable => exact simple (by simp) h
      | breaks => exact simple (by simp) h
      | continues => exact simple (by simp) h
      | whiles x =>
        cases ann with
        | expr cond =>
          have h : (do whileL cfg cond (genTreeL cfg .stmts child); genTreeL cfg .stmts next : LGen (Option (Option Ty))) s = some (r, s') := h
          obtain ⟨_, s1, h1, h⟩ := LGen.bind_eq.1 h
          obtain ⟨f, a, b, c, s1, s2, s3, s4, is, v, n, r1, s5, g1, g2, g3, g4, g5, g6, g7, rfl⟩ := whileL_eq h1
          exact .whiles g1 g2 g3 g4 g5 g6 (ihc.1 g7) (ihn.1 h)
        | _ => exact (LGen.ub_eq (s := s).1 h).elim
      | ifs x =>
        cases ann with
        | expr cond =>
          have h : (do
            let f ← currentRef
            let s ← LGen.get
            let fin ← appendBlock f
            let ifTrue ← appendBlock f
            positionAt f ifTrue
            codeBlockL (genTreeL cfg .stmts child) fin
            genTreeL cfg (.afterIf cond f s.curBlock ifTrue fin) next : LGen (Option (Option Ty))) s = some (r, s') := h
          obtain ⟨f, hf, h⟩ := bind_currentRef.1 h
          rw [LGen.bind_get] at h
          obtain ⟨fin, s1, h1, h⟩ := bind_appendBlock.1 h
          obtain ⟨b, s2, h2, h⟩ := bind_appendBlock.1 h
          rw [bind_positionAt] at h
          obtain ⟨_, s3, h3, h⟩ := LGen.bind_eq.1 h
          obtain ⟨r1, s4, h4, rfl⟩ := codeBlockL_eq h3
          exact .ifs hf (appendBlock_eq h1) (appendBlock_eq h2) (ihc.1 h4) (ihn.2 h)
        | _ => exact (LGen.ub_eq (s := s).1 h).elim
      | funcProto x =>
        cases ann with
        | func id ps =>
          have h : (do functionL cfg id ps (genTreeL cfg .stmts child); genTreeL cfg .stmts next : LGen (Option (Option Ty))) s = some (r, s') := h
          obtain ⟨_, s1, h1, h⟩ := LGen.bind_eq.1 h
          obtain ⟨sym, f, hf, ⟨hx, rfl⟩ | ⟨hx, u, s0, r1, s2, h0, h2, rfl⟩⟩ := functionL_eq h1
          · exact .external hf hx (ihn.1 h)
          · exact .func hf hx h0 (ihc.1 h2) (ihn.1 h)
        | _ => exact (LGen.ub_eq (s := s).1 h).elim
      | namespaces =>
        have h : (do let _ ← genTreeL cfg .stmts child; genTreeL cfg .stmts next : LGen (Option (Option Ty))) s = some (r, s') := h
        obtain ⟨r1, s1, h1, h⟩ := LGen.bind_eq.1 h
        exact .ns (ihc.1 h1) (ihn.1 h)
      | _ => exact (LGen.ub_eq (s := s).1 h).elim
    refine ⟨hs, ?_⟩
    intro e f entry b fin s r s' h
    by_cases hc : staysInChain (.node ann stmt tok child next) = false
    · exact close hs hc h
    · cases stmt with
      | comment => exact .comment (ihn.2 h)
      | elifs x =>
        cases ann with
        | expr cond =>
          have h : (do
            let ifFalse ← nextIf cfg e f entry b
            let ifTrue' ← appendBlock f
            positionAt f ifTrue'
            codeBlockL (genTreeL cfg .stmts child) fin
            genTreeL cfg (.afterIf cond f ifFalse ifTrue' fin) next : LGen (Option (Option Ty))) s = some (r, s') := h
          obtain ⟨c, s1, h1, h⟩ := LGen.bind_eq.1 h
          obtain ⟨s0, is, v, n, g1, g2, rfl⟩ := nextIf_eq h1
          obtain ⟨b', s2, h2, h⟩ := bind_appendBlock.1 h
          rw [bind_positionAt] at h
          obtain ⟨_, s3, h3, h⟩ := LGen.bind_eq.1 h
          obtain ⟨r1, s4, h4, rfl⟩ := codeBlockL_eq h3
          exact .elifs g1 g2 (appendBlock_eq h2) (ihc.1 h4) (ihn.2 h)
        | _ => exact (LGen.ub_eq (s := s).1 h).elim
      | elses =>
        have h : (do
          let ifFalse ← nextIf cfg e f entry b
          positionAt f ifFalse
          codeBlockL (genTreeL cfg .stmts child) fin
          positionAt f fin
          genTreeL cfg .stmts next : LGen (Option (Option Ty))) s = some (r, s') := h
        obtain ⟨c, s1, h1, h⟩ := LGen.bind_eq.1 h
        obtain ⟨s0, is, v, n, g1, g2, rfl⟩ := nextIf_eq h1
        rw [bind_positionAt] at h
        obtain ⟨_, s3, h3, h⟩ := LGen.bind_eq.1 h
        obtain ⟨r1, s4, h4, rfl⟩ := codeBlockL_eq h3
        rw [bind_positionAt] at h
        exact .elses g1 g2 (ihc.1 h4) (ihn.1 h)
      | _ => exact (hc rfl).elim

theorem gen_run {cfg : LCfg} {t : ATree} {s r s'} (h : genTreeL cfg .stmts t s = some (r, s')) : GenRun cfg .stmts t s r s' :=
  (gen_runs t).1 h

end Skull
