import Verif.Spec.DebugInfo
import Verif.Proofs.LRun
import Verif.Proofs.CTotal
/-
The generator with debug information does what the one without does, and where it puts locations: expressions.
-/
namespace Skull.DInfo
open Spec

/- ### Two generators -/

/-- The generator with debug information is at a state; it does what the other one does, and ends in a state with `Q`. -/
def Does (dm : DGen α) (m : LGen α) (s : DState) (Q : α → DState → Prop) : Prop :=
  match m s.l with
  | none => dm s = none
  | some (a, l) => ∃ s', dm s = some (a, s') ∧ s'.l = l ∧ Q a s'

theorem Does.lift {m : LGen α} {s : DState} {Q : α → DState → Prop} (h : ∀ a l, m s.l = some (a, l) → Q a { s with l := l }) :
    Does (DGen.lift m) m s Q := by
  unfold Does DGen.lift
  cases hm : m s.l with
  | none => rfl
  | some r => exact ⟨_, rfl, rfl, h _ _ hm⟩

theorem Does.bind {dm : DGen α} {m : LGen α} {df : α → DGen β} {f : α → LGen β} {s : DState} {Q : α → DState → Prop} {R : β → DState → Prop}
    (h : Does dm m s Q) (hf : ∀ a s', m s.l = some (a, s'.l) → Q a s' → Does (df a) (f a) s' R) : Does (dm >>= df) (m >>= f) s R := by
  unfold Does at h ⊢
  show match LGen.bind m f s.l with | none => DGen.bind dm df s = none | some (a, l) => ∃ s', DGen.bind dm df s = some (a, s') ∧ s'.l = l ∧ R a s'
  unfold LGen.bind DGen.bind
  cases hm : m s.l with
  | none => rw [hm] at h; simp only at h ⊢; rw [h]
  | some r =>
    obtain ⟨a, l⟩ := r
    rw [hm] at h
    obtain ⟨s', h1, rfl, h2⟩ := h
    have := hf a s' hm h2
    unfold Does at this
    rw [h1]
    exact this

/-- A step that only the generator with debug information has. -/
theorem Does.extra {dm : DGen α} {df : α → DGen β} {m : LGen β} {s s' : DState} {a : α} {R : β → DState → Prop}
    (h : dm s = some (a, s')) (hl : s'.l = s.l) (hf : Does (df a) m s' R) : Does (dm >>= df) m s R := by
  unfold Does at hf ⊢
  rw [hl] at hf
  have e : (dm >>= df) s = df a s' := by show DGen.bind dm df s = _; unfold DGen.bind; rw [h]
  rw [e]
  exact hf

/-- The last step, which only the generator with debug information has. -/
theorem Does.also {dm : DGen Unit} {m : LGen Unit} {dn : DGen Unit} {s : DState} {Q R : Unit → DState → Prop}
    (h : Does dm m s Q) (hf : ∀ a s', m s.l = some (a, s'.l) → Q a s' → ∃ s'', dn s' = some ((), s'') ∧ s''.l = s'.l ∧ R () s'') :
    Does (dm >>= fun _ => dn) m s R := by
  unfold Does at h ⊢
  cases hm : m s.l with
  | none =>
    rw [hm] at h
    show DGen.bind dm (fun _ => dn) s = none
    unfold DGen.bind; rw [h]
  | some r =>
    obtain ⟨a, l⟩ := r
    rw [hm] at h
    obtain ⟨s', h1, rfl, h2⟩ := h
    obtain ⟨s'', h3, h4, h5⟩ := hf a s' hm h2
    refine ⟨s'', ?_, h4, h5⟩
    show DGen.bind dm (fun _ => dn) s = _
    unfold DGen.bind; rw [h1]
    exact h3

theorem Does.pure {a : α} {s : DState} {R : α → DState → Prop} (h : R a s) : Does (pure a) (pure a) s R := ⟨s, rfl, rfl, h⟩

theorem Does.ub {s : DState} {R : α → DState → Prop} : Does DGen.ub LGen.ub s R := rfl

theorem Does.mono {dm : DGen α} {m : LGen α} {s : DState} {Q R : α → DState → Prop} (h : Does dm m s Q)
    (hi : ∀ a s', m s.l = some (a, s'.l) → Q a s' → R a s') : Does dm m s R := by
  unfold Does at h ⊢
  cases hm : m s.l with
  | none => rw [hm] at h; exact h
  | some r =>
    obtain ⟨a, l⟩ := r
    rw [hm] at h
    obtain ⟨s', h1, rfl, h2⟩ := h
    exact ⟨s', h1, rfl, hi a s' hm h2⟩

/-- A step without debug information. -/
theorem Does.step {m : LGen α} {df : α → DGen β} {f : α → LGen β} {s : DState} {R : β → DState → Prop}
    (hf : ∀ a l, m s.l = some (a, l) → Does (df a) (f a) { s with l := l } R) : Does (DGen.lift m >>= df) (m >>= f) s R :=
  Does.bind (Q := fun a s' => ∃ l, m s.l = some (a, l) ∧ s' = { s with l := l }) (.lift fun a l h => ⟨l, h, rfl⟩)
    fun a s' _ ⟨l, h, e⟩ => e ▸ hf a l h

/- ### Code that grows -/

/-- Blocks only get longer. -/
def Gw (F F' : List LFunc) : Prop := ∀ f b code, blockOf F f b = some code → ∃ more, blockOf F' f b = some (code ++ more)

theorem Gw.refl {F : List LFunc} : Gw F F := fun _ _ code h => ⟨[], by simpa using h⟩

theorem Gw.trans {F F' F'' : List LFunc} (h : Gw F F') (h' : Gw F' F'') : Gw F F'' := by
  intro f b code hc
  obtain ⟨m, h1⟩ := h f b code hc
  obtain ⟨m', h2⟩ := h' f b _ h1
  exact ⟨m ++ m', by rw [h2, List.append_assoc]⟩

/-- An instruction of the module. -/
def Here (F : List LFunc) (i : LInstr) : Prop := ∃ f b code, blockOf F f b = some code ∧ i ∈ code

/-- Steps without new calls. -/
structure Steps (l l' : LState) : Prop where
  grow : Gw l.funcs l'.funcs
  calls : ∀ r g args, Here l'.funcs (.call r g args) → Here l.funcs (.call r g args)
  le : l.nextReg ≤ l'.nextReg

theorem Steps.refl {l : LState} : Steps l l := ⟨.refl, fun _ _ _ h => h, Nat.le_refl _⟩
theorem Steps.trans {l l' l'' : LState} (h : Steps l l') (h' : Steps l' l'') : Steps l l'' :=
  ⟨h.grow.trans h'.grow, fun r g a hc => h.calls r g a (h'.calls r g a hc), Nat.le_trans h.le h'.le⟩

/-- Steps that leave the code as it is. -/
theorem Steps.same {l l' : LState} (h : l'.funcs = l.funcs) (hn : l'.nextReg = l.nextReg) : Steps l l' :=
  ⟨h ▸ .refl, fun _ _ _ hc => h ▸ hc, by omega⟩

theorem gw_gen (l : LState) (is : List LInstr) (n : Nat) : Gw l.funcs (l.gen is n).funcs := by
  intro f b code h
  by_cases hc : f = l.curFn ∧ b = l.curBlock
  · obtain ⟨rfl, rfl⟩ := hc
    exact ⟨is, blockOf_gen_cur h⟩
  · exact ⟨[], by rw [blockOf_gen_same hc, h, List.append_nil]⟩

theorem here_gen {l : LState} {is : List LInstr} {n : Nat} {i : LInstr} (h : Here (l.gen is n).funcs i) : Here l.funcs i ∨ i ∈ is := by
  obtain ⟨f, b, code, h1, h2⟩ := h
  by_cases hc : f = l.curFn ∧ b = l.curBlock
  · rw [blockOf_gen, if_pos hc] at h1
    cases hb : blockOf l.funcs f b with
    | none => rw [hb] at h1; cases h1
    | some c =>
      rw [hb] at h1
      cases h1
      rcases List.mem_append.1 h2 with h2 | h2
      · exact .inl ⟨f, b, c, hb, h2⟩
      · exact .inr h2
  · rw [blockOf_gen_same hc] at h1
    exact .inl ⟨f, b, code, h1, h2⟩

/-- No calls. -/
def NoCall (is : List LInstr) : Prop := ∀ r g args, .call r g args ∉ is

theorem steps_gen {l : LState} {is : List LInstr} {n : Nat} (hc : NoCall is) (hn : l.nextReg ≤ n) : Steps l (l.gen is n) :=
  ⟨gw_gen l is n, fun r g a h => (here_gen h).resolve_right (hc r g a), hn⟩

theorem Gw.has {F F' : List LFunc} (h : Gw F F') {f b : Nat} (hb : ∃ code, blockOf F f b = some code) : ∃ code, blockOf F' f b = some code := by
  obtain ⟨c, hc⟩ := hb
  obtain ⟨m, hm⟩ := h f b c hc
  exact ⟨_, hm⟩

theorem steps_appended {f b : Nat} {l l' : LState} (h : Appended f b l l') : Steps l l' := by
  refine ⟨fun f' b' code hc => ⟨[], by rw [List.append_nil]; exact h.keeps hc⟩, ?_, by rw [h.nextReg]; omega⟩
  rintro r g a ⟨f', b', code, h1, h2⟩
  by_cases hc : f' = f ∧ b' = b
  · obtain ⟨rfl, rfl⟩ := hc
    rw [h.empty] at h1
    cases h1
    cases h2
  · rw [h.same f' b' hc] at h1
    exact ⟨f', b', code, h1, h2⟩

/- ### Locations -/

/-- A location fits the code: its instruction is in the function of its scope, or its register is used or set by a call there. -/
def Fits (F : List LFunc) (d : DLoc) : Prop :=
  match d.instr with
  | .reg r => ∃ b code i, blockOf F d.scope.fn b = some code ∧ i ∈ code ∧ (.reg r ∈ operandsOf i ∨ ∃ g args, i = .call r g args)
  | .at f b i => f = d.scope.fn ∧ ∃ code, blockOf F f b = some code ∧ i < code.length

theorem Fits.grow {F F' : List LFunc} {d : DLoc} (h : Fits F d) (hg : Gw F F') : Fits F' d := by
  unfold Fits at h ⊢
  split
  · rename_i r hd
    rw [hd] at h
    obtain ⟨b, code, i, h1, h2, h3⟩ := h
    obtain ⟨m, hm⟩ := hg _ _ _ h1
    exact ⟨b, _, i, hm, List.mem_append_left _ h2, h3⟩
  · rename_i f b i hd
    rw [hd] at h
    obtain ⟨h1, code, h2, h3⟩ := h
    obtain ⟨m, hm⟩ := hg _ _ _ h2
    exact ⟨h1, _, hm, by rw [List.length_append]; omega⟩

/-- Where locations come from. -/
def Comes (syms : List Symbol) (F : List LFunc) (d : DLoc) : Prop := FromStatement d ∨ (FromVariable syms d ∧ AtStore F d)

theorem Comes.grow {syms : List Symbol} {F F' : List LFunc} {d : DLoc} (h : Comes syms F d) (hg : Gw F F') : Comes syms F' d := by
  rcases h with h | ⟨h, f, b, i, code, v, p, h1, h2, h3⟩
  · exact .inl h
  · obtain ⟨m, hm⟩ := hg _ _ _ h2
    refine .inr ⟨h, f, b, i, _, v, p, h1, hm, ?_⟩
    obtain ⟨hl, _⟩ := List.getElem?_eq_some_iff.1 h3
    rw [List.getElem?_append_left hl]
    exact h3

/-- What is true of the locations and descriptions at all times.  `N`: no condition is a name. -/
structure Locs (N : Prop) (cfg : LCfg) (s : DState) : Prop where
  fits : ∀ d ∈ s.locs, Fits s.l.funcs d
  calls : ∀ r g args, Here s.l.funcs (.call r g args) → ∃ d ∈ s.locs, d.instr = .reg r
  src : ∀ d ∈ s.locs, Comes cfg.syms s.l.funcs d
  vars : ∀ v ∈ s.vars, v.scope.fn = v.fn
  old : ∀ d ∈ s.locs, ∀ r, d.instr = .reg r → r < s.l.nextReg
  once : N → OneStatement s.locs

theorem Locs.steps {N : Prop} {cfg : LCfg} {s s' : DState} (h : Locs N cfg s) (hs : Steps s.l s'.l) (hl : s'.locs = s.locs) (hv : s'.vars = s.vars) :
    Locs N cfg s' := by
  refine ⟨?_, ?_, ?_, hv ▸ h.vars, ?_, hl ▸ h.once⟩
  · rw [hl]; exact fun d hd => (h.fits d hd).grow hs.grow
  · rw [hl]; exact fun r g a hc => h.calls r g a (hs.calls r g a hc)
  · rw [hl]; exact fun d hd => (h.src d hd).grow hs.grow
  · rw [hl]; intro d hd r hr; have := h.old d hd r hr; have := hs.le; omega

/-- Another location. -/
theorem Locs.cons {N : Prop} {cfg : LCfg} {s s' : DState} {d : DLoc} (h : Locs N cfg s) (hg : Gw s.l.funcs s'.l.funcs) (hn : s.l.nextReg ≤ s'.l.nextReg)
    (hl : s'.locs = d :: s.locs) (hv : s'.vars = s.vars) (hf : Fits s'.l.funcs d) (hsrc : Comes cfg.syms s'.l.funcs d)
    (hc : ∀ r g args, Here s'.l.funcs (.call r g args) → Here s.l.funcs (.call r g args) ∨ d.instr = .reg r)
    (hr : ∀ r, d.instr = .reg r → r < s'.l.nextReg)
    (ho : N → ∀ d' ∈ s.locs, d'.instr = d.instr → d'.ann = d.ann ∧ d'.tok = d.tok) : Locs N cfg s' := by
  refine ⟨?_, ?_, ?_, hv ▸ h.vars, ?_, ?_⟩
  · rw [hl]
    intro e he
    rcases List.mem_cons.1 he with rfl | he
    · exact hf
    · exact (h.fits e he).grow hg
  · rw [hl]
    intro r g a hh
    rcases hc r g a hh with hh | hh
    · obtain ⟨e, he, h1⟩ := h.calls r g a hh
      exact ⟨e, List.mem_cons_of_mem _ he, h1⟩
    · exact ⟨d, List.mem_cons_self .., hh⟩
  · rw [hl]
    intro e he
    rcases List.mem_cons.1 he with rfl | he
    · exact hsrc
    · exact (h.src e he).grow hg
  · rw [hl]
    intro e he r h1
    rcases List.mem_cons.1 he with rfl | he
    · exact hr r h1
    · have := h.old e he r h1; omega
  · rw [hl]
    intro hN e he e' he' h1
    rcases List.mem_cons.1 he with h2 | h2 <;> rcases List.mem_cons.1 he' with h3 | h3
    · subst h2; subst h3; exact ⟨rfl, rfl⟩
    · subst h2
      have := ho hN e' h3 h1.symm
      exact ⟨this.1.symm, this.2.symm⟩
    · subst h3
      exact ho hN e h2 h1
    · exact h.once hN e h2 e' h3 h1

/-- The instruction appended last gets a location. -/
theorem Locs.last {N : Prop} {cfg : LCfg} {s s' : DState} {is : List LInstr} {n : Nat} {code : List LInstr} {p : DPos} {sc : DScope} {ann : Ann} {tok : List Token} (h : Locs N cfg s)
    (hc : NoCall is) (hi : is ≠ []) (hn : s.l.nextReg ≤ n) (hb : blockOf s.l.funcs s.l.curFn s.l.curBlock = some code)
    (hl : s'.l = s.l.gen is n) (hlocs : s'.locs = ⟨.at s.l.curFn s.l.curBlock ((code ++ is).length - 1), p, sc, ann, tok⟩ :: s.locs)
    (hv : s'.vars = s.vars) (hsc : sc.fn = s.l.curFn)
    (hsrc : ∀ i, FromStatement ⟨i, p, sc, ann, tok⟩ ∨ (FromVariable cfg.syms ⟨i, p, sc, ann, tok⟩ ∧ ∃ js v q, is = js ++ [.store v q])) : Locs N cfg s' := by
  have hlen : 0 < is.length := List.length_pos_iff.2 hi
  have hst := steps_gen (l := s.l) hc hn
  rw [← hl] at hst
  refine h.cons hst.grow hst.le hlocs hv ?_ ?_ (fun r g a hh => .inl (hst.calls r g a hh)) (fun r hr => nomatch hr) ?_
  · refine ⟨hsc.symm, code ++ is, ?_, ?_⟩
    · rw [hl]; exact blockOf_gen_cur hb
    · simp only [List.length_append]; omega
  · rcases hsrc (.at s.l.curFn s.l.curBlock ((code ++ is).length - 1)) with h1 | ⟨h1, js, v, q, rfl⟩
    · exact .inl h1
    · refine .inr ⟨h1, _, _, _, _, v, q, rfl, by rw [hl]; exact blockOf_gen_cur hb, ?_⟩
      simp
  · intro _ d' hd' he
    have := h.fits d' hd'
    unfold Fits at this
    rw [he] at this
    obtain ⟨_, c, h1, h2⟩ := this
    rw [hb] at h1
    cases h1
    simp only [List.length_append] at h2
    omega

/- ### Expressions -/

/-- The numbers that are used are below the next one. -/
def RefsBelow (l : LState) : Prop := ∀ id r, l.refs id = some (.reg r) → r < l.nextReg

/-- `refs` are not parameters: with `-g` they have been stored. -/
def NoParam (l : LState) : Prop := ∀ id i, l.refs id ≠ some (.param i)

/-- Between statements. -/
structure Inv (N : Prop) (cfg : LCfg) (s : DState) : Prop where
  locs : Locs N cfg s
  params : NoParam s.l
  below : RefsBelow s.l
  here : s.scope.fn = s.l.curFn
  block : HasBlock s.l

/-- What an expression leaves. -/
structure Within (s s' : DState) : Prop where
  gen : ∃ is n, s'.l = s.l.gen is n ∧ s.l.nextReg ≤ n
  scope : s'.scope = s.scope
  ann : s'.ann = s.ann
  tok : s'.tok = s.tok
  vars : s'.vars = s.vars
  globals : s'.globals = s.globals
  new : ∀ d ∈ s'.locs, d ∈ s.locs ∨ d.ann = s.ann ∧ d.tok = s.tok

theorem Within.refl {s : DState} : Within s s :=
  ⟨⟨[], _, s.l.gen_nil.symm, Nat.le_refl _⟩, rfl, rfl, rfl, rfl, rfl, fun _ h => .inl h⟩

theorem Within.trans {s s' s'' : DState} (h : Within s s') (h' : Within s' s'') : Within s s'' := by
  obtain ⟨is, n, e, hn⟩ := h.gen
  obtain ⟨js, m, e', hm⟩ := h'.gen
  refine ⟨⟨is ++ js, m, by rw [e', e, LState.gen_gen], ?_⟩, h'.scope.trans h.scope, h'.ann.trans h.ann, h'.tok.trans h.tok, h'.vars.trans h.vars,
    h'.globals.trans h.globals, ?_⟩
  · rw [e, LState.gen_nextReg] at hm; omega
  · intro d hd
    rcases h'.new d hd with hd | ⟨h1, h2⟩
    · exact h.new d hd
    · exact .inr ⟨h1.trans h.ann, h2.trans h.tok⟩

theorem hasBlock_gen {l : LState} {is : List LInstr} {n : Nat} (h : HasBlock l) : HasBlock (l.gen is n) := (gw_gen l is n).has h

theorem Inv.gen {N : Prop} {cfg : LCfg} {s : DState} {is : List LInstr} {n : Nat} (h : Inv N cfg s) (hc : NoCall is) (hn : s.l.nextReg ≤ n) :
    Inv N cfg { s with l := s.l.gen is n } :=
  ⟨h.locs.steps (steps_gen hc hn) rfl rfl, h.params, fun id r hr => Nat.lt_of_lt_of_le (h.below id r hr) hn, h.here, hasBlock_gen h.block⟩

theorem within_gen {s : DState} {is : List LInstr} {n : Nat} (hn : s.l.nextReg ≤ n) : Within s { s with l := s.l.gen is n } :=
  ⟨⟨is, n, rfl, hn⟩, rfl, rfl, rfl, rfl, rfl, fun _ h => .inl h⟩

theorem noCall_nil : NoCall [] := fun _ _ _ h => nomatch h
theorem noCall_one {i : LInstr} (h : ∀ r g args, i ≠ .call r g args) : NoCall [i] := by
  intro r g a hc
  exact h r g a (List.mem_singleton.1 hc).symm
theorem noCall_append {is js : List LInstr} (h : NoCall is) (h' : NoCall js) : NoCall (is ++ js) := by
  intro r g a hc
  rcases List.mem_append.1 hc with hc | hc
  · exact h r g a hc
  · exact h' r g a hc

theorem noCall_bin {cfg op a b n is v m} (h : BinCode cfg op a b n is v m) : NoCall is := by
  cases h with
  | fold => exact noCall_nil
  | instr => exact noCall_one (by simp)

theorem noCall_op {cfg o ty a b n is v m} (h : OpCode cfg o ty a b n is v m) : NoCall is := by
  induction h with
  | bin _ h => exact noCall_bin h
  | builtin => exact noCall_one (by simp)
  | isnt _ h ih => exact noCall_append ih (noCall_bin h)

/-- The values that LLVM knows are constants. -/
def FoldConst (cfg : LCfg) : Prop := ∀ op a b v, cfg.fold op a b = some v → v.isConstant = true

/-- Registers and constants. -/
def Plain (v : LVal) : Prop := ∀ i, v ≠ .param i

theorem plain_const {v : LVal} (h : v.isConstant = true) : Plain v := by rintro i rfl; cases h

theorem plain_bin {cfg op a b n is v m} (hf : FoldConst cfg) (h : BinCode cfg op a b n is v m) : Plain v ∧ ∀ r, v = .reg r → n ≤ r ∧ r < m := by
  cases h with
  | fold h =>
    have := hf _ _ _ _ h
    exact ⟨plain_const this, by rintro r rfl; cases this⟩
  | instr => exact ⟨by intro i; simp, by rintro r h; cases h; omega⟩

theorem plain_op {cfg o ty a b n is v m} (hf : FoldConst cfg) (h : OpCode cfg o ty a b n is v m) : Plain v ∧ ∀ r, v = .reg r → n ≤ r ∧ r < m := by
  cases h with
  | bin _ h => exact plain_bin hf h
  | builtin => exact ⟨by intro i; simp, by rintro r h; cases h; omega⟩
  | isnt h h' =>
    have := plain_bin hf h'
    refine ⟨this.1, fun r hr => ?_⟩
    have := this.2 r hr
    have := h.straight.le
    omega

theorem plain_constL (v : Value) : (genConstL v).isConstant = true := by cases v <;> rfl

/-- The value of an expression that is not a name: if it is a register, a new one. -/
theorem fresh_value {cfg R n e is x m} (hf : FoldConst cfg) (h : ECode cfg R n e is x m) (hn : bareName e = false) :
    ∀ r, x.val = .reg r → n ≤ r ∧ r < m := by
  intro r hr
  cases h with
  | load => cases hn
  | value => cases hn
  | const => 
    rename_i v
    simp only at hr
    have := plain_constL v
    rw [hr] at this
    cases this
  | call _ h _ => cases hr; have := h.straight.le; omega
  | ref => cases hn
  | deref => cases hr; omega
  | not h h' => have := (plain_bin hf h').2 r hr; have := h.straight.le; omega
  | neg h h' => have := (plain_op hf h').2 r hr; have := h.straight.le; omega
  | bin h h' h'' => have := (plain_op hf h'').2 r hr; have := h.straight.le; have := h'.straight.le; omega

theorem value_below {cfg : LCfg} {R : LEnv} {n e is x m} (hf : FoldConst cfg) (hb : ∀ id r, R.refs id = some (.reg r) → r < n) (h : ECode cfg R n e is x m) :
    ∀ r, x.val = .reg r → r < m := by
  by_cases hn : bareName e = false
  · exact fun r hr => (fresh_value hf h hn r hr).2
  · intro r hr
    cases h with
    | load => cases hr; omega
    | value _ h _ => cases hr; exact hb _ _ h
    | ref _ h => cases hr; exact hb _ _ h
    | _ => exact (hn rfl).elim

/-- The values of expressions are not parameters. -/
theorem plain_value {cfg : LCfg} {R : LEnv} {n e is x m} (hf : FoldConst cfg) (hp : ∀ id i, R.refs id ≠ some (.param i)) (h : ECode cfg R n e is x m) : Plain x.val := by
  cases h with
  | load => intro i; simp
  | value _ h _ => rintro i rfl; exact hp _ _ h
  | const => exact plain_const (plain_constL _)
  | call => intro i; simp
  | ref _ h => rintro i rfl; exact hp _ _ h
  | deref => intro i; simp
  | not _ h' => exact (plain_bin hf h').1
  | neg _ h' => exact (plain_op hf h').1
  | bin _ _ h'' => exact (plain_op hf h'').1

variable {N : Prop} {cfg : LCfg}

/-- A step of an expression without calls. -/
theorem does_gen {m : LGen α} {s : DState} (hi : Inv N cfg s) (h : ∀ a l, m s.l = some (a, l) → ∃ is n, l = s.l.gen is n ∧ NoCall is ∧ s.l.nextReg ≤ n) :
    Does (DGen.lift m) m s (fun _ s' => Inv N cfg s' ∧ Within s s') := by
  refine .lift fun a l ha => ?_
  obtain ⟨is, n, rfl, hc, hn⟩ := h a l ha
  exact ⟨hi.gen hc hn, within_gen hn⟩

theorem ident_noCall {R n t id ty c is x m} (h : ECode cfg R n (.ident t id ty c) is x m) : NoCall is := by
  cases h with
  | load => exact noCall_one (by simp)
  | value => exact noCall_nil

theorem addr_noCall {R n o r ty c is x m} (ho : o = .ref ∨ o = .deref) (h : ECode cfg R n (.un o r ty c) is x m) : NoCall is := by
  cases h with
  | ref => exact noCall_nil
  | deref => exact noCall_append (is := [_]) (noCall_one (by simp)) (noCall_one (by simp))
  | not => rcases ho with h | h <;> cases h
  | neg => rcases ho with h | h <;> cases h

/-- The call itself, with its location. -/
theorem does_call {s : DState} {t : Token} {id : Nat} {as : List LVal} (hd : cfg.debug = true) (hi : Inv N cfg s) (ht : t ∈ statementToks s.ann s.tok) :
    Does (do let x ← DGen.lift (callL cfg id as); locVal cfg x.val t.pos; pure x) (callL cfg id as) s (fun _ s' => Inv N cfg s' ∧ Within s s') := by
  unfold Does
  cases hm : callL cfg id as s.l with
  | none =>
    show DGen.bind _ _ s = none
    unfold DGen.bind DGen.lift
    rw [hm]; rfl
  | some r =>
    obtain ⟨x, l⟩ := r
    have hm' := hm
    unfold callL at hm'
    obtain ⟨f', h4, hm'⟩ := LGen.bind_ofOption.1 hm'
    rw [LGen.bind_get] at hm'
    obtain ⟨ref, h6, hm'⟩ := LGen.bind_ofOption.1 hm'
    rw [bind_newReg, bind_emit] at hm'
    obtain ⟨rfl, rfl⟩ := LGen.pure_eq.1 hm'
    simp only [LState.gen_gen, LState.gen_nextReg, List.nil_append] at hm ⊢
    have hg : Gw s.l.funcs (s.l.gen [.call s.l.nextReg ref as] (s.l.nextReg + 1)).funcs := gw_gen _ _ _
    obtain ⟨code, hb⟩ := hi.block
    refine ⟨{ s with l := s.l.gen [.call s.l.nextReg ref as] (s.l.nextReg + 1), locs := ⟨.reg s.l.nextReg, t.pos, s.scope, s.ann, s.tok⟩ :: s.locs },
      ?_, rfl, ⟨?_, hi.params, fun id r hr => Nat.lt_succ_of_lt (hi.below id r hr), hi.here, hasBlock_gen hi.block⟩, ⟨_, _, rfl, Nat.le_succ _⟩, rfl, rfl, rfl, rfl, rfl, ?_⟩
    · show DGen.bind _ _ s = _
      unfold DGen.bind DGen.lift
      rw [hm]
      show DGen.bind (locVal cfg (.reg s.l.nextReg) t.pos) _ _ = _
      unfold locVal
      rw [hd]
      rfl
    · refine hi.locs.cons hg (Nat.le_succ _) rfl rfl ?_ (.inl ⟨t, ht, rfl⟩) ?_ ?_ ?_
      · refine ⟨s.l.curBlock, code ++ [.call s.l.nextReg ref as], .call s.l.nextReg ref as, ?_, List.mem_append_right _ (List.mem_singleton.2 rfl), .inr ⟨_, _, rfl⟩⟩
        rw [hi.here]
        exact blockOf_gen_cur hb
      · intro r g a hh
        rcases here_gen hh with hh | hh
        · exact .inl hh
        · cases List.mem_singleton.1 hh
          exact .inr rfl
      · intro r hr
        cases hr
        exact Nat.lt_succ_self _
      · intro _ d' hd' he
        have := hi.locs.old d' hd' _ he
        omega
    · intro d hd'
      rcases List.mem_cons.1 hd' with rfl | hd'
      · exact .inr ⟨rfl, rfl⟩
      · exact .inl hd'

theorem Does.assoc {dm : DGen α} {df : α → DGen β} {dg : β → DGen γ} {m : LGen γ} {s : DState} {R : γ → DState → Prop}
    (h : Does (dm >>= fun a => df a >>= dg) m s R) : Does ((dm >>= df) >>= dg) m s R := by
  have : ((dm >>= df) >>= dg) s = (dm >>= fun a => df a >>= dg) s := by
    show DGen.bind (DGen.bind dm df) dg s = DGen.bind dm _ s
    unfold DGen.bind
    cases dm s <;> rfl
  unfold Does at h ⊢
  rw [this]
  exact h

mutual
theorem does_expr (hd : cfg.debug = true) : ∀ (e : AExpr) {s : DState}, Inv N cfg s → (∀ t ∈ tokensE e, t ∈ statementToks s.ann s.tok) →
    Does (exprD cfg e) (genExprL cfg e) s (fun _ s' => Inv N cfg s' ∧ Within s s')
  | .ident t id ty c, s, hi, ht => by
    simp only [exprD, genExprL]
    refine does_gen hi fun a l h => ?_
    obtain ⟨is, n, h1, h2⟩ := identL_code (t := t) (ty := ty) (c := c) h
    exact ⟨is, n, h2, ident_noCall h1, h1.straight.le⟩
  | .const t v, s, hi, ht => by
    simp only [exprD, genExprL]
    exact .pure ⟨hi, .refl⟩
  | .call t args id ty, s, hi, ht => by
    simp only [exprD, genExprL]
    refine .step fun a l h => ?_
    obtain ⟨_, rfl⟩ := LGen.ofOption_eq.1 h
    refine .bind (does_args hd _ args hi fun t h => ht t (by unfold tokensE; exact List.mem_cons_of_mem _ h)) fun as s1 _ h1 => ?_
    refine (does_call hd h1.1 ?_).mono fun _ s' _ h2 => ⟨h2.1, h1.2.trans h2.2⟩
    rw [h1.2.ann, h1.2.tok]
    exact ht t (by unfold tokensE; exact List.mem_cons_self ..)
  | .un o r ty c, s, hi, ht => by
    simp only [exprD, genExprL]
    split
    · rename_i ho
      refine does_gen hi fun a l h => ?_
      obtain ⟨is, n, h1, h2⟩ := addrL_code (ty := ty) (c := c) ho h
      exact ⟨is, n, h2, addr_noCall ho h1, h1.straight.le⟩
    · refine .bind (does_expr hd r hi fun t h => ht t (by unfold tokensE; exact h)) fun x s1 _ h1 => ?_
      refine (does_gen h1.1 fun a l h => ?_).mono fun _ s' _ h2 => ⟨h2.1, h1.2.trans h2.2⟩
      unfold unL at h
      split at h
      · obtain ⟨v, s2, h3, h⟩ := LGen.bind_eq.1 h
        obtain ⟨rfl, rfl⟩ := LGen.pure_eq.1 h
        obtain ⟨js, k, h4, rfl⟩ := buildBin_code h3
        exact ⟨js, k, rfl, noCall_bin h4, h4.straight.le⟩
      · obtain ⟨op, js, k, h3, h4, h5, rfl⟩ := mathL_code h
        exact ⟨js, k, rfl, noCall_bin h4, h4.straight.le⟩
      · exact (LGen.ub_eq.1 h).elim
  | .bin o l r ty c, s, hi, ht => by
    simp only [exprD, genExprL]
    refine .bind (does_expr hd l hi fun t h => ht t (by unfold tokensE; exact List.mem_append_left _ h)) fun x s1 _ h1 => ?_
    refine .bind (does_expr hd r h1.1 fun t h => ?_) fun y s2 _ h2 => ?_
    · rw [h1.2.ann, h1.2.tok]
      exact ht t (by unfold tokensE; exact List.mem_append_right _ h)
    refine (does_gen h2.1 fun a l h => ?_).mono fun _ s' _ h3 => ⟨h3.1, (h1.2.trans h2.2).trans h3.2⟩
    obtain ⟨ks, j, h5, h6, rfl⟩ := binL_code h
    exact ⟨ks, j, rfl, noCall_op h5, h5.straight.le⟩

theorem does_args (hd : cfg.debug = true) : ∀ (k : Nat) (as : AArgs) {s : DState}, Inv N cfg s → (∀ t ∈ tokensA as, t ∈ statementToks s.ann s.tok) →
    Does (argsD cfg k as) (genArgsL cfg k as) s (fun _ s' => Inv N cfg s' ∧ Within s s')
  | 0, as, s, hi, ht => by
    have e : argsD cfg 0 as = pure [] := by cases as <;> rfl
    have e' : genArgsL cfg 0 as = pure [] := by cases as <;> rfl
    rw [e, e']
    exact .pure ⟨hi, .refl⟩
  | k + 1, .nil, s, hi, ht => by simp only [argsD, genArgsL]; exact .ub
  | k + 1, .unchecked _, s, hi, ht => by simp only [argsD, genArgsL]; exact .ub
  | k + 1, .cons t e next, s, hi, ht => by
    simp only [argsD, genArgsL]
    refine .bind (does_expr hd e hi fun t h => ht t (by unfold tokensA; exact List.mem_append_left _ h)) fun x s1 _ h1 => ?_
    refine .bind (does_args hd k next h1.1 fun t h => ?_) fun y s2 _ h2 => ?_
    · rw [h1.2.ann, h1.2.tok]
      exact ht t (by unfold tokensA; exact List.mem_append_right _ h)
    exact .pure ⟨h2.1, h1.2.trans h2.2⟩
end

end Skull.DInfo
