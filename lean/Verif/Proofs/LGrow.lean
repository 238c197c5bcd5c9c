import Verif.Proofs.LRun
/-
What generating code for a tree leaves as it is.
-/
namespace Skull
open Spec

theorem defs_node (ann : Ann) (stmt : Stmt) (tok : List Token) (child next : ATree) :
    (ATree.node ann stmt tok child next).defs = ann.defs ++ (child.defs ++ next.defs) := by
  cases ann <;> simp [ATree.defs, Ann.defs]

/-- No constant is assigned to. -/
def AssignsOk (cfg : LCfg) : ATree → Prop
  | .nil => True
  | .unchecked _ => True
  | .node ann _ _ child next => AssignOk cfg ann ∧ AssignsOk cfg child ∧ AssignsOk cfg next

/-- Nothing is known of these symbols yet. -/
def Fresh (ds : List Nat) (s : LState) : Prop := ∀ id ∈ ds, s.refs id = none ∧ s.funcRef id = none ∧ s.isGlobal id = false ∧
  s.spilled id = false

theorem Fresh.later {ds ds' T s s'} (h : Fresh ds s) (hg : LGrow T ds' s s') (hd : ∀ id ∈ ds, id ∉ ds') : Fresh ds s' := by
  intro id hid
  have h1 := hg.others id (hd id hid)
  rw [h1.1, h1.2.1, h1.2.2.1, h1.2.2.2]
  exact h id hid

/-- The state is in order. -/
structure StateOk (s : LState) : Prop where
  main : MainOk s
  root : s.funcRef 0 = some 0
  pos : 0 < s.funcs.length
  cur : s.funcRef s.currentFunc = some s.curFn
  block : HasBlock s

theorem LFrame.stateOk {T ds s s'} (h : LFrame T ds s s') (hs : StateOk s) : StateOk s' := by
  refine ⟨?_, h.env.funcs _ _ hs.root, Nat.lt_of_lt_of_le hs.pos h.heads.length, ?_, h.cur⟩
  · unfold MainOk; rw [h.fn, h.func]; exact hs.main
  · rw [h.fn, h.func]; exact h.env.funcs _ _ hs.cur

/- ### Steps -/

theorem LFrame.append {T ds s s' s'' f b} (h : LFrame T ds s s') (ha : Appended f b s' s'') (hf : f = s.curFn) : LFrame T ds s s'' := by
  have h1 : LGrow T [] s' s'' := ha.grow (by rw [hf, ← h.fn]; exact ⟨_, h.cur⟩)
  have h2 := h.toLGrow.trans h1 (fun _ _ h => .inl h)
  rw [List.append_nil] at h2
  obtain ⟨code, hc⟩ := h.cur
  refine ⟨h2, ha.curFn.trans h.fn, ha.currentFunc.trans h.func, ⟨code, ?_⟩, ?_⟩
  · rw [ha.curFn, ha.curBlock]; exact ha.keeps hc
  · rw [ha.curFn, ha.curBlock]; exact h.curT

theorem LFrame.emit {T ds s s'} (h : LFrame T ds s s') (is : List LInstr) {n : Nat} (hn : s'.nextReg ≤ n) : LFrame T ds s (s'.gen is n) := by
  have h1 := h.trans (LFrame.gen (is := is) h.cur hn (ds := [])) h.here
  rwa [List.append_nil] at h1

/-- The block is there. -/
def Has (s : LState) (f b : Nat) : Prop := ∃ code, blockOf s.funcs f b = some code

theorem Has.grow {s s' f b T ds} (h : Has s f b) (hg : LGrow T ds s s') : Has s' f b := by
  obtain ⟨code, h⟩ := h
  obtain ⟨rest, h⟩ := hg.grow _ _ _ h
  exact ⟨_, h⟩
theorem Has.append {s s' f b f' b'} (h : Has s f b) (ha : Appended f' b' s s') : Has s' f b := by
  obtain ⟨code, h⟩ := h
  exact ⟨code, ha.keeps h⟩
theorem Has.gen {s f b} (h : Has s f b) (is n) : Has (s.gen is n) f b := by
  obtain ⟨code, h⟩ := h
  refine ⟨if f = s.curFn ∧ b = s.curBlock then code ++ is else code, ?_⟩
  rw [blockOf_gen, h]
  split <;> rfl
theorem Has.setLoop {s f b} (h : Has s f b) (l) : Has (s.setLoop l) f b := h
theorem Has.at {s f b} (h : Has s f b) (f' b') : Has (s.at f' b') f b := h
theorem Has.jump {s f b} (h : Has s f b) (r t) : Has (s.jump r t) f b := by
  cases r with
  | none => exact h.gen _ _
  | some _ => exact h
theorem Appended.has {f b s s'} (h : Appended f b s s') : Has s' f b := ⟨_, h.empty⟩

theorem LFrame.move {T ds s s'} (h : LFrame T ds s s') {f b : Nat} (hf : f = s.curFn) (hb : Has s' f b)
    (hT : T f b ∨ blockOf s.funcs f b = none) : LFrame T ds s (s'.at f b) :=
  ⟨⟨h.reg, h.globals, h.grow, h.same, h.env, h.others, h.heads⟩, hf, h.func, hb, hT⟩

theorem LFrame.setLoop {T ds s s'} (h : LFrame T ds s s') (l) : LFrame T ds s (s'.setLoop l) :=
  ⟨⟨h.reg, h.globals, h.grow, h.same, h.env, h.others, h.heads⟩, h.fn, h.func, h.cur, h.curT⟩

theorem LFrame.sub {T ds ds' s s' s''} (h : LFrame T ds s s') (h' : LFrame (Here s') ds' s' s'') : LFrame T (ds ++ ds') s s'' :=
  h.trans h' h.here

theorem LFrame.jump {T ds s s'} (h : LFrame T ds s s') (r : Option (Option Ty)) (b : Nat) : LFrame T ds s (s'.jump r b) := by
  cases r with
  | none => exact h.emit _ (Nat.le_refl _)
  | some _ => exact h

theorem LFrame.newIn {T ds s s' s'' f b} (h : LFrame T ds s s') (ha : Appended f b s' s'') : blockOf s.funcs f b = none := h.none_of ha.new

/- ### Functions -/

theorem blockOf_append (M : List LFunc) (x : LFunc) {f b : Nat} {code} (h : blockOf M f b = some code) :
    blockOf (M ++ [x]) f b = some code := by
  unfold blockOf at h ⊢
  cases hf : M[f]? with
  | none => rw [hf] at h; cases h
  | some y =>
    rw [hf] at h
    have hlt : f < M.length := (List.getElem?_eq_some_iff.1 hf).1
    rw [List.getElem?_append_left hlt, hf]
    exact h

theorem blockOf_beyond (M : List LFunc) (b : Nat) : blockOf M M.length b = none := by
  unfold blockOf
  rw [List.getElem?_eq_none (Nat.le_refl _)]
  rfl

theorem addFunc_grow {s : LState} {sym f id blocks T ds} (hf : Fresh [id] s) (hd : id ∈ ds) : LGrow T ds s (s.addFunc sym f id blocks) := by
  have hid := hf id (by simp)
  refine ⟨Nat.le_refl _, ⟨[], by simp [LState.addFunc]⟩, ?_, ?_, ?_, ?_, ?_⟩
  · intro f b code h
    exact ⟨[], by rw [List.append_nil]; exact blockOf_append _ _ h⟩
  · intro f b code h _
    exact blockOf_append _ _ h
  · refine ⟨fun _ _ h => ⟨h, rfl, rfl⟩, ?_⟩
    intro i g hg
    have hi : i ≠ id := by rintro rfl; rw [show s.env.funcRef i = s.funcRef i from rfl, hid.2.1] at hg; cases hg
    show (if i = id then some s.funcs.length else s.funcRef i) = some g
    rw [if_neg hi]; exact hg
  · intro i hi
    have hne : i ≠ id := by rintro rfl; exact hi hd
    refine ⟨rfl, ?_, rfl, rfl⟩
    show (if i = id then some s.funcs.length else s.funcRef i) = s.funcRef i
    rw [if_neg hne]
  · intro i x hx
    refine ⟨x, ?_, rfl, fun h => h⟩
    show (s.funcs ++ _)[i]? = _
    rw [List.getElem?_append_left (List.getElem?_eq_some_iff.1 hx).1, hx]

theorem enter_grow {s : LState} {sym f id ps T} (hf : Fresh (id :: ps) s) {ps' : List Nat} (hps : ∀ i ∈ ps', i ∈ ps) :
    LGrow T (id :: ps) s (s.enter sym f id ps') := by
  have h1 : LGrow T (id :: ps) s (s.addFunc sym f id [[]]) :=
    addFunc_grow (fun i hi => hf i (by simp only [List.mem_singleton] at hi; subst hi; simp)) (by simp)
  refine ⟨h1.reg, h1.globals, h1.grow, h1.same, ?_, ?_, h1.heads⟩
  · refine ⟨?_, h1.env.funcs⟩
    intro i p hp
    refine ⟨?_, rfl, rfl⟩
    have hi : i ∉ ps' := by
      intro hi
      have := (hf i (by simp [hps i hi])).1
      rw [show s.env.refs i = s.refs i from rfl, this] at hp
      cases hp
    show (if i ∈ ps' then some (LVal.param (ps'.idxOf i)) else s.refs i) = some p
    rw [if_neg hi]; exact hp
  · intro i hi
    refine ⟨?_, (h1.others i hi).2⟩
    have hi : i ∉ ps' := fun h => hi (by simp [hps i h])
    show (if i ∈ ps' then some (LVal.param (ps'.idxOf i)) else s.refs i) = s.refs i
    rw [if_neg hi]

theorem enter_block {s : LState} {sym f id ps} : blockOf (s.enter sym f id ps).funcs s.funcs.length 0 = some [] := by
  unfold blockOf LState.enter LState.addFunc
  simp

theorem enter_ok {s : LState} {sym f id ps} (hs : StateOk s) (hf : Fresh [id] s) : StateOk (s.enter sym f id ps) := by
  have hid := (hf id (by simp)).2.1
  have h0 : id ≠ 0 := by rintro rfl; rw [hs.root] at hid; cases hid
  refine ⟨?_, ?_, ?_, ?_, ⟨_, enter_block⟩⟩
  · have : s.funcs.length ≠ 0 := Nat.ne_of_gt hs.pos
    show id = 0 ↔ s.funcs.length = 0
    constructor
    · intro h; exact (h0 h).elim
    · intro h; exact (this h).elim
  · show (if 0 = id then some s.funcs.length else s.funcRef 0) = some 0
    rw [if_neg (Ne.symm h0)]; exact hs.root
  · simp [LState.enter, LState.addFunc]
  · show (if id = id then some s.funcs.length else s.funcRef id) = some s.funcs.length
    rw [if_pos rfl]

/-- The builder is behind the code that copies the parameters. -/
theorem debug_step {cfg ps s u s'} (h : debugParams cfg ps s = some (u, s')) : ∃ is, SpillStep is ps s s' ∧ (cfg.debug = false → s' = s ∧ is = []) ∧
    (cfg.debug = true → ps.Nodup → (∀ (i p : Nat), ps[i]? = some p → s.refs p = some (.param i)) →
      EntryCode cfg s'.env 0 s.nextReg ps is s'.nextReg) := by
  unfold debugParams at h
  split at h
  · rename_i hd
    obtain ⟨is, h1, h2⟩ := spillParams_eq h
    exact ⟨is, h1, (fun h => by rw [hd] at h; cases h), fun _ hn hr => h2 hn 0 (by simpa using hr)⟩
  · rename_i hd
    obtain ⟨_, rfl⟩ := LGen.pure_eq.1 h
    exact ⟨[], .same, fun _ => ⟨rfl, rfl⟩, fun h => absurd h hd⟩

theorem SpillStep.block {is ps s s'} (h : SpillStep is ps s s') {code} (hb : blockOf s.funcs s.curFn s.curBlock = some code) :
    blockOf s'.funcs s'.curFn s'.curBlock = some (code ++ is) := by
  rw [h.funcs, h.curFn, h.curBlock]
  exact blockOf_gen_cur hb

theorem debug_grow {cfg : LCfg} {s : LState} {sym f id ps T u s₀} (hf : Fresh (id :: ps) s) {ps' : List Nat} (hps : ∀ i ∈ ps', i ∈ ps)
    (h : debugParams cfg ps' (s.enter sym f id ps') = some (u, s₀)) : LGrow T (id :: ps) s s₀ := by
  obtain ⟨is, st, _⟩ := debug_step h
  have h1 : LGrow T (id :: ps) s (s.enter sym f id ps') := enter_grow hf hps
  have hne : ∀ {f' b code}, blockOf s.funcs f' b = some code → ¬ (f' = (s.enter sym f id ps').curFn ∧ b = (s.enter sym f id ps').curBlock) := by
    rintro f' b code hc ⟨rfl, rfl⟩
    have := blockOf_beyond s.funcs (s.enter sym f id ps').curBlock
    exact absurd (this.symm.trans hc) (by simp)
  refine ⟨Nat.le_trans h1.reg st.straight.le, by rw [st.globals]; exact h1.globals, ?_, ?_, ?_, ?_, ?_⟩
  · intro f' b code hc
    obtain ⟨rest, h2⟩ := h1.grow f' b code hc
    exact ⟨rest, by rw [st.funcs, blockOf_gen_same (hne hc), h2]⟩
  · intro f' b code hc hT
    rw [st.funcs, blockOf_gen_same (hne hc), h1.same f' b code hc hT]
  · refine ⟨?_, fun i g hg => ?_⟩
    · intro i p hp
      have hi : i ∉ ps' := by
        intro hi
        have := (hf i (by simp [hps i hi])).1
        rw [show s.env.refs i = s.refs i from rfl, this] at hp
        cases hp
      have h2 := h1.env.refs i p hp
      have h3 := st.others i hi
      exact ⟨h3.1.trans h2.1, (congrFun st.isGlobal i).trans h2.2.1, h3.2.trans h2.2.2⟩
    · exact (congrFun st.funcRef i).trans (h1.env.funcs i g hg)
  · intro i hi
    have h2 := h1.others i hi
    have h3 := st.others i (fun h => hi (by simp [hps i h]))
    exact ⟨h3.1.trans h2.1, (congrFun st.funcRef i).trans h2.2.1, (congrFun st.isGlobal i).trans h2.2.2.1, h3.2.trans h2.2.2.2⟩
  · rw [st.funcs]
    exact h1.heads.trans (gen_heads _ _ _)

theorem debug_ok {cfg : LCfg} {s : LState} {sym f id ps u s₀} (hs : StateOk s) (hf : Fresh [id] s)
    (h : debugParams cfg ps (s.enter sym f id ps) = some (u, s₀)) : StateOk s₀ := by
  obtain ⟨is, st, _⟩ := debug_step h
  have h1 := enter_ok (sym := sym) (f := f) (ps := ps) hs hf
  refine ⟨?_, (congrFun st.funcRef 0).trans h1.root, ?_, ?_, ?_⟩
  · unfold MainOk; rw [st.curFn, st.currentFunc]; exact h1.main
  · rw [st.funcs]; exact Nat.lt_of_lt_of_le h1.pos (gen_heads _ _ _).length
  · rw [st.curFn, st.currentFunc, st.funcRef]; exact h1.cur
  · obtain ⟨code, hb⟩ := h1.block
    exact ⟨_, st.block hb⟩

theorem debug_cur {cfg : LCfg} {s : LState} {sym f id ps u s₀} (h : debugParams cfg ps (s.enter sym f id ps) = some (u, s₀)) :
    s₀.curFn = s.funcs.length ∧ s₀.curBlock = 0 := by
  obtain ⟨is, st, _⟩ := debug_step h
  exact ⟨st.curFn, st.curBlock⟩

/-- A function inside the code at `s`. -/
theorem func_frame {cfg : LCfg} {s : LState} {sym f id ps ps' ds u s₀ r s₁} (hs : StateOk s) (hf : Fresh (id :: ps) s) (hps : ∀ i ∈ ps', i ∈ ps)
    (h0 : debugParams cfg ps' (s.enter sym f id ps') = some (u, s₀))
    (h : LFrame (Here s₀) ds s₀ s₁) : LFrame (Here s) (id :: ps ++ ds) s (s₁.leave f r s) := by
  have h1 : LGrow (Here s) (id :: ps) s s₀ := debug_grow hf hps h0
  have hT : ∀ f' b, Here s₀ f' b → Here s f' b ∨ blockOf s.funcs f' b = none := by
    rintro f' b ⟨rfl, rfl⟩
    rw [(debug_cur h0).1]
    exact .inr (blockOf_beyond _ _)
  have h2 := h1.trans h.toLGrow hT
  have h3 : LGrow (Here s) (id :: ps ++ ds) s (if f.returnType = .prim .void ∧ r ≠ some (some (.prim .void)) then s₁.gen [.retVoid] s₁.nextReg else s₁) := by
    split
    · have h4 := h2.trans (LGrow.gen (is := [.retVoid]) (Nat.le_refl s₁.nextReg) (ds := [])) ?_
      · rwa [List.append_nil] at h4
      · intro f' b hb
        rcases h.here f' b hb with h5 | h5
        · exact hT f' b h5
        · exact .inr (h1.none_of h5)
    · exact h2
  obtain ⟨code, hc⟩ := hs.block
  obtain ⟨rest, hc'⟩ := h3.grow _ _ _ hc
  exact ⟨⟨h3.reg, h3.globals, h3.grow, h3.same, h3.env, h3.others, h3.heads⟩, rfl, rfl, ⟨_, hc'⟩, .inl ⟨rfl, rfl⟩⟩

/- ### Trees -/

/-- The blocks that code may be added to. -/
def modeT (s : LState) : LMode → Nat → Nat → Prop
  | .stmts, f, b => Here s f b
  | .afterIf _ g entry _ fin, f, b => f = g ∧ (b = entry ∨ b = fin)

/-- The blocks of an unfinished `if` are there. -/
def ModeOk (s : LState) : LMode → Prop
  | .stmts => True
  | .afterIf _ g entry _ fin => g = s.curFn ∧ Has s g entry ∧ Has s g fin

theorem LFrame.openIf {s : LState} {cond f entry b fin} (hf : f = s.curFn) (he : Has s f entry) :
    LFrame (modeT s (.afterIf cond f entry b fin)) [] s (s.at f entry) := by
  have g : LGrow (modeT s (.afterIf cond f entry b fin)) [] s s := .refl
  exact ⟨⟨g.reg, g.globals, g.grow, g.same, g.env, g.others, g.heads⟩, hf, rfl, he, .inl ⟨rfl, .inl rfl⟩⟩

theorem nodup_parts {a b c : List Nat} (h : (a ++ (b ++ c)).Nodup) :
    b.Nodup ∧ c.Nodup ∧ (∀ i ∈ b, i ∉ a) ∧ (∀ i ∈ c, i ∉ a ++ b) := by
  rw [List.nodup_append, List.nodup_append] at h
  obtain ⟨_, ⟨h1, h2, h3⟩, h4⟩ := h
  refine ⟨h1, h2, fun i hi ha => h4 i ha i (by simp [hi]) rfl, ?_⟩
  intro i hi hab
  rcases List.mem_append.1 hab with ha | hb
  · exact h4 i ha i (by simp [hi]) rfl
  · exact h3 i hb i hi rfl

theorem Fresh.sub {ds ds' s} (h : Fresh ds s) (hd : ∀ i ∈ ds', i ∈ ds) : Fresh ds' s := fun i hi => h i (hd i hi)

theorem gen_frame {cfg mode t s r s'} (h : GenRun cfg mode t s r s') : t.defs.Nodup → Fresh t.defs s → AssignsOk cfg t → StateOk s →
    ModeOk s mode → LFrame (modeT s mode) t.defs s s' := by
  induction h with
  | nil => intro _ _ _ hs _; exact .refl hs.block
  | @plain ann stmt tok child next s s₁ r s' hp h1 _ ih =>
    intro hn hf ha hs _
    rw [defs_node] at hn hf ⊢
    obtain ⟨_, n2, _, n4⟩ := nodup_parts hn
    obtain ⟨_, is, _, hst⟩ := simpleL_code hp hs.main (fun id hid => (hf id (by simp [hid])).1) ha.1 h1
    have h2 := hst.frame hs.block
    have h3 := ih n2 ((hf.sub (by simp +contextual)).later h2.toLGrow (fun i hi h => n4 i hi (by simp [h]))) ha.2.2 (h2.stateOk hs) trivial
    exact (h2.sub h3).mono (fun _ _ => .inl) (by simp +contextual [or_imp])
  | stop hp h1 =>
    intro _ _ _ hs _
    obtain ⟨_, is, _, hst⟩ := stopL_code hp h1
    exact (hst.frame hs.block).mono (fun _ _ => .inl) (by simp)
  | breaks => intro _ _ _ hs _; exact .gen hs.block (Nat.le_refl _)
  | continues => intro _ _ _ hs _; exact .gen hs.block (Nat.le_refl _)
  | @whiles cond x tok child next s f a b c s₁ s₂ s₃ s₄ is v n r s₅ r' s' hf0 a1 a2 a3 e4 hc _ _ ihc ihn =>
    intro hn hf ha hs _
    rw [defs_node] at hn hf ⊢
    obtain ⟨n1, n2, _, n4⟩ := nodup_parts hn
    have hcur : f = s.curFn := Option.some.inj (hf0.symm.trans hs.cur)
    have f0 : LFrame (Here s) [] s s := .refl hs.block
    have f1 := f0.append a1 hcur
    have f2 := f1.append a2 hcur
    have f3 := f2.append a3 hcur
    have f4 := (f3.setLoop (some (a, c))).emit [.br (some a)] (n := s₃.nextReg) (Nat.le_refl _)
    have f5 := f4.move (b := a) hcur ((((a1.has.append a2).append a3).setLoop _).gen _ _) (.inr (f0.newIn a1))
    rw [← e4] at f5
    have f6 := f5.emit (is ++ [.condBr v.val b c]) hc.straight.le
    have hb4 : Has s₄ f b := by rw [e4]; exact ((a2.has.append a3).setLoop (some (a, c))).gen [.br (some a)] s₃.nextReg
    have hc4 : Has s₄ f c := by rw [e4]; exact (a3.has.setLoop (some (a, c))).gen [.br (some a)] s₃.nextReg
    have hc5 : Has ((s₄.gen (is ++ [.condBr v.val b c]) n).at f b) f c := by
      apply Has.at; exact hc4.gen _ _
    have f7 := f6.move (b := b) hcur (hb4.gen _ _) (.inr (f1.newIn a2))
    have g1 := ihc n1 ((hf.sub (by simp +contextual)).later f7.toLGrow (by simp)) ha.2.1 (f7.stateOk hs) trivial
    have f8 := (f7.sub g1).jump r a
    have f9 := (f8.move (b := c) hcur ((hc5.grow g1.toLGrow).jump _ _) (.inr (f2.newIn a3))).setLoop none
    have g2 := ihn n2 ((hf.sub (by simp +contextual)).later f9.toLGrow (fun i hi h => n4 i hi h)) ha.2.2 (f9.stateOk hs) trivial
    exact (f9.sub g2).mono (fun _ _ => .inl) (by simp [Ann.defs])
  | @ifs cond x tok child next s f fin b s₁ s₂ r s₃ r' s' hf0 a1 a2 _ _ ihc ihn =>
    intro hn hf ha hs _
    rw [defs_node] at hn hf ⊢
    obtain ⟨n1, n2, _, n4⟩ := nodup_parts hn
    have hcur : f = s.curFn := Option.some.inj (hf0.symm.trans hs.cur)
    have f0 : LFrame (Here s) [] s s := .refl hs.block
    have f1 := f0.append a1 hcur
    have f2 := (f1.append a2 hcur).move (b := b) hcur a2.has (.inr (f1.newIn a2))
    have g1 := ihc n1 ((hf.sub (by simp +contextual)).later f2.toLGrow (by simp)) ha.2.1 (f2.stateOk hs) trivial
    have f3 := (f2.sub g1).jump r fin
    have g2 := ihn n2 ((hf.sub (by simp +contextual)).later f3.toLGrow (fun i hi h => n4 i hi h)) ha.2.2 (f3.stateOk hs)
      ⟨hcur.trans f3.fn.symm, by rw [hcur]; exact Has.grow (s := s) hs.block f3.toLGrow,
        ((a1.has.append a2).grow (s := s₂.at f b) g1.toLGrow).jump _ _⟩
    refine (f3.trans g2 ?_).mono (fun _ _ => .inl) (by simp [Ann.defs])
    rintro f' b' ⟨rfl, rfl | rfl⟩
    · exact .inl ⟨hcur, rfl⟩
    · exact .inr (f0.newIn a1)
  | @elifs cond cond' x tok child next s f entry b b' c fin s₁ s₂ is v n r s₃ r' s' a1 hc a2 _ _ ihc ihn =>
    intro hn hf ha hs hm
    obtain ⟨hcur, he, hfin⟩ := hm
    rw [defs_node] at hn hf ⊢
    obtain ⟨n1, n2, _, n4⟩ := nodup_parts hn
    have f0 := LFrame.openIf (cond := cond) (b := b) (fin := fin) hcur he
    have f1 := (f0.append a1 hcur).emit (is ++ [.condBr v.val b c]) hc.straight.le
    have f2 := (f1.append a2 hcur).move (b := b') hcur a2.has (.inr (f1.newIn a2))
    have g1 := ihc n1 ((hf.sub (by simp +contextual)).later f2.toLGrow (by simp)) ha.2.1 (f2.stateOk hs) trivial
    have f3 := (f2.sub g1).jump r fin
    have g2 := ihn n2 ((hf.sub (by simp +contextual)).later f3.toLGrow (fun i hi h => n4 i hi h)) ha.2.2 (f3.stateOk hs)
      ⟨hcur.trans f3.fn.symm, (((a1.has.gen _ _).append a2).grow (s := s₂.at f b') g1.toLGrow).jump _ _,
        hfin.grow f3.toLGrow⟩
    refine (f3.trans g2 ?_).mono (fun _ _ => .inl) (by simp [Ann.defs])
    rintro f' b'' ⟨rfl, rfl | rfl⟩
    · exact .inr (f0.newIn a1)
    · exact .inl ⟨rfl, .inr rfl⟩
  | @elses cond ann tok child next s f entry b c fin s₁ is v n r s₂ r' s' a1 hc _ _ ihc ihn =>
    intro hn hf ha hs hm
    obtain ⟨hcur, he, hfin⟩ := hm
    rw [defs_node] at hn hf ⊢
    obtain ⟨n1, n2, _, n4⟩ := nodup_parts hn
    have f0 := LFrame.openIf (cond := cond) (b := b) (fin := fin) hcur he
    have f1 := (f0.append a1 hcur).emit (is ++ [.condBr v.val b c]) hc.straight.le
    have f2 := f1.move (b := c) hcur (a1.has.gen _ _) (.inr (f0.newIn a1))
    have g1 := ihc n1 ((hf.sub (by simp +contextual)).later f2.toLGrow (by simp)) ha.2.1 (f2.stateOk hs) trivial
    have f3 := (f2.sub g1).jump r fin
    have f4 := f3.move (b := fin) hcur (hfin.grow f3.toLGrow) (.inl ⟨rfl, .inr rfl⟩)
    have g2 := ihn n2 ((hf.sub (by simp +contextual)).later f4.toLGrow (fun i hi h => n4 i hi (by simp at h; simp [h]))) ha.2.2 (f4.stateOk hs) trivial
    exact (f4.sub g2).mono (fun _ _ => .inl) (by simp +contextual [or_imp])
  | @comment cond f entry b fin ann tok child next s r s' _ ih =>
    intro hn hf ha hs hm
    rw [defs_node] at hn hf ⊢
    obtain ⟨n1, n2, _, n4⟩ := nodup_parts hn
    exact (ih n2 (hf.sub (by simp +contextual)) ha.2.2 hs hm).mono (fun _ _ => .inl) (by simp +contextual)
  | @endIf cond f entry b fin t s is v n r s' _ hc _ ih =>
    intro hn hf ha hs hm
    obtain ⟨hcur, he, hfin⟩ := hm
    have f0 := LFrame.openIf (cond := cond) (b := b) (fin := fin) hcur he
    have f1 := f0.emit (is ++ [.condBr v.val b fin]) hc.straight.le
    have f2 := f1.move (b := fin) hcur (hfin.grow f1.toLGrow) (.inl ⟨rfl, .inr rfl⟩)
    have g1 := ih hn (hf.later f2.toLGrow (by simp)) ha (f2.stateOk hs) trivial
    exact f2.sub g1
  | @external id ps x tok child next s sym f r s' hfn _ _ ih =>
    intro hn hf ha hs _
    rw [defs_node] at hn hf ⊢
    obtain ⟨n1, n2, _, n4⟩ := nodup_parts hn
    have h1 : LGrow (Here s) (id :: ps) s (s.addFunc sym f id []) := addFunc_grow (hf.sub (by simp [Ann.defs])) (by simp)
    have f1 : LFrame (Here s) (id :: ps) s (s.addFunc sym f id []) := ⟨h1, rfl, rfl, Has.grow (s := s) hs.block h1, .inl ⟨rfl, rfl⟩⟩
    have g1 := ih n2 ((hf.sub (by simp +contextual)).later f1.toLGrow (fun i hi h => n4 i hi (by simp only [Ann.defs, List.mem_append]; exact .inl h))) ha.2.2 (f1.stateOk hs) trivial
    exact (f1.sub g1).mono (fun _ _ => .inl) (by simp +contextual [or_imp, Ann.defs])
  | @func id ps x tok child next s sym f u s₀ r s₁ r' s' hfn _ h0 _ _ ihc ihn =>
    intro hn hf ha hs _
    rw [defs_node] at hn hf ⊢
    obtain ⟨n1, n2, n3, n4⟩ := nodup_parts hn
    have hsub : ∀ i ∈ ps.take f.numParams, i ∈ ps := fun i hi => List.mem_of_mem_take hi
    have e1 : LGrow (Here s) (id :: ps) s s₀ := debug_grow (hf.sub (by simp +contextual [Ann.defs, or_imp])) hsub h0
    have g1 := ihc n1 ((hf.sub (by simp +contextual)).later e1 n3) ha.2.1 (debug_ok hs (hf.sub (by simp [Ann.defs])) h0) trivial
    have f1 := func_frame (r := r) hs (hf.sub (by simp +contextual [Ann.defs, or_imp])) hsub h0 g1
    have g2 := ihn n2 ((hf.sub (by simp +contextual)).later f1.toLGrow n4) ha.2.2 (f1.stateOk hs) trivial
    exact (f1.sub g2).mono (fun _ _ => .inl) (by simp +contextual [or_imp, Ann.defs])
  | @ns ann tok child next s r s₁ r' s' _ _ ihc ihn =>
    intro hn hf ha hs _
    rw [defs_node] at hn hf ⊢
    obtain ⟨n1, n2, n3, n4⟩ := nodup_parts hn
    have g1 := ihc n1 (hf.sub (by simp +contextual)) ha.2.1 hs trivial
    have g2 := ihn n2 ((hf.sub (by simp +contextual)).later g1.toLGrow (fun i hi h => n4 i hi (by simp [h]))) ha.2.2 (g1.stateOk hs) trivial
    exact (g1.sub g2).mono (fun _ _ => .inl) (by simp +contextual [or_imp])

end Skull
