import Verif.Proofs.LProgram
/-
Every block that is not open has one jump, at its end.
-/
namespace Skull
open Spec

/-- Code without jumps. -/
def Body (code : List LInstr) : Prop := ∀ i ∈ code, i.isTerm = false

/-- The blocks in `O` have no jump yet, the others have one, at their end. -/
def Tidy (O : Nat → Nat → Prop) (M : List LFunc) : Prop :=
  ∀ f b code, blockOf M f b = some code → (O f b → Body code) ∧ (¬ O f b → Ended code)

/-- One more block. -/
def With (O : Nat → Nat → Prop) (f b : Nat) : Nat → Nat → Prop := fun f' b' => O f' b' ∨ (f' = f ∧ b' = b)

theorem Body.nil : Body [] := by simp [Body]
theorem Body.append {a b} (ha : Body a) (hb : Body b) : Body (a ++ b) := by
  intro i hi
  rcases List.mem_append.1 hi with h | h
  · exact ha i h
  · exact hb i h

theorem Tidy.congr {O O' M} (h : Tidy O M) (he : ∀ f b code, blockOf M f b = some code → (O f b ↔ O' f b)) : Tidy O' M := by
  intro f b code hc
  have := he f b code hc
  have := h f b code hc
  grind

theorem Tidy.gen {O} {s : LState} {is n} (h : Tidy O s.funcs) (ho : O s.curFn s.curBlock) (hb : Body is) : Tidy O (s.gen is n).funcs := by
  intro f b code hc
  rw [blockOf_gen] at hc
  split at hc
  · rename_i hcur
    obtain ⟨c, h1, rfl⟩ := Option.map_eq_some_iff.1 hc
    rw [hcur.1, hcur.2]
    rw [hcur.1, hcur.2] at h1
    exact ⟨fun _ => ((h _ _ _ h1).1 ho).append hb, fun hn => (hn ho).elim⟩
  · exact h _ _ _ hc

/-- A jump at the end of the block the builder is at closes it. -/
theorem Tidy.close {O O'} {s : LState} {is t n} (h : Tidy O s.funcs) (ho : O s.curFn s.curBlock) (hb : Body is) (ht : t.isTerm = true)
    (hn : ¬ O' s.curFn s.curBlock) (he : ∀ f b, ¬ (f = s.curFn ∧ b = s.curBlock) → (O' f b ↔ O f b)) :
    Tidy O' (s.gen (is ++ [t]) n).funcs := by
  intro f b code hc
  rw [blockOf_gen] at hc
  split at hc
  · rename_i hcur
    obtain ⟨c, h1, rfl⟩ := Option.map_eq_some_iff.1 hc
    rw [hcur.1, hcur.2]
    rw [hcur.1, hcur.2] at h1
    refine ⟨fun h => (hn h).elim, fun _ => ⟨c ++ is, t, by simp, ((h _ _ _ h1).1 ho).append hb, ht⟩⟩
  · rename_i hcur
    rw [he _ _ hcur]
    exact h _ _ _ hc

theorem Tidy.append {O f b} {s s' : LState} (h : Tidy O s.funcs) (ha : Appended f b s s') : Tidy (With O f b) s'.funcs := by
  intro f' b' code hc
  by_cases he : f' = f ∧ b' = b
  · obtain ⟨rfl, rfl⟩ := he
    rw [ha.empty] at hc
    cases hc
    exact ⟨fun _ => .nil, fun hn => (hn (.inr ⟨rfl, rfl⟩)).elim⟩
  · rw [ha.same _ _ he] at hc
    have := h _ _ _ hc
    refine ⟨fun ho => this.1 (ho.resolve_right he), fun hn => this.2 (fun ho => hn (.inl ho))⟩

/-- Whether code goes on where the builder is. -/
def OpenAt (O : Nat → Nat → Prop) (r : Option (Option Ty)) (s : LState) : Nat → Nat → Prop :=
  if r = none then With O s.curFn s.curBlock else O

/-- The open blocks are there. -/
def Known (O : Nat → Nat → Prop) (s : LState) : Prop := ∀ f b, O f b → Has s f b

/-- What generating code for a tree does to the open blocks. -/
def TidyFrom (O : Nat → Nat → Prop) (s s' : LState) (r : Option (Option Ty)) : LMode → Prop
  | .stmts => ¬ O s.curFn s.curBlock → Tidy (With O s.curFn s.curBlock) s.funcs →
      Tidy (OpenAt O r s') s'.funcs ∧ ¬ O s'.curFn s'.curBlock
  | .afterIf _ f entry _ fin => entry ≠ fin → ¬ O f entry → ¬ O f fin → Tidy (With (With O f entry) f fin) s.funcs →
      Tidy (OpenAt O r s') s'.funcs ∧ ¬ O s'.curFn s'.curBlock

/-- The block the builder is at is closed when control leaves it. -/
theorem Tidy.jump {O} {s : LState} {r target} (h : Tidy (OpenAt O r s) s.funcs) (hn : ¬ O s.curFn s.curBlock) :
    Tidy O (s.jump r target).funcs := by
  cases r with
  | some ty => exact h
  | none =>
    refine Tidy.close (is := []) (t := .br (some target)) h (.inr ⟨rfl, rfl⟩) .nil rfl hn ?_
    intro f b hb
    exact ⟨.inl, fun h => h.resolve_right hb⟩

/-- How the statements end says what the generator gives. -/
theorem gen_ending {cfg mode t s r s'} (h : GenRun cfg mode t s r s') : (r = none ↔ ending t = .goesOn) ∧
    (ending t = .leaves → r = some (some (.prim .void))) := by
  induction h with
  | nil => simp [ending]
  | @plain ann stmt tok child next _ _ _ _ hp _ _ ih =>
    have : ending (.node ann stmt tok child next) = ending next := by cases stmt <;> first | rfl | cases hp
    rw [this]; exact ih
  | @stop ann stmt tok child next s ty s' hp h1 =>
    have hv := stopL_void hp h1
    rcases hp with ⟨e, rfl⟩ | rfl
    · cases ann with
      | expr x => simp [ending]
      | _ => simpa [ending] using hv
    · simpa [ending] using hv
  | breaks => simp [ending]
  | continues => simp [ending]
  | endIf => assumption
  | _ => simpa [ending] using ‹_›

theorem ECode.body {cfg R n e is x m} (h : ECode cfg R n e is x m) : Body is := h.straight.noTerm

theorem Known.with_ {O s f b} (h : Known O s) (hb : Has s f b) : Known (With O f b) s := by
  rintro f' b' (ho | ⟨rfl, rfl⟩)
  · exact h _ _ ho
  · exact hb

theorem Known.grow {O s s' T ds} (h : Known O s) (hg : LGrow T ds s s') : Known O s' := fun f b ho => (h f b ho).grow hg

theorem Known.append {O s s' f b} (h : Known O s) (ha : Appended f b s s') : Known O s' := fun f b ho => (h f b ho).append ha

theorem Known.not_new {O s f b} (h : Known O s) (hn : blockOf s.funcs f b = none) : ¬ O f b := by
  intro ho
  obtain ⟨code, hc⟩ := h f b ho
  rw [hn] at hc
  cases hc

theorem Tidy.addFunc {O} {s : LState} {sym f id} (h : Tidy O s.funcs) : Tidy O (s.addFunc sym f id []).funcs := by
  intro f' b' code hc
  refine h f' b' code ?_
  unfold LState.addFunc blockOf at hc
  simp only at hc
  unfold blockOf
  rw [List.getElem?_append] at hc
  split at hc
  · exact hc
  · rename_i hlt
    cases hi : f' - s.funcs.length with
    | zero => rw [hi] at hc; simp at hc
    | succ n => rw [hi] at hc; simp at hc

theorem Tidy.enter {O} {s : LState} {sym f id ps} (h : Tidy O s.funcs) : Tidy (With O s.funcs.length 0) (s.enter sym f id ps).funcs := by
  intro f' b' code hc
  unfold LState.enter LState.addFunc blockOf at hc
  simp only at hc
  rw [List.getElem?_append] at hc
  split at hc
  · rename_i hlt
    have := h f' b' code hc
    refine ⟨fun ho => this.1 (ho.resolve_right (fun e => by omega)), fun hn => this.2 (fun ho => hn (.inl ho))⟩
  · rename_i hlt
    cases hi : f' - s.funcs.length with
    | zero =>
      rw [hi] at hc
      cases b' with
      | zero =>
        simp at hc
        subst hc
        refine ⟨fun _ => .nil, fun hn => (hn (.inr ⟨by omega, rfl⟩)).elim⟩
      | succ n => simp at hc
    | succ n => rw [hi] at hc; simp at hc

theorem gen_tidy {cfg mode t s r s'} (h : GenRun cfg mode t s r s') : t.defs.Nodup → Fresh t.defs s → AssignsOk cfg t → StateOk s →
    ModeOk s mode → EndsOk cfg.syms t → ∀ O, Known O s → TidyFrom O s s' r mode := by
  induction h with
  | nil => intro _ _ _ hs _ _ O _ ho ht; exact ⟨ht, ho⟩
  | @plain ann stmt tok child next s s₁ r s' hp h1 _ ih =>
    intro hn hf ha hs _ he O hk ho ht
    rw [defs_node] at hn hf
    obtain ⟨_, n2, _, n4⟩ := nodup_parts hn
    obtain ⟨_, is, hc, hst⟩ := simpleL_code hp hs.main (fun id hid => (hf id (by simp [hid])).1) ha.1 h1
    have h2 := hst.frame hs.block
    refine ih n2 ((hf.sub (by simp +contextual)).later h2.toLGrow (fun i hi h => n4 i hi (by simp [h]))) ha.2.2 (h2.stateOk hs) trivial
      he.2.2.2 O (hk.grow h2.toLGrow) (by rw [hst.curFn, hst.curBlock]; exact ho) ?_
    rw [hst.curFn, hst.curBlock, hst.funcs]
    exact ht.gen (.inr ⟨rfl, rfl⟩) hc.straight.1.noTerm
  | @stop ann stmt tok child next s ty s' hp h1 =>
    intro _ _ _ hs _ _ O hk ho ht
    obtain ⟨_, is, hc, hst⟩ := stopL_code hp h1
    refine ⟨?_, by rw [hst.curFn, hst.curBlock]; exact ho⟩
    have hx : ∃ js t, is = js ++ [t] ∧ Body js ∧ t.isTerm = true := by
      generalize s'.mark = m at hc
      cases hc with
      | retVoid => exact ⟨[], _, rfl, .nil, rfl⟩
      | ret h => exact ⟨_, _, rfl, h.body, rfl⟩
      | unreachable => exact ⟨[], _, rfl, .nil, rfl⟩
    obtain ⟨js, t, rfl, h2, h3⟩ := hx
    rw [hst.funcs]
    exact ht.close (.inr ⟨rfl, rfl⟩) h2 h3 ho (fun f b hb => ⟨.inl, fun h => h.resolve_right hb⟩)
  | @breaks ann tok child next s =>
    intro _ _ _ hs _ _ O hk ho ht
    exact ⟨ht.close (is := []) (.inr ⟨rfl, rfl⟩) .nil rfl ho (fun f b hb => ⟨.inl, fun h => h.resolve_right hb⟩), ho⟩
  | @continues ann tok child next s =>
    intro _ _ _ hs _ _ O hk ho ht
    exact ⟨ht.close (is := []) (.inr ⟨rfl, rfl⟩) .nil rfl ho (fun f b hb => ⟨.inl, fun h => h.resolve_right hb⟩), ho⟩
  | @whiles cond x tok child next s f a b c s₁ s₂ s₃ s₄ is v n r s₅ r' s' hf0 a1 a2 a3 e4 hc hch _ ihc ihn =>
    intro hn hf ha hs _ he O hk ho ht
    rw [defs_node] at hn hf
    obtain ⟨n1, n2, _, n4⟩ := nodup_parts hn
    have hcur : f = s.curFn := Option.some.inj (hf0.symm.trans hs.cur)
    have f0 : LFrame (Here s) [] s s := .refl hs.block
    have f1 := f0.append a1 hcur
    have f2 := f1.append a2 hcur
    have f3 := f2.append a3 hcur
    have f4 := (f3.setLoop (some (a, c))).emit [.br (some a)] (n := s₃.nextReg) (Nat.le_refl _)
    have f5 := f4.move (b := a) hcur ((((a1.has.append a2).append a3).setLoop _).gen _ _) (.inr (f0.newIn a1))
    rw [← e4] at f5
    have f6 := f5.emit (is ++ [.condBr v.val b c]) hc.straight.le
    have hb4 : Has s₄ f b := by rw [e4]; exact ((a2.has.append a3).setLoop (some (a, c))).gen [.br (some a)] s₃.nextReg
    have hc4 : Has s₄ f c := by rw [e4]; exact (a3.has.setLoop (some (a, c))).gen [.br (some a)] s₃.nextReg
    have hc5 : Has ((s₄.gen (is ++ [.condBr v.val b c]) n).at f b) f c := by
      apply Has.at; exact hc4.gen _ _
    have f7 := f6.move (b := b) hcur (hb4.gen _ _) (.inr (f1.newIn a2))
    have g1 := gen_frame hch n1 ((hf.sub (by simp +contextual)).later f7.toLGrow (by simp)) ha.2.1 (f7.stateOk hs) trivial
    have f8 := (f7.sub g1).jump r a
    have f9 := (f8.move (b := c) hcur ((hc5.grow g1.toLGrow).jump _ _) (.inr (f2.newIn a3))).setLoop none
    -- the blocks are different
    have ab : a ≠ b := ne_of_has a1.has a2.new
    have bc : b ≠ c := ne_of_has a2.has a3.new
    have ac : a ≠ c := ne_of_has (a1.has.append a2) a3.new
    have sa : s.curBlock ≠ a := ne_of_has (s := s) (by rw [hcur]; exact hs.block) a1.new
    have sb : s.curBlock ≠ b := ne_of_has (s := s₁) ((show Has s f s.curBlock by rw [hcur]; exact hs.block).append a1) a2.new
    have sc : s.curBlock ≠ c := ne_of_has (s := s₂) (((show Has s f s.curBlock by rw [hcur]; exact hs.block).append a1).append a2) a3.new
    have oa : ¬ O f a := hk.not_new a1.new
    have ob : ¬ O f b := (hk.append a1).not_new a2.new
    have oc : ¬ O f c := ((hk.append a1).append a2).not_new a3.new
    -- before the loop
    have t3 := ((ht.append a1).append a2).append a3
    have t4 : Tidy (With (With (With O f a) f b) f c) s₄.funcs := by
      rw [e4]
      have e3 : s₃.curFn = s.curFn ∧ s₃.curBlock = s.curBlock := ⟨by rw [a3.curFn, a2.curFn, a1.curFn], by rw [a3.curBlock, a2.curBlock, a1.curBlock]⟩
      refine Tidy.close (s := s₃.setLoop (some (a, c))) (is := []) (t := .br (some a)) (n := s₃.nextReg) t3 ?_ .nil rfl ?_ ?_
      · show With _ _ _ s₃.curFn s₃.curBlock
        rw [e3.1, e3.2]
        simp [With]
      · show ¬ With _ _ _ s₃.curFn s₃.curBlock
        rw [e3.1, e3.2]
        simp [With, ho, sa, sb, sc]
      · intro f' b'
        show ¬ (f' = s₃.curFn ∧ b' = s₃.curBlock) → _
        rw [e3.1, e3.2]
        simp only [With]
        grind
    have c4 : s₄.curFn = f ∧ s₄.curBlock = a := by rw [e4]; exact ⟨rfl, rfl⟩
    have t5 : Tidy (With (With O f c) f b) (s₄.gen (is ++ [.condBr v.val b c]) n).funcs := by
      refine Tidy.close t4 ?_ hc.body rfl ?_ ?_
      · rw [c4.1, c4.2]; simp [With]
      · rw [c4.1, c4.2]; simp [With, oa, ab, ac]
      · intro f' b'
        rw [c4.1, c4.2]
        simp only [With]
        grind
    have k5 : Known (With O f c) ((s₄.gen (is ++ [.condBr v.val b c]) n).at f b) := (hk.grow f7.toLGrow).with_ hc5
    have i1 := ihc n1 ((hf.sub (by simp +contextual)).later f7.toLGrow (by simp)) ha.2.1 (f7.stateOk hs) trivial he.2.2.1 _ k5
      (by show ¬ With O f c f b; simp [With, ob, bc]) t5
    have i2 := i1.1.jump (target := a) i1.2
    exact ihn n2 ((hf.sub (by simp +contextual)).later f9.toLGrow (fun i hi h => n4 i hi h)) ha.2.2 (f9.stateOk hs) trivial he.2.2.2 O
      (hk.grow f9.toLGrow) oc i2
  | @ifs cond x tok child next s f fin b s₁ s₂ r s₃ r' s' hf0 a1 a2 hch _ ihc ihn =>
    intro hn hf ha hs _ he O hk ho ht
    rw [defs_node] at hn hf
    obtain ⟨n1, n2, _, n4⟩ := nodup_parts hn
    have hcur : f = s.curFn := Option.some.inj (hf0.symm.trans hs.cur)
    have f0 : LFrame (Here s) [] s s := .refl hs.block
    have f1 := f0.append a1 hcur
    have f2 := (f1.append a2 hcur).move (b := b) hcur a2.has (.inr (f1.newIn a2))
    have g1 := gen_frame hch n1 ((hf.sub (by simp +contextual)).later f2.toLGrow (by simp)) ha.2.1 (f2.stateOk hs) trivial
    have f3 := (f2.sub g1).jump r fin
    have he3 : Has s f s.curBlock := by rw [hcur]; exact hs.block
    have sfin : s.curBlock ≠ fin := ne_of_has he3 a1.new
    have sb : s.curBlock ≠ b := ne_of_has (he3.append a1) a2.new
    have finb : fin ≠ b := ne_of_has a1.has a2.new
    have ofin : ¬ O f fin := hk.not_new a1.new
    have ob : ¬ O f b := (hk.append a1).not_new a2.new
    have t2 : Tidy (With (With (With O f s.curBlock) f fin) f b) s₂.funcs := by
      have := (ht.append a1).append a2
      rw [← hcur] at this
      exact this
    have i1 := ihc n1 ((hf.sub (by simp +contextual)).later f2.toLGrow (by simp)) ha.2.1 (f2.stateOk hs) trivial he.2.2.1
      (With (With O f s.curBlock) f fin) (((hk.grow f2.toLGrow).with_ (((he3.append a1).append a2).at f b)).with_ ((a1.has.append a2).at f b))
      (by show ¬ With _ _ _ f b; simp [With, ob, sb.symm, finb.symm]) t2
    have i2 := i1.1.jump (target := fin) i1.2
    exact ihn n2 ((hf.sub (by simp +contextual)).later f3.toLGrow (fun i hi h => n4 i hi h)) ha.2.2 (f3.stateOk hs)
      ⟨hcur.trans f3.fn.symm, he3.grow f3.toLGrow,
        ((a1.has.append a2).grow (s := s₂.at f b) g1.toLGrow).jump _ _⟩ he.2.2.2 O (hk.grow f3.toLGrow) sfin (by rw [hcur]; exact ho) ofin i2
  | @elifs cond cond' x tok child next s f entry b b' c fin s₁ s₂ is v n r s₃ r' s' a1 hc a2 hch _ ihc ihn =>
    intro hn hf ha hs hm he O hk hef oe ofin ht
    obtain ⟨hcur, hent, hfin⟩ := hm
    rw [defs_node] at hn hf
    obtain ⟨n1, n2, _, n4⟩ := nodup_parts hn
    have f0 := LFrame.openIf (cond := cond) (b := b) (fin := fin) hcur hent
    have f1 := (f0.append a1 hcur).emit (is ++ [.condBr v.val b c]) hc.straight.le
    have f2 := (f1.append a2 hcur).move (b := b') hcur a2.has (.inr (f1.newIn a2))
    have g1 := gen_frame hch n1 ((hf.sub (by simp +contextual)).later f2.toLGrow (by simp)) ha.2.1 (f2.stateOk hs) trivial
    have f3 := (f2.sub g1).jump r fin
    have ec : entry ≠ c := ne_of_has (s := s) hent a1.new
    have finc : fin ≠ c := ne_of_has (s := s) hfin a1.new
    have hc1 := a1.has.gen (is ++ [.condBr v.val b c]) n
    have cb : c ≠ b' := ne_of_has hc1 a2.new
    have hfin1 : Has (s₁.gen (is ++ [.condBr v.val b c]) n) f fin := hfin.grow f1.toLGrow
    have hent1 : Has (s₁.gen (is ++ [.condBr v.val b c]) n) f entry := hent.grow f1.toLGrow
    have finb : fin ≠ b' := ne_of_has hfin1 a2.new
    have entb : entry ≠ b' := ne_of_has hent1 a2.new
    have oc : ¬ O f c := hk.not_new (s := s) a1.new
    have ob : ¬ O f b' := (hk.grow f1.toLGrow).not_new a2.new
    have t1 := Tidy.append (s := s.at f entry) ht a1
    have t2 : Tidy (With (With O f c) f fin) (s₁.gen (is ++ [.condBr v.val b c]) n).funcs := by
      refine Tidy.close t1 ?_ hc.body rfl ?_ ?_
      · rw [a1.curFn, a1.curBlock]
        show With _ _ _ f entry
        simp [With]
      · rw [a1.curFn, a1.curBlock]
        show ¬ With _ _ _ f entry
        simp [With, oe, ec, hef]
      · intro f' b''
        rw [a1.curFn, a1.curBlock]
        show ¬ (f' = f ∧ b'' = entry) → _
        simp only [With]
        grind
    have t3 := t2.append a2
    have i1 := ihc n1 ((hf.sub (by simp +contextual)).later f2.toLGrow (by simp)) ha.2.1 (f2.stateOk hs) trivial he.2.2.1
      (With (With O f c) f fin) (((hk.grow f2.toLGrow).with_ ((hc1.append a2).at f b')).with_ ((hfin1.append a2).at f b'))
      (by show ¬ With _ _ _ f b'; simp [With, ob, cb.symm, finb.symm]) t3
    have i2 := i1.1.jump (target := fin) i1.2
    exact ihn n2 ((hf.sub (by simp +contextual)).later f3.toLGrow (fun i hi h => n4 i hi h)) ha.2.2 (f3.stateOk hs)
      ⟨hcur.trans f3.fn.symm, (((a1.has.gen _ _).append a2).grow (s := s₂.at f b') g1.toLGrow).jump _ _,
        hfin.grow f3.toLGrow⟩ he.2.2.2 O (hk.grow f3.toLGrow) finc.symm oc ofin i2
  | @elses cond ann tok child next s f entry b c fin s₁ is v n r s₂ r' s' a1 hc hch _ ihc ihn =>
    intro hn hf ha hs hm he O hk hef oe ofin ht
    obtain ⟨hcur, hent, hfin⟩ := hm
    rw [defs_node] at hn hf
    obtain ⟨n1, n2, _, n4⟩ := nodup_parts hn
    have f0 := LFrame.openIf (cond := cond) (b := b) (fin := fin) hcur hent
    have f1 := (f0.append a1 hcur).emit (is ++ [.condBr v.val b c]) hc.straight.le
    have f2 := f1.move (b := c) hcur (a1.has.gen _ _) (.inr (f0.newIn a1))
    have g1 := gen_frame hch n1 ((hf.sub (by simp +contextual)).later f2.toLGrow (by simp)) ha.2.1 (f2.stateOk hs) trivial
    have f3 := (f2.sub g1).jump r fin
    have f4 := f3.move (b := fin) hcur (hfin.grow f3.toLGrow) (.inl ⟨rfl, .inr rfl⟩)
    have ec : entry ≠ c := ne_of_has (s := s) hent a1.new
    have finc : fin ≠ c := ne_of_has (s := s) hfin a1.new
    have hfin1 : Has (s₁.gen (is ++ [.condBr v.val b c]) n) f fin := hfin.grow f1.toLGrow
    have oc : ¬ O f c := hk.not_new (s := s) a1.new
    have t1 := Tidy.append (s := s.at f entry) ht a1
    have t2 : Tidy (With (With O f fin) f c) (s₁.gen (is ++ [.condBr v.val b c]) n).funcs := by
      refine Tidy.close t1 ?_ hc.body rfl ?_ ?_
      · rw [a1.curFn, a1.curBlock]
        show With _ _ _ f entry
        simp [With]
      · rw [a1.curFn, a1.curBlock]
        show ¬ With _ _ _ f entry
        simp [With, oe, ec, hef]
      · intro f' b''
        rw [a1.curFn, a1.curBlock]
        show ¬ (f' = f ∧ b'' = entry) → _
        simp only [With]
        grind
    have i1 := ihc n1 ((hf.sub (by simp +contextual)).later f2.toLGrow (by simp)) ha.2.1 (f2.stateOk hs) trivial he.2.2.1
      (With O f fin) ((hk.grow f2.toLGrow).with_ hfin1)
      (by show ¬ With _ _ _ f c; simp [With, oc, finc.symm]) t2
    have i2 := i1.1.jump (target := fin) i1.2
    exact ihn n2 ((hf.sub (by simp +contextual)).later f4.toLGrow (fun i hi h => n4 i hi (by simp at h; simp [h]))) ha.2.2 (f4.stateOk hs) trivial
      he.2.2.2 O (hk.grow f4.toLGrow) ofin i2
  | @comment cond f entry b fin ann tok child next s r s' _ ih =>
    intro hn hf ha hs hm he
    rw [defs_node] at hn hf
    obtain ⟨n1, n2, _, n4⟩ := nodup_parts hn
    exact ih n2 (hf.sub (by simp +contextual)) ha.2.2 hs hm he.2.2.2
  | @endIf cond f entry b fin t s is v n r s' _ hc _ ih =>
    intro hn hf ha hs hm he O hk hef oe ofin ht
    obtain ⟨hcur, hent, hfin⟩ := hm
    have f0 := LFrame.openIf (cond := cond) (b := b) (fin := fin) hcur hent
    have f1 := f0.emit (is ++ [.condBr v.val b fin]) hc.straight.le
    have f2 := f1.move (b := fin) hcur (hfin.grow f1.toLGrow) (.inl ⟨rfl, .inr rfl⟩)
    have t2 : Tidy (With O f fin) ((s.at f entry).gen (is ++ [.condBr v.val b fin]) n).funcs := by
      refine Tidy.close ht ?_ hc.body rfl ?_ ?_
      · show With _ _ _ f entry
        simp [With]
      · show ¬ With _ _ _ f entry
        simp [With, oe, hef]
      · intro f' b''
        show ¬ (f' = f ∧ b'' = entry) → _
        simp only [With]
        grind
    exact ih hn (hf.later f2.toLGrow (by simp)) ha (f2.stateOk hs) trivial he O (hk.grow f2.toLGrow) ofin t2
  | @external id ps x tok child next s sym f r s' hfn _ _ ih =>
    intro hn hf ha hs _ he O hk ho ht
    rw [defs_node] at hn hf
    obtain ⟨n1, n2, _, n4⟩ := nodup_parts hn
    have h1 : LGrow (Here s) (id :: ps) s (s.addFunc sym f id []) := addFunc_grow (hf.sub (by simp [Ann.defs])) (by simp)
    have f1 : LFrame (Here s) (id :: ps) s (s.addFunc sym f id []) := ⟨h1, rfl, rfl, Has.grow (s := s) hs.block h1, .inl ⟨rfl, rfl⟩⟩
    refine ih n2 ((hf.sub (by simp +contextual)).later f1.toLGrow (fun i hi h => n4 i hi (by simp only [Ann.defs, List.mem_append]; exact .inl h))) ha.2.2 (f1.stateOk hs) trivial
      he.2.2.2 O (hk.grow f1.toLGrow) ho ?_
    exact ht.addFunc
  | @func id ps x tok child next s sym f u s₀ r s₁ r' s' hfn hx h0 hch _ ihc ihn =>
    intro hn hf ha hs _ he O hk ho ht
    rw [defs_node] at hn hf
    obtain ⟨n1, n2, n3, n4⟩ := nodup_parts hn
    have hsub : ∀ i ∈ ps.take f.numParams, i ∈ ps := fun i hi => List.mem_of_mem_take hi
    have e1 : LGrow (Here s) (id :: ps) s s₀ := debug_grow (hf.sub (by simp +contextual [Ann.defs, or_imp])) hsub h0
    have hs1 : StateOk s₀ := debug_ok hs (hf.sub (by simp [Ann.defs])) h0
    have g1 := gen_frame hch n1 ((hf.sub (by simp +contextual)).later e1 n3) ha.2.1 hs1 trivial
    have f1 := func_frame (r := r) hs (hf.sub (by simp +contextual [Ann.defs, or_imp])) hsub h0 g1
    obtain ⟨is, st, _⟩ := debug_step h0
    have hc0 := debug_cur h0
    have hlen : 0 < s.funcs.length := hs.pos
    have hnew : blockOf s.funcs s.funcs.length 0 = none := blockOf_beyond _ _
    have k1 := hk.with_ (f := s.curFn) (b := s.curBlock) hs.block
    have ht0 : Tidy (With (With O s.curFn s.curBlock) s₀.curFn s₀.curBlock) s₀.funcs := by
      rw [hc0.1, hc0.2, st.funcs]
      exact ht.enter.gen (.inr ⟨rfl, rfl⟩) st.straight.noTerm
    have i1 := ihc n1 ((hf.sub (by simp +contextual)).later e1 n3) ha.2.1 hs1 trivial he.2.2.1
      (With O s.curFn s.curBlock) (k1.grow e1) (by rw [hc0.1, hc0.2]; exact k1.not_new hnew) ht0
    refine ihn n2 ((hf.sub (by simp +contextual)).later f1.toLGrow n4) ha.2.2 (f1.stateOk hs) trivial he.2.2.2 O (hk.grow f1.toLGrow) ho ?_
    have hend := gen_ending hch
    have hfe := he.2.1 id ps sym f rfl (by
      unfold LCfg.func at hfn
      split at hfn
      · rename_i sym' hs'
        split at hfn
        · cases hfn; exact hs'
        · cases hfn
      · cases hfn) (by
      unfold LCfg.func at hfn
      split at hfn
      · split at hfn
        · cases hfn; assumption
        · cases hfn
      · cases hfn) hx
    show Tidy (With O s.curFn s.curBlock) (s₁.leave f r s).funcs
    unfold LState.leave
    by_cases hv : f.returnType = .prim .void
    · rw [if_pos hv] at hfe
      by_cases hr : r = some (some (.prim .void))
      · rw [if_neg (fun h => h.2 hr)]
        subst hr
        exact i1.1
      · rw [if_pos ⟨hv, hr⟩]
        cases r with
        | none =>
          refine Tidy.close (is := []) (t := .retVoid) (n := s₁.nextReg) i1.1 (.inr ⟨rfl, rfl⟩) .nil rfl i1.2 ?_
          intro f b hb
          exact ⟨.inl, fun h => h.resolve_right hb⟩
        | some ty =>
          cases hq : ending child with
          | goesOn => exact absurd (hend.1.2 hq) (by simp)
          | returns => exact (hfe hq).elim
          | leaves => exact (hr (hend.2 hq)).elim
    · rw [if_neg hv] at hfe
      rw [if_neg (fun h => hv h.1)]
      cases r with
      | none => exact (hfe (hend.1.1 rfl)).elim
      | some ty => exact i1.1
  | @ns ann tok child next s r s₁ r' s' hch _ ihc ihn =>
    intro hn hf ha hs _ he O hk ho ht
    rw [defs_node] at hn hf
    obtain ⟨n1, n2, n3, n4⟩ := nodup_parts hn
    have g1 := gen_frame hch n1 (hf.sub (by simp +contextual)) ha.2.1 hs trivial
    have i1 := ihc n1 (hf.sub (by simp +contextual)) ha.2.1 hs trivial he.2.2.1 O hk ho ht
    have hr : r = none := (gen_ending hch).1.2 (he.1 rfl)
    subst hr
    exact ihn n2 ((hf.sub (by simp +contextual)).later g1.toLGrow (fun i hi h => n4 i hi (by simp [h]))) ha.2.2 (g1.stateOk hs) trivial
      he.2.2.2 O (hk.grow g1.toLGrow) i1.2 i1.1

/-- Every block of a program has one jump, at its end. -/
theorem codegenL_ended {cfg name t s} (h : codegenL cfg name t = some s) (hn : t.defs.Nodup) (h0 : 0 ∉ t.defs)
    (ha : AssignsOk cfg t) (he : EndsOk cfg.syms t) : WellEnded s.funcs := by
  obtain ⟨r, s₁, h1, h2⟩ := codegenL_run h
  have hs := setupL_ok name
  have hf := setupL_fresh (name := name) h0
  have ht := gen_tidy h1 hn hf ha hs trivial he (fun _ _ => False) (fun _ _ h => h.elim) (fun h => h) (by
    intro f b code hc
    unfold blockOf setupL at hc
    cases f with
    | zero =>
      cases b with
      | zero => cases hc; exact ⟨fun _ => .nil, fun h => (h (.inr ⟨rfl, rfl⟩)).elim⟩
      | succ n => cases hc
    | succ n => cases hc)
  have hfin : Tidy (fun _ _ => False) s.funcs := by
    rcases h2 with ⟨hr, rfl⟩ | ⟨rfl, rfl⟩
    · cases r with
      | none => cases hr
      | some ty => exact ht.1
    · exact Tidy.close (is := []) (t := .ret (.int 0)) ht.1 (.inr ⟨rfl, rfl⟩) .nil rfl (fun h => h) (fun f b hb => ⟨fun h => h.elim, fun h => h.resolve_right hb⟩)
  exact fun f b code hc => (hfin f b code hc).2 (fun h => h)

end Skull
