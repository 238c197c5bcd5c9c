import Verif.Proofs.LArith
import Verif.Proofs.LProgram
import Verif.Proofs.SrcKeep
/-
Running the code of expressions and statements does what the interpreter does: what is said of the states.
-/
namespace Skull
open Spec

section
variable {ω : Type}

/-- The variables of the function are where the generator says.  Results of instructions for them are numbered below `k`, and their
cells are not below `base`. -/
structure LocRel (cfg : LCfg) (R : LEnv) (k base : Nat) (L : Vars) (regs : Regs) (ps : List MVal) (m : Mem ω) : Prop where
  loc : ∀ id v, L id = some v → ∃ var p, cfg.var id = some var ∧ R.refs id = some p ∧ R.isGlobal id = false ∧ Below k p ∧
    (R.isConst id var = true → operand regs ps p = some (.val v)) ∧
    (R.isConst id var = false → ∃ r a, p = .reg r ∧ regs r = some (.addr a) ∧ base ≤ a ∧ a < m.next ∧ m.cells a = some (.val v))
  inj : ∀ i j ri rj a, L i ≠ none → L j ≠ none → R.refs i = some (.reg ri) → R.refs j = some (.reg rj) →
    regs ri = some (.addr a) → regs rj = some (.addr a) → i = j
  base : base ≤ m.next

/-- The variables outside functions are in their globals; globals with an initial value have it until the variable is there, those of
constants always. -/
structure GlobRel (cfg : LCfg) (R : LEnv) (G : List LGlobal) (S : SState ω) (m : Mem ω) : Prop where
  world : m.world = S.world
  glob : ∀ id v, S.vars id = some v → ∃ g, R.refs id = some (.global g) ∧ R.isGlobal id = true ∧ m.glob g = some (.val v)
  init : ∀ id g var d w, cfg.var id = some var → R.refs id = some (.global g) → R.isGlobal id = true →
    (var.isConst = true ∨ S.vars id = none) → G[g]? = some d → constVal d.init = some w → m.glob g = some (.val w)

/-- Cells below `base` keep their contents. -/
structure Framed (base : Nat) (m m' : Mem ω) : Prop where
  cells : ∀ a, a < base → m'.cells a = m.cells a
  next : m.next ≤ m'.next

theorem Framed.refl {base} (m : Mem ω) : Framed base m m := ⟨fun _ _ => rfl, Nat.le_refl _⟩

theorem Framed.trans {base} {m m' m'' : Mem ω} (h1 : Framed base m m') (h2 : Framed base m' m'') : Framed base m m'' :=
  ⟨fun a h => (h2.cells a h).trans (h1.cells a h), Nat.le_trans h1.next h2.next⟩

theorem Framed.mono {base base'} {m m' : Mem ω} (h : Framed base m m') (hb : base' ≤ base) : Framed base' m m' :=
  ⟨fun a ha => h.cells a (Nat.lt_of_lt_of_le ha hb), h.next⟩

/-- Two steps of an expression. -/
theorem Framed.trans' {m m' m'' : Mem ω} (h1 : Framed m.next m m') (h2 : Framed m'.next m' m'') : Framed m.next m m'' :=
  h1.trans (h2.mono h1.next)

section
variable {cfg : LCfg} {R : LEnv} {G : List LGlobal}

theorem LocRel.mono {k k' base L regs ps} {m : Mem ω} (h : LocRel cfg R k base L regs ps m) (hk : k ≤ k') :
    LocRel cfg R k' base L regs ps m := by
  refine ⟨fun id v hv => ?_, h.inj, h.base⟩
  obtain ⟨var, p, h1, h2, h3, h4, h5⟩ := h.loc id v hv
  exact ⟨var, p, h1, h2, h3, h4.mono hk, h5⟩

/-- Later results and other cells do not matter. -/
theorem LocRel.keep {k base L ps} {regs regs' : Regs} {m m' : Mem ω} (h : LocRel cfg R k base L regs ps m)
    (hr : ∀ r, r < k → regs' r = regs r) (hm : Framed m.next m m') : LocRel cfg R k base L regs' ps m' := by
  have reg : ∀ {i ri}, L i ≠ none → R.refs i = some (.reg ri) → regs' ri = regs ri := by
    intro i ri hi hri
    obtain ⟨v, hv⟩ := Option.ne_none_iff_exists'.1 hi
    obtain ⟨var, p, _, h2, _, h4, _⟩ := h.loc i v hv
    rw [hri] at h2
    cases h2
    exact hr ri (h4 ri rfl)
  refine ⟨fun id v hv => ?_, ?_, Nat.le_trans h.base hm.next⟩
  · obtain ⟨var, p, h1, h2, h3, h4, h5, h6⟩ := h.loc id v hv
    refine ⟨var, p, h1, h2, h3, h4, fun hc => ?_, fun hc => ?_⟩
    · rw [operand_same h4 hr]; exact h5 hc
    · obtain ⟨r, a, rfl, h7, h8, h9, h10⟩ := h6 hc
      exact ⟨r, a, rfl, by rw [hr r (h4 r rfl)]; exact h7, h8, Nat.lt_of_lt_of_le h9 hm.next, by rw [hm.cells a h9]; exact h10⟩
  · intro i j ri rj a hi hj hri hrj h1 h2
    rw [reg hi hri] at h1
    rw [reg hj hrj] at h2
    exact h.inj i j ri rj a hi hj hri hrj h1 h2

theorem Vars.only_some {L L' : Vars} {id v} (h : L.only L' id = some v) : L id ≠ none ∧ L' id = some v := by
  unfold Vars.only at h
  split at h
  · rename_i hs
    exact ⟨fun hn => (by rw [hn] at hs; cases hs), h⟩
  · cases h

theorem Vars.only_ne {L L' : Vars} {id} (h : L.only L' id ≠ none) : L id ≠ none ∧ L' id ≠ none := by
  obtain ⟨v, hv⟩ := Option.ne_none_iff_exists'.1 h
  obtain ⟨h1, h2⟩ := Vars.only_some hv
  exact ⟨h1, by rw [h2]; simp⟩

/-- At the end of a block. -/
theorem LocRel.only {k k' base base' L L' ps ps'} {regs regs' : Regs} {m m' : Mem ω} (h : LocRel cfg R k base L regs ps m)
    (h' : LocRel cfg R k' base' L' regs' ps' m') : LocRel cfg R k base' (L.only L') regs' ps' m' := by
  refine ⟨fun id v hv => ?_, ?_, h'.base⟩
  · obtain ⟨h1, h2⟩ := Vars.only_some hv
    obtain ⟨w, hw⟩ := Option.ne_none_iff_exists'.1 h1
    obtain ⟨_, q, _, h3, _, h4, _⟩ := h.loc id w hw
    obtain ⟨var, p, h5, h6, h7, h8, h9⟩ := h'.loc id v h2
    rw [h3] at h6
    cases h6
    exact ⟨var, q, h5, h3, h7, h4, h9⟩
  · intro i j ri rj a hi hj
    exact h'.inj i j ri rj a (Vars.only_ne hi).2 (Vars.only_ne hj).2

end

section
variable (F : Floats) (ext : List Char → List Val → ω → Option (Val × ω)) (M : List LFunc)

/-- Running from a place on. -/
def RunAt (f : Nat) (p : Place) (regs : Regs) (ps : List MVal) (m : Mem ω) (v : Option Val) (fin : Mem ω) : Prop :=
  ∃ code, blockOf M f p.block = some code ∧ IRun F ext M f (code.drop p.before) regs ps m v fin

/-- Running from `p` comes to `q`. -/
def Goes (f : Nat) (ps : List MVal) (p q : Place) (regs : Regs) (m : Mem ω) (regs' : Regs) (m' : Mem ω) : Prop :=
  ∀ v fin, RunAt F ext M f q regs' ps m' v fin → RunAt F ext M f p regs ps m v fin

variable {F ext M}

theorem Goes.refl {f ps p regs m} : Goes F ext M f ps p p regs m regs m := fun _ _ h => h

theorem Goes.trans {f ps p q r regs m regs' m' regs'' m''} (h1 : Goes F ext M f ps p q regs m regs' m')
    (h2 : Goes F ext M f ps q r regs' m' regs'' m'') : Goes F ext M f ps p r regs m regs'' m'' := fun v fin h => h1 v fin (h2 v fin h)

theorem CodeAt.drop {f p is} (h : CodeAt M f p is) : ∃ code rest, blockOf M f p.block = some code ∧ code.drop p.before = is ++ rest ∧
    code.drop (p.skip is).before = rest := by
  obtain ⟨pre, rest, h1, h2⟩ := h
  refine ⟨_, rest, h1, ?_, ?_⟩
  · rw [List.append_assoc, ← h2, List.drop_left]
  · show List.drop (p.before + is.length) _ = rest
    rw [← h2, ← List.length_append, List.drop_left]

theorem Runs.goes {f ps p is regs m regs' m'} (h : Runs F ext M f ps is regs m regs' m') (hc : CodeAt M f p is) :
    Goes F ext M f ps p (p.skip is) regs m regs' m' := by
  obtain ⟨code, rest, h1, h2, h3⟩ := CodeAt.drop hc
  rintro v fin ⟨code', h4, h5⟩
  have h4 : blockOf M f p.block = some code' := h4
  rw [h1] at h4
  cases h4
  rw [h3] at h5
  exact ⟨code, h1, by rw [h2]; exact h _ _ _ h5⟩

theorem Runs.goesBr {f ps p is regs m regs' m' b} (h : Runs F ext M f ps is regs m regs' m') (hc : CodeAt M f p (is ++ [.br (some b)])) :
    Goes F ext M f ps p (start b) regs m regs' m' := by
  obtain ⟨code, rest, h1, h2, h3⟩ := CodeAt.drop hc
  rintro v fin ⟨code', h4, h5⟩
  refine ⟨code, h1, ?_⟩
  rw [h2, List.append_assoc]
  exact h _ _ _ (.br h4 (by simpa [start] using h5))

theorem goesBr {f ps p regs m b} (hc : CodeAt M f p [.br (some b)]) : Goes (ω := ω) F ext M f ps p (start b) regs m regs m :=
  Runs.goesBr (is := []) .nil hc

theorem Runs.goesCond {f ps p is regs m regs' m' c t e b} (h : Runs F ext M f ps is regs m regs' m')
    (hc : CodeAt M f p (is ++ [.condBr c t e])) (ho : operand regs' ps c = some (.val (.bool b))) :
    Goes F ext M f ps p (start (if b then t else e)) regs m regs' m' := by
  obtain ⟨code, rest, h1, h2, h3⟩ := CodeAt.drop hc
  rintro v fin ⟨code', h4, h5⟩
  refine ⟨code, h1, ?_⟩
  rw [h2, List.append_assoc]
  exact h _ _ _ (.condBr ho h4 (by simpa [start] using h5))

end
end
end Skull
