import Verif.Proofs.LVGood
/-
The code of a program is code that LLVM accepts.
-/
namespace Skull.LVer
open Spec

/-- One set is in another one. -/
def Sub (P Q : Set') : Prop := ∀ r τ, P r τ → Q r τ

theorem Sub.trans {P Q S} (h : Sub P Q) (h' : Sub Q S) : Sub P S := fun r τ hr => h' r τ (h r τ hr)
theorem Sub.refl {P} : Sub P P := fun _ _ h => h
theorem Sub.of {P Q : Set'} (h : P = Q) : Sub P Q := by rw [h]; exact .refl

/-- The state is in order. -/
abbrev GoodAt (M : List LFunc) (G : List LGlobal) (A : Sets) (s : LState) : Prop := Good M G A s.funcs s.nextReg s.globals.length

/-- The registers that may be used where the builder is. -/
abbrev Cur (M : List LFunc) (A : Sets) (s : LState) : Set' := Avs M A s.funcs s.curFn s.curBlock

theorem grow_grows {T ds s s'} (h : LGrow T ds s s') : Grows s.funcs s'.funcs := h.grow

theorem GoodAt.append {M G A R} {s s' : LState} {f b c} {P : Set'} (h : GoodAt M G A s) (ha : Appended f b s s') (he : LExt s M R G) (hc : Has s f c)
    (hP : ∃ c, Sub P (Avs M A s.funcs f c)) : GoodAt M G (put A f b P) s' := by
  unfold GoodAt
  rw [ha.nextReg, ha.globals]
  obtain ⟨d, hP⟩ := hP
  exact Good.append h ha (new_pos hc ha) (fun r τ hr => h.avs he.code (hP r τ hr))

theorem GoodAt.append' {M G A} {s s' : LState} {f b c d} {P : Set'} (h : GoodAt M G A s) (ha : Appended f b s s') (hc : Has s f c)
    (hP : P = A f d) : GoodAt M G (put A f b P) s' := by
  unfold GoodAt
  rw [ha.nextReg, ha.globals]
  subst hP
  exact Good.append h ha (new_pos hc ha) (fun r τ hr => h.known _ _ _ _ hr)

theorem put_keep {A : Sets} {f b x} {P : Set'} (h : A f x = P) : put A f b P f x = P := by
  unfold put
  split
  · rfl
  · exact h

theorem avs_has {M A} {s : LState} {f b} (h : Has s f b) : Sub (A f b) (Avs M A s.funcs f b) := fun _ _ hr => .base hr h

theorem avs_grow {M A A' F F' f b} (hg : Grows F F') (he : Ext F A A') : Sub (Avs M A F f b) (Avs M A' F' f b) := fun _ _ h => h.grow hg he

theorem ext_has {A A'} {s : LState} {f b} (h : Ext s.funcs A A') (hb : Has s f b) : A' f b = A f b := by
  obtain ⟨c, hc⟩ := hb
  exact h f b c hc

theorem avs_gen {M A} {s : LState} {is n} (hb : HasBlock s) :
    Sub (After M (Cur M A s) is) (Avs M A (s.gen is n).funcs s.curFn s.curBlock) := by
  obtain ⟨c, hc⟩ := hb
  intro r τ h
  refine ⟨c ++ is, blockOf_gen_cur hc, After.append.2 ?_⟩
  refine h.imp ?_ (fun h => h)
  rintro ⟨c', h1, h2⟩
  cases hc.symm.trans h1
  exact h2

theorem Good.globals {M G A F n g g'} (h : Good M G A F n g)
    (hg : ∀ (i : Nat) (x : LGlobal), g ≤ i → i < g' → G[i]? = some x → GlobOk M G x) : Good M G A F n g' := by
  refine ⟨h.code, h.closed, h.zero, h.known, h.below, h.once, h.apart, ?_, h.funcs⟩
  intro i x hi hx
  by_cases hlt : i < g
  · exact h.globs i x hlt hx
  · exact hg i x (by omega) hi hx

/- ### What is known when code is generated -/

/-- The registers that may be used after what comes now. -/
def Base (M : List LFunc) (A : Sets) (s : LState) : LMode → Set'
  | .stmts => Cur M A s
  | .afterIf _ f _ _ fin => A f fin

/-- Of an `if` whose condition is not there yet. -/
def IfOk (cfg : LCfg) (M : List LFunc) (A : Sets) (s : LState) (own ds : List Nat) : LMode → Prop
  | .stmts => True
  | .afterIf cond f entry b fin => WtE cfg.syms cond ∧ cond.type = .prim .bool ∧ soundE cfg.syms own cond = true ∧
    (∀ id, cond.reads id = true ∨ cond.calls id = true → id ∈ ds) ∧ b ≠ 0 ∧ fin ≠ 0 ∧ Has s f b ∧
    Sub (A f b) (Avs M A s.funcs f entry) ∧ Sub (A f fin) (Avs M A s.funcs f entry)

/-- `break` and `continue` jump to blocks of the function. -/
def LoopsOk (A : Sets) (s : LState) (B : Set') (ok : Bool) : Prop :=
  ok = true → ∃ a c, s.whileCond = some a ∧ s.whileEnd = some c ∧ a ≠ 0 ∧ c ≠ 0 ∧ Has s s.curFn a ∧ Has s s.curFn c ∧
    Sub (A s.curFn a) B ∧ Sub (A s.curFn c) B

theorem LoopsOk.later {A A' s s' B B' ok ok'} (h : LoopsOk A s B ok) (ho : ok' = true → ok = true)
    (hl : ok' = true → s'.whileCond = s.whileCond ∧ s'.whileEnd = s.whileEnd) (hf : s'.curFn = s.curFn) (hg : Grows s.funcs s'.funcs)
    (he : Ext s.funcs A A') (hB : Sub B B') : LoopsOk A' s' B' ok' := by
  intro hok
  obtain ⟨a, c, h1, h2, h3, h4, h5, h6, h7, h8⟩ := h (ho hok)
  have l := hl hok
  refine ⟨a, c, l.1.trans h1, l.2.trans h2, h3, h4, ?_, ?_, ?_, ?_⟩
  · obtain ⟨_, k⟩ := h5; obtain ⟨_, k⟩ := hg _ _ _ k; rw [hf]; exact ⟨_, k⟩
  · obtain ⟨_, k⟩ := h6; obtain ⟨_, k⟩ := hg _ _ _ k; rw [hf]; exact ⟨_, k⟩
  · rw [hf, ext_has he h5]; exact h7.trans hB
  · rw [hf, ext_has he h6]; exact h8.trans hB

theorem LoopsOk.no {A s B} : LoopsOk A s B false := by intro h; cases h

/-- Of the function that the code is in. -/
structure KOk (M : List LFunc) (K : Around) (f : Nat) (ds : List Nat) : Prop where
  out : K.inFunc = false → K.own = [] ∧ f = 0
  own : f ≠ 0 → ∀ id ∈ ds, id ∈ K.own
  ret : ∃ x, M[f]? = some x ∧ x.ret = K.ret

theorem KOk.sub {M K f ds ds'} (h : KOk M K f ds) (hd : ∀ id ∈ ds', id ∈ ds) : KOk M K f ds' :=
  ⟨h.out, fun hf id hi => h.own hf id (hd id hi), h.ret⟩

/-- What holds after the code is there. -/
def Done (cfg : LCfg) (M : List LFunc) (R : LEnv) (G : List LGlobal) (A : Sets) (s s' : LState) (B : Set') (own ds : List Nat) (t : ATree)
    (r : Option (Option Ty)) : Prop :=
  ∃ A', Ext s.funcs A A' ∧ GoodAt M G A' s' ∧ Sub B (Cur M A' s') ∧ (r = none → Vis cfg M G s'.curFn R own (ds ++ outer t) (Cur M A' s'))

theorem Done.before {cfg M R G A A₁ s s₁ s' B B₁ own ds ds₁ t t₁ r} (h : Done cfg M R G A₁ s₁ s' B₁ own ds₁ t₁ r)
    (hg : Grows s.funcs s₁.funcs) (he : Ext s.funcs A A₁) (hB : Sub B B₁) (hd : r = none → ∀ id ∈ ds ++ outer t, id ∈ ds₁ ++ outer t₁) :
    Done cfg M R G A s s' B own ds t r := by
  obtain ⟨A', h1, h2, h3, h4⟩ := h
  exact ⟨A', he.trans hg h1, h2, hB.trans h3, fun hr => (h4 hr).sub (hd hr)⟩

theorem Sub.vis {cfg M G f R own ds P Q} (hs : Sub P Q) (h : Vis cfg M G f R own ds P) : Vis cfg M G f R own ds Q := h.mono .refl hs

/- ### Parameters -/

theorem entry_ok {cfg : LCfg} {R M G f i n ps is m A} {x : LFunc} {P : Set'} (h : EntryCode cfg R i n ps is m) (hx : M[f]? = some x)
    (hp : ∀ (j p : Nat), ps[j]? = some p → ∃ ty v, x.params[i + j]? = some ty ∧ cfg.var p = some v ∧ v.type = ty ∧ lty ty ≠ .void) :
    CodeOk M G f A P is := by
  induction h generalizing P with
  | nil => exact .nil
  | @cons i n p ps v is m h1 h2 h3 _ ih =>
    obtain ⟨ty, v', k1, k2, k3, k4⟩ := hp 0 p rfl
    cases h1.symm.trans k2
    refine CodeOk.append (is := [_, _]) (CodeOk.append (is := [_]) (js := [_]) (.one (by rw [← k3] at k4; exact k4) (by simp [targets]))
      (.one ⟨⟨_, k4, x, ty, hx, k1, rfl⟩, .inr ⟨_, .head _, rfl⟩⟩ (by simp [targets]))) (ih ?_)
    intro j q hq
    have := hp (j + 1) q (by simpa using hq)
    rw [show i + 1 + j = i + (j + 1) by omega]
    exact this

theorem entry_reg {cfg : LCfg} {R i n ps is m} (M : List LFunc) (h : EntryCode cfg R i n ps is m) :
    ∀ p ∈ ps, ∃ r, R.refs p = some (.reg r) ∧ R.spilled p = true ∧ ∃ j ∈ is, resultOf M j = some (r, .ptr) := by
  induction h with
  | nil => simp
  | @cons i n p ps v is m h1 h2 h3 _ ih =>
    intro q hq
    rcases List.mem_cons.1 hq with rfl | hq
    · exact ⟨n, h2, h3, _, .head _, rfl⟩
    · obtain ⟨r, k1, k2, j, k3, k4⟩ := ih q hq
      exact ⟨r, k1, k2, j, by simp [k3], k4⟩

theorem enter_blocks {s : LState} {sym f id ps} (f' b' : Nat) : blockOf (s.enter sym f id ps).funcs f' b' =
    if f' = s.funcs.length ∧ b' = 0 then some [] else blockOf s.funcs f' b' := by
  unfold LState.enter LState.addFunc blockOf
  simp only [List.getElem?_append]
  by_cases hlt : f' < s.funcs.length
  · rw [if_pos hlt, if_neg (by omega)]
  · rw [if_neg hlt]
    have hn : s.funcs[f']? = none := List.getElem?_eq_none (by omega)
    by_cases he : f' = s.funcs.length
    · subst he
      rw [hn]
      cases b' <;> simp
    · rw [if_neg (by omega), hn, List.getElem?_eq_none (by simp; omega)]

theorem addFunc_blocks {s : LState} {sym f id} (f' b' : Nat) : blockOf (s.addFunc sym f id []).funcs f' b' = blockOf s.funcs f' b' := by
  unfold LState.addFunc blockOf
  simp only [List.getElem?_append]
  by_cases hlt : f' < s.funcs.length
  · rw [if_pos hlt]
  · rw [if_neg hlt]
    have hn : s.funcs[f']? = none := List.getElem?_eq_none (by omega)
    rw [hn]
    by_cases he : f' = s.funcs.length
    · subst he
      simp
    · rw [List.getElem?_eq_none (by simp; omega)]

end Skull.LVer
