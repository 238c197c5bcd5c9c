import Verif.Proofs.LVStmt
import Verif.Proofs.LTidy
/-
What holds of the functions at every point of generating code: the registers that may be used in a block are set on every way to it.
-/
namespace Skull.LVer
open Spec

/-- For every block the registers that may be used in it. -/
abbrev Sets : Type := Nat → Nat → Set'

/-- The registers that may be used at the end of a block. -/
def Avs (M : List LFunc) (A : Sets) (F : List LFunc) (f b : Nat) : Set' :=
  fun r τ => ∃ c, blockOf F f b = some c ∧ After M (A f b) c r τ

/-- Two instructions with different numbers. -/
def Differ (i j : LInstr) : Prop := ∀ r, i.dst = some r → j.dst ≠ some r

/-- The functions `F` so far are in order; `M` and `G` are the functions and globals in the end, `n` is the next free number, and there are
`g` globals so far. -/
structure Good (M : List LFunc) (G : List LGlobal) (A : Sets) (F : List LFunc) (n g : Nat) : Prop where
  code : ∀ f b c, blockOf F f b = some c → CodeOk M G f (A f) (A f b) c
  closed : ∀ f b c, blockOf F f b = some c → ∀ i ∈ c, ∀ t ∈ targets i, ∃ c', blockOf F f t = some c'
  zero : ∀ f r τ, ¬ A f 0 r τ
  known : ∀ f b r τ, A f b r τ → Defined M f r τ
  below : ∀ f b c, blockOf F f b = some c → ∀ i ∈ c, ∀ r, i.dst = some r → r < n
  once : ∀ f b c, blockOf F f b = some c → c.Pairwise Differ
  apart : ∀ f b c f' b' c', blockOf F f b = some c → blockOf F f' b' = some c' → ¬ (f' = f ∧ b' = b) → ∀ i ∈ c, ∀ j ∈ c', Differ i j
  globs : ∀ (i : Nat) (x : LGlobal), i < g → G[i]? = some x → GlobOk M G x
  funcs : ∀ (i : Nat) (x : LFunc), i < F.length → M[i]? = some x →
    (∀ ty ∈ x.params, lty ty ≠ .void) ∧ (x.isPrivate = true → ∃ c, blockOf F i 0 = some c)

/-- The sets are the same for the blocks that there are. -/
def Ext (F : List LFunc) (A A' : Sets) : Prop := ∀ f b c, blockOf F f b = some c → A' f b = A f b

/-- Blocks only grow. -/
def Grows (F F' : List LFunc) : Prop := ∀ f b c, blockOf F f b = some c → ∃ rest, blockOf F' f b = some (c ++ rest)

theorem Ext.refl {F A} : Ext F A A := fun _ _ _ _ => rfl
theorem Ext.trans {F F' A A' A''} (h : Ext F A A') (hg : Grows F F') (h' : Ext F' A' A'') : Ext F A A'' := by
  intro f b c hc
  obtain ⟨_, h1⟩ := hg f b c hc
  rw [h' f b _ h1, h f b c hc]

theorem Grows.trans {F F' F''} (h : Grows F F') (h' : Grows F' F'') : Grows F F'' := by
  intro f b c hc
  obtain ⟨r, h1⟩ := h f b c hc
  obtain ⟨r', h2⟩ := h' f b _ h1
  exact ⟨r ++ r', by rw [h2, List.append_assoc]⟩

theorem Avs.grow {M A A' F F' f b r τ} (h : Avs M A F f b r τ) (hg : Grows F F') (he : Ext F A A') : Avs M A' F' f b r τ := by
  obtain ⟨c, h1, h2⟩ := h
  obtain ⟨rest, h3⟩ := hg f b c h1
  refine ⟨_, h3, ?_⟩
  rw [he f b c h1]
  exact After.append.2 (.inl h2)

theorem Avs.base {M A F f b r τ} (h : A f b r τ) (hb : ∃ c, blockOf F f b = some c) : Avs M A F f b r τ := by
  obtain ⟨c, hc⟩ := hb
  exact ⟨c, hc, .inl h⟩

theorem Avs.empty {M A F f b r τ} (hb : blockOf F f b = some []) (h : Avs M A F f b r τ) : A f b r τ := by
  obtain ⟨c, h1, h2⟩ := h
  cases hb.symm.trans h1
  exact After.nil.1 h2

theorem result_dst {M i r τ} (h : resultOf M i = some (r, τ)) : i.dst = some r := by
  cases i with
  | call n g args =>
    simp only [resultOf, Option.map_eq_some_iff] at h
    obtain ⟨x, _, h⟩ := h
    cases h
    rfl
  | _ => cases h <;> rfl

theorem Good.avs {M G A F n g f b r τ} (h : Good M G A F n g) (hg : Grows F M) (ha : Avs M A F f b r τ) : Defined M f r τ := by
  obtain ⟨c, h1, h2 | ⟨i, h2, h3⟩⟩ := ha
  · exact h.known _ _ _ _ h2
  · obtain ⟨rest, h4⟩ := hg f b c h1
    exact ⟨b, _, i, h4, List.mem_append.2 (.inl h2), h3⟩

/-- More code in a block. -/
theorem Good.add {M G A F F' n m g f b c is} (h : Good M G A F n g) (hb : blockOf F f b = some c) (hl : F'.length = F.length)
    (hF : ∀ f' b', blockOf F' f' b' = if f' = f ∧ b' = b then some (c ++ is) else blockOf F f' b')
    (hc : CodeOk M G f (A f) (Avs M A F f b) is) (ht : ∀ i ∈ is, ∀ t ∈ targets i, ∃ c', blockOf F f t = some c') (hn : Nums n is m) :
    Good M G A F' m g := by
  have has : ∀ f' b' c', blockOf F f' b' = some c' → ∃ c'', blockOf F' f' b' = some c'' := by
    intro f' b' c' h1
    rw [hF]
    split
    · exact ⟨_, rfl⟩
    · exact ⟨_, h1⟩
  have hc : CodeOk M G f (A f) (After M (A f b) c) is := by
    refine hc.mono .refl ?_
    rintro r τ ⟨c', h1, h2⟩
    cases hb.symm.trans h1
    exact h2
  have new : ∀ i ∈ is, ∀ f' b' c', blockOf F f' b' = some c' → ∀ j ∈ c', Differ i j ∧ Differ j i := by
    intro i hi f' b' c' h1 j hj
    refine ⟨fun r h2 h3 => ?_, fun r h2 h3 => ?_⟩
    · have := hn.range i hi r h2; have := h.below f' b' c' h1 j hj r h3; omega
    · have := hn.range i hi r h3; have := h.below f' b' c' h1 j hj r h2; omega
  refine ⟨?_, ?_, h.zero, h.known, ?_, ?_, ?_, h.globs, ?_⟩
  · intro f' b' c' h1
    rw [hF] at h1
    split at h1
    · rename_i e
      obtain ⟨rfl, rfl⟩ := e
      cases h1
      exact (h.code _ _ _ hb).append hc
    · exact h.code _ _ _ h1
  · intro f' b' c' h1 i hi t h2
    rw [hF] at h1
    split at h1
    · rename_i e
      obtain ⟨rfl, rfl⟩ := e
      cases h1
      rcases List.mem_append.1 hi with hi | hi
      · obtain ⟨_, h3⟩ := h.closed _ _ _ hb i hi t h2
        exact has _ _ _ h3
      · obtain ⟨_, h3⟩ := ht i hi t h2
        exact has _ _ _ h3
    · obtain ⟨_, h3⟩ := h.closed _ _ _ h1 i hi t h2
      exact has _ _ _ h3
  · intro f' b' c' h1 i hi r hr
    rw [hF] at h1
    split at h1
    · rename_i e
      obtain ⟨rfl, rfl⟩ := e
      cases h1
      rcases List.mem_append.1 hi with hi | hi
      · have := h.below _ _ _ hb i hi r hr; have := hn.le; omega
      · exact (hn.range i hi r hr).2
    · have := h.below _ _ _ h1 i hi r hr; have := hn.le; omega
  · intro f' b' c' h1
    rw [hF] at h1
    split at h1
    · rename_i e
      obtain ⟨rfl, rfl⟩ := e
      cases h1
      rw [List.pairwise_append]
      exact ⟨h.once _ _ _ hb, hn.once, fun i hi j hj => (new j hj _ _ _ hb i hi).2⟩
    · exact h.once _ _ _ h1
  · intro f1 b1 c1 f2 b2 c2 h1 h2 hne i hi j hj
    rw [hF] at h1 h2
    split at h1
    · rename_i e
      cases h1
      split at h2
      · rename_i e'
        exact (hne ⟨e'.1.trans e.1.symm, e'.2.trans e.2.symm⟩).elim
      · obtain ⟨rfl, rfl⟩ := e
        rcases List.mem_append.1 hi with hi | hi
        · exact h.apart _ _ _ _ _ _ hb h2 hne i hi j hj
        · exact (new i hi _ _ _ h2 j hj).1
    · split at h2
      · rename_i e'
        cases h2
        obtain ⟨rfl, rfl⟩ := e'
        rcases List.mem_append.1 hj with hj | hj
        · exact h.apart _ _ _ _ _ _ h1 hb hne i hi j hj
        · exact (new j hj _ _ _ h1 i hi).2
      · exact h.apart _ _ _ _ _ _ h1 h2 hne i hi j hj
  · intro i x hi hx
    obtain ⟨h1, h2⟩ := h.funcs i x (by omega) hx
    refine ⟨h1, fun hp => ?_⟩
    obtain ⟨_, h3⟩ := h2 hp
    exact has _ _ _ h3

theorem gen_length (s : LState) (is n) : (s.gen is n).funcs.length = s.funcs.length := by
  unfold LState.gen
  simp

theorem Good.gen {M G A g} {s : LState} {is n} (h : Good M G A s.funcs s.nextReg g) (hb : HasBlock s)
    (hc : CodeOk M G s.curFn (A s.curFn) (Avs M A s.funcs s.curFn s.curBlock) is) (ht : ∀ i ∈ is, ∀ t ∈ targets i, Has s s.curFn t)
    (hn : Nums s.nextReg is n) : Good M G A (s.gen is n).funcs n g := by
  obtain ⟨c, hb⟩ := hb
  refine h.add hb (gen_length s is n) ?_ hc ht hn
  intro f' b'
  rw [blockOf_gen]
  split
  · rename_i e
    obtain ⟨rfl, rfl⟩ := e
    rw [hb]
    rfl
  · rfl

/-- The sets with one for a new block. -/
def put (A : Sets) (f b : Nat) (P : Set') : Sets := fun f' b' => if f' = f ∧ b' = b then P else A f' b'

theorem put_same {A f b P} : put A f b P f b = P := if_pos ⟨rfl, rfl⟩
theorem put_other {A f b P f' b'} (h : ¬ (f' = f ∧ b' = b)) : put A f b P f' b' = A f' b' := if_neg h

theorem put_ext {A : Sets} {F f b P} (h : blockOf F f b = none) : Ext F A (put A f b P) := by
  intro f' b' c hc
  apply put_other
  rintro ⟨rfl, rfl⟩
  rw [h] at hc
  cases hc

/-- A new block. -/
theorem Good.block {M G A F F' n g f b} {P : Set'} (h : Good M G A F n g) (hl : F.length ≤ F'.length) (hnew : blockOf F f b = none)
    (hF : ∀ f' b', blockOf F' f' b' = if f' = f ∧ b' = b then some [] else blockOf F f' b') (h0 : b = 0 → ∀ r τ, ¬ P r τ)
    (hP : ∀ r τ, P r τ → Defined M f r τ) (hx : ∀ (i : Nat) (x : LFunc), F.length ≤ i → i < F'.length → M[i]? = some x →
      (∀ ty ∈ x.params, lty ty ≠ .void) ∧ (x.isPrivate = true → ∃ c, blockOf F' i 0 = some c)) : Good M G (put A f b P) F' n g := by
  have he : Ext F A (put A f b P) := put_ext hnew
  have has : ∀ f' b' c', blockOf F f' b' = some c' → blockOf F' f' b' = some c' := by
    intro f' b' c' h1
    rw [hF, if_neg]
    · exact h1
    · rintro ⟨rfl, rfl⟩
      rw [hnew] at h1
      cases h1
  have back : ∀ f' b' c', blockOf F' f' b' = some c' → ∀ i ∈ c', blockOf F f' b' = some c' := by
    intro f' b' c' h1 i hi
    rw [hF] at h1
    split at h1
    · cases h1; simp at hi
    · exact h1
  refine ⟨?_, ?_, ?_, ?_, ?_, ?_, ?_, h.globs, ?_⟩
  · intro f' b' c' h1 pre i post e
    have h2 := back _ _ _ h1 i (by rw [e]; simp)
    rw [he _ _ _ h2]
    obtain ⟨h3, h4⟩ := h.code _ _ _ h2 pre i post e
    refine ⟨h3, fun t ht r τ hr => h4 t ht r τ ?_⟩
    obtain ⟨_, h5⟩ := h.closed _ _ _ h2 i (by rw [e]; simp) t ht
    rwa [he _ _ _ h5] at hr
  · intro f' b' c' h1 i hi t ht
    obtain ⟨_, h2⟩ := h.closed _ _ _ (back _ _ _ h1 i hi) i hi t ht
    exact ⟨_, has _ _ _ h2⟩
  · intro f' r τ hr
    unfold put at hr
    split at hr
    · rename_i e
      exact h0 e.2.symm r τ hr
    · exact h.zero _ _ _ hr
  · intro f' b' r τ hr
    unfold put at hr
    split at hr
    · rename_i e
      rw [e.1]
      exact hP r τ hr
    · exact h.known _ _ _ _ hr
  · exact fun f' b' c' h1 i hi => h.below _ _ _ (back _ _ _ h1 i hi) i hi
  · intro f' b' c' h1
    rw [hF] at h1
    split at h1
    · cases h1; exact .nil
    · exact h.once _ _ _ h1
  · exact fun f1 b1 c1 f2 b2 c2 h1 h2 hne i hi j hj => h.apart _ _ _ _ _ _ (back _ _ _ h1 i hi) (back _ _ _ h2 j hj) hne i hi j hj
  · intro i x hi hx'
    by_cases hlt : i < F.length
    · obtain ⟨h1, h2⟩ := h.funcs i x hlt hx'
      refine ⟨h1, fun hp => ?_⟩
      obtain ⟨_, h3⟩ := h2 hp
      exact ⟨_, has _ _ _ h3⟩
    · exact hx i x (by omega) hi hx'

theorem appended_blocks {f b s s'} (ha : Appended f b s s') (f' b' : Nat) :
    blockOf s'.funcs f' b' = if f' = f ∧ b' = b then some [] else blockOf s.funcs f' b' := by
  split
  · rename_i e
    rw [e.1, e.2, ha.empty]
  · rename_i e
    exact ha.same _ _ e

theorem Good.append {M G A g n f b} {s s' : LState} {P : Set'} (h : Good M G A s.funcs n g) (ha : Appended f b s s') (h0 : b ≠ 0)
    (hP : ∀ r τ, P r τ → Defined M f r τ) : Good M G (put A f b P) s'.funcs n g :=
  h.block (by rw [ha.count]; exact Nat.le_refl _) ha.new (appended_blocks ha) (fun h => (h0 h).elim) hP (by
    intro i x h1 h2
    rw [ha.count] at h2
    omega)

/-- Functions have a first block if they have one. -/
theorem has_zero {s : LState} {f b} (h : Has s f b) : Has s f 0 := by
  obtain ⟨c, h⟩ := h
  unfold Has
  unfold blockOf at h ⊢
  cases hf : s.funcs[f]? with
  | none => rw [hf] at h; cases h
  | some x =>
    rw [hf] at h
    have hb : x.blocks[b]? = some c := h
    have := (List.getElem?_eq_some_iff.1 hb).1
    exact ⟨x.blocks[0], List.getElem?_eq_getElem (by omega)⟩

theorem new_pos {s s' : LState} {f b c} (h : Has s f c) (ha : Appended f b s s') : b ≠ 0 := (ne_of_has (has_zero h) ha.new).symm

theorem Appended.grows {f b s s'} (ha : Appended f b s s') : Grows s.funcs s'.funcs :=
  fun f' b' c h => ⟨[], by rw [List.append_nil]; exact ha.keeps h⟩

theorem gen_grows (s : LState) (is n) : Grows s.funcs (s.gen is n).funcs := by
  intro f b c hc
  rw [blockOf_gen]
  split
  · exact ⟨is, by rw [hc]; rfl⟩
  · exact ⟨[], by rw [List.append_nil]; exact hc⟩

theorem jump_grows (s : LState) (r t) : Grows s.funcs (s.jump r t).funcs := by
  cases r with
  | none => exact gen_grows _ _ _
  | some _ => exact fun _ _ c h => ⟨[], by rw [List.append_nil]; exact h⟩

/-- A jump at the end of a block. -/
theorem Good.jump {M G A R} {s : LState} {r t} (h : Good M G A s.funcs s.nextReg s.globals.length) (hb : HasBlock s)
    (he : LExt (s.jump r t) M R G) (h0 : t ≠ 0) (ht : Has s s.curFn t)
    (hA : ∀ r τ, A s.curFn t r τ → Avs M A s.funcs s.curFn s.curBlock r τ) :
    Good M G A (s.jump r t).funcs (s.jump r t).nextReg (s.jump r t).globals.length := by
  cases r with
  | some _ => exact h
  | none =>
    obtain ⟨c, hc⟩ := ht
    obtain ⟨_, hc'⟩ := he.jump_back.code _ _ _ hc
    refine h.gen hb (.one ⟨t, rfl, h0, _, hc'⟩ ?_) ?_ (.no rfl)
    · intro t' h1 r τ h2
      cases List.mem_singleton.1 h1
      exact hA r τ h2
    · intro i hi t' h1
      cases List.mem_singleton.1 hi
      cases List.mem_singleton.1 h1
      exact ⟨c, hc⟩

/-- The code of a condition and the jump that looks at it. -/
theorem cond_ok {cfg : LCfg} (hf : FoldTyped cfg.fold) {R M G f own ds n e is x m A b c} {P : Set'} (h : ECode cfg R n e is x m)
    (hv : Vis cfg M G f R own ds P) (hw : WtE cfg.syms e) (ht : e.type = .prim .bool) (hs : soundE cfg.syms own e = true)
    (hn : ∀ id, e.reads id = true ∨ e.calls id = true → id ∈ ds) (hb : TargetOk M f b) (hc : TargetOk M f c)
    (hB : ∀ r τ, A b r τ → P r τ) (hC : ∀ r τ, A c r τ → P r τ) : CodeOk M G f A P (is ++ [.condBr x.val b c]) := by
  obtain ⟨c1, c2, _⟩ := expr_ok (A := A) hf h hv hw hs hn
  rw [ht] at c2
  refine c1.append (.one ⟨c2, hb, hc⟩ ?_)
  intro t h1 r τ h2
  rcases List.mem_cons.1 h1 with rfl | h1
  · exact .inl (hB r τ h2)
  · cases List.mem_singleton.1 h1
    exact .inl (hC r τ h2)

theorem cond_targets {is : List LInstr} {s : LState} {f x b c n m} (h : Straight n is m) (hb : Has s f b) (hc : Has s f c) :
    ∀ i ∈ is ++ [.condBr x b c], ∀ t ∈ targets i, Has s f t := by
  intro i hi t ht
  rcases List.mem_append.1 hi with hi | hi
  · rw [straight_jumps h i hi] at ht
    simp at ht
  · cases List.mem_singleton.1 hi
    rcases List.mem_cons.1 ht with rfl | ht
    · exact hb
    · cases List.mem_singleton.1 ht
      exact hc

theorem ext_target {s : LState} {M R G f b} (he : LExt s M R G) (h : Has s f b) (h0 : b ≠ 0) : TargetOk M f b := by
  obtain ⟨c, hc⟩ := h
  obtain ⟨_, hc'⟩ := he.code _ _ _ hc
  exact ⟨h0, _, hc'⟩

end Skull.LVer
