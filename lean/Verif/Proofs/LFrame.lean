import Verif.Spec.Declared
import Verif.Proofs.LCode
import Verif.Spec.Flow
import Verif.Spec.Checked
/-
What generating code for statements leaves as it is.
-/
namespace Skull
open Spec

/- ### Blocks -/

theorem blockOf_modify (M : List LFunc) (g : LFunc → LFunc) (i f b : Nat) :
    blockOf (M.modify i g) f b = if i = f then (M[f]?).bind (fun x => (g x).blocks[b]?) else blockOf M f b := by
  unfold blockOf
  rw [List.getElem?_modify]
  split
  · cases M[f]? <;> rfl
  · simp

theorem blockOf_gen (s : LState) (is : List LInstr) (n f b : Nat) :
    blockOf (s.gen is n).funcs f b = if f = s.curFn ∧ b = s.curBlock then (blockOf s.funcs f b).map (· ++ is) else blockOf s.funcs f b := by
  unfold LState.gen
  simp only
  rw [blockOf_modify]
  unfold blockOf
  by_cases hf : s.curFn = f
  · subst hf
    simp only [true_and, if_true]
    cases s.funcs[s.curFn]? with
    | none => simp
    | some x =>
      simp only [Option.bind_some, List.getElem?_modify]
      by_cases hb : b = s.curBlock
      · simp [hb]
      · simp [hb, Ne.symm hb]
  · rw [if_neg hf, if_neg (by rintro ⟨h, _⟩; exact hf h.symm)]

theorem blockOf_gen_same {s : LState} {is : List LInstr} {n f b : Nat} (h : ¬ (f = s.curFn ∧ b = s.curBlock)) :
    blockOf (s.gen is n).funcs f b = blockOf s.funcs f b := by rw [blockOf_gen, if_neg h]

theorem blockOf_gen_cur {s : LState} {is code : List LInstr} {n : Nat} (h : blockOf s.funcs s.curFn s.curBlock = some code) :
    blockOf (s.gen is n).funcs s.curFn s.curBlock = some (code ++ is) := by
  rw [blockOf_gen, if_pos ⟨rfl, rfl⟩, h]; rfl

/-- A block was added. -/
structure Appended (f b : Nat) (s s' : LState) : Prop where
  new : blockOf s.funcs f b = none
  empty : blockOf s'.funcs f b = some []
  same : ∀ f' b', ¬ (f' = f ∧ b' = b) → blockOf s'.funcs f' b' = blockOf s.funcs f' b'
  rest : s' = { s with funcs := s'.funcs }
  heads : ∀ (i : Nat) (x : LFunc), s.funcs[i]? = some x → ∃ y, s'.funcs[i]? = some y ∧ ({ y with blocks := [] } : LFunc) = { x with blocks := [] } ∧ (i ≠ f → y = x)
  count : s'.funcs.length = s.funcs.length

theorem appendBlock_eq {f b s s'} (h : appendBlock f s = some (b, s')) : Appended f b s s' := by
  unfold appendBlock at h
  split at h
  · rename_i fn hfn
    cases h
    have key : ∀ f' b', blockOf (s.funcs.modify f fun fn => { fn with blocks := fn.blocks ++ [[]] }) f' b' =
        if f' = f ∧ b' = fn.blocks.length then some [] else blockOf s.funcs f' b' := by
      intro f' b'
      rw [blockOf_modify]
      unfold blockOf
      by_cases hf : f = f'
      · subst hf
        simp only [hfn, Option.bind_some, true_and, if_true]
        rw [List.getElem?_append]
        by_cases hb : b' = fn.blocks.length
        · subst hb; simp
        · rw [if_neg hb]
          split
          · rfl
          · rename_i h1
            rw [List.getElem?_eq_none (l := fn.blocks) (by omega)]
            rw [List.getElem?_eq_none]
            simp
            omega
      · rw [if_neg hf, if_neg (by rintro ⟨h, _⟩; exact hf h.symm)]
    refine ⟨?_, ?_, ?_, rfl, ?_, by simp⟩
    · unfold blockOf
      rw [hfn]
      simp
    · simp only [key, and_self, if_true]
    · intro f' b' h
      simp only [key, if_neg h]
    · intro i x hx
      simp only [List.getElem?_modify, hx]
      by_cases hi : f = i
      · exact ⟨{ x with blocks := x.blocks ++ [[]] }, by simp [hi], rfl, fun h => (h hi.symm).elim⟩
      · exact ⟨x, by simp [hi], rfl, fun _ => rfl⟩
  · cases h

theorem bind_positionAt {β : Type} {f b : Nat} {g : Unit → LGen β} {s : LState} {r : β × LState} :
    (positionAt f b >>= g) s = some r ↔ g () { s with curFn := f, curBlock := b } = some r := Iff.rfl

theorem bind_appendBlock {β : Type} {f : Nat} {g : Nat → LGen β} {s : LState} {r : β × LState} :
    (appendBlock f >>= g) s = some r ↔ ∃ b s', appendBlock f s = some (b, s') ∧ g b s' = some r := LGen.bind_eq

theorem bind_currentRef {β : Type} {g : Nat → LGen β} {s : LState} {r : β × LState} :
    (currentRef >>= g) s = some r ↔ ∃ f, s.funcRef s.currentFunc = some f ∧ g f s = some r := by
  unfold currentRef
  constructor
  · intro h
    obtain ⟨f, s', h1, h2⟩ := LGen.bind_eq.1 h
    rw [LGen.bind_get] at h1
    obtain ⟨h3, rfl⟩ := LGen.ofOption_eq.1 h1
    exact ⟨f, h3, h2⟩
  · rintro ⟨f, h1, h2⟩
    exact LGen.bind_eq.2 ⟨f, s, by rw [LGen.bind_get]; exact LGen.ofOption_eq.2 ⟨h1, rfl⟩, h2⟩

/- ### What stays -/

/-- What is known of variables and functions stays known. -/
structure LEnv.Le (a b : LEnv) : Prop where
  refs : ∀ id p, a.refs id = some p → b.refs id = some p ∧ b.isGlobal id = a.isGlobal id ∧ b.spilled id = a.spilled id
  funcs : ∀ id f, a.funcRef id = some f → b.funcRef id = some f

theorem LEnv.Le.isConst {a b : LEnv} (h : a.Le b) {id p v} (hp : a.refs id = some p) : b.isConst id v = a.isConst id v := by
  unfold LEnv.isConst
  rw [(h.refs id p hp).2.2]

theorem LEnv.Le.refl (a : LEnv) : a.Le a := ⟨fun _ _ h => ⟨h, rfl, rfl⟩, fun _ _ h => h⟩
theorem LEnv.Le.trans {a b c : LEnv} (h : a.Le b) (h' : b.Le c) : a.Le c := by
  refine ⟨fun id p h1 => ?_, fun id f h1 => h'.funcs id f (h.funcs id f h1)⟩
  have h2 := h.refs id p h1
  have h3 := h'.refs id p h2.1
  exact ⟨h3.1, h3.2.1.trans h2.2.1, h3.2.2.trans h2.2.2⟩

/-- A function without its blocks. -/
def LFunc.head (f : LFunc) : LFunc := { f with blocks := [] }

/-- The functions are the same but for their blocks, and those without blocks have none. -/
def Heads (M M' : List LFunc) : Prop :=
  ∀ (i : Nat) (x : LFunc), M[i]? = some x → ∃ y, M'[i]? = some y ∧ y.head = x.head ∧ (x.blocks = [] → y.blocks = [])

theorem Heads.refl (M : List LFunc) : Heads M M := fun _ x h => ⟨x, h, rfl, id⟩
theorem Heads.trans {M M' M''} (h : Heads M M') (h' : Heads M' M'') : Heads M M'' := by
  intro i x hx
  obtain ⟨y, h1, h2, h3⟩ := h i x hx
  obtain ⟨z, h4, h5, h6⟩ := h' i y h1
  exact ⟨z, h4, h5.trans h2, fun h => h6 (h3 h)⟩
theorem Heads.length {M M'} (h : Heads M M') : M.length ≤ M'.length := by
  cases hn : M.length with
  | zero => omega
  | succ n =>
    obtain ⟨y, h1, _⟩ := h n M[n] (List.getElem?_eq_getElem (by omega))
    have := (List.getElem?_eq_some_iff.1 h1).1
    omega

theorem gen_heads (s : LState) (is n) : Heads s.funcs (s.gen is n).funcs := by
  intro i x hx
  unfold LState.gen
  simp only [List.getElem?_modify, hx]
  by_cases hi : s.curFn = i
  · refine ⟨{ x with blocks := x.blocks.modify s.curBlock (· ++ is) }, by simp [hi], rfl, ?_⟩
    intro h
    simp [h]
  · exact ⟨x, by simp [hi], rfl, id⟩

/-- What stays when code is generated that may only add to existing blocks in `T`, and declares the symbols `ds`. -/
structure LGrow (T : Nat → Nat → Prop) (ds : List Nat) (s s' : LState) : Prop where
  reg : s.nextReg ≤ s'.nextReg
  globals : ∃ gs, s'.globals = s.globals ++ gs
  grow : ∀ f b code, blockOf s.funcs f b = some code → ∃ rest, blockOf s'.funcs f b = some (code ++ rest)
  same : ∀ f b code, blockOf s.funcs f b = some code → ¬ T f b → blockOf s'.funcs f b = some code
  env : s.env.Le s'.env
  others : ∀ id, id ∉ ds → s'.refs id = s.refs id ∧ s'.funcRef id = s.funcRef id ∧ s'.isGlobal id = s.isGlobal id ∧
    s'.spilled id = s.spilled id
  heads : Heads s.funcs s'.funcs

/-- Also, the builder ends in the same function, in one of these blocks or a new one. -/
structure LFrame (T : Nat → Nat → Prop) (ds : List Nat) (s s' : LState) : Prop extends LGrow T ds s s' where
  fn : s'.curFn = s.curFn
  func : s'.currentFunc = s.currentFunc
  cur : ∃ code, blockOf s'.funcs s'.curFn s'.curBlock = some code
  curT : T s'.curFn s'.curBlock ∨ blockOf s.funcs s'.curFn s'.curBlock = none

/-- The block the builder is at. -/
def Here (s : LState) (f b : Nat) : Prop := f = s.curFn ∧ b = s.curBlock

/-- The block the builder is at exists. -/
def HasBlock (s : LState) : Prop := ∃ code, blockOf s.funcs s.curFn s.curBlock = some code

theorem LGrow.refl {T : Nat → Nat → Prop} {ds : List Nat} {s : LState} : LGrow T ds s s :=
  ⟨Nat.le_refl _, ⟨[], by simp⟩, fun _ _ code h => ⟨[], by simpa using h⟩, fun _ _ _ h _ => h, .refl _,
    fun _ _ => ⟨rfl, rfl, rfl, rfl⟩, .refl _⟩

theorem LGrow.none_of {T ds s s'} (h : LGrow T ds s s') {f b} (hn : blockOf s'.funcs f b = none) : blockOf s.funcs f b = none := by
  cases h1 : blockOf s.funcs f b with
  | none => rfl
  | some code =>
    obtain ⟨rest, h2⟩ := h.grow f b code h1
    rw [hn] at h2
    cases h2

theorem LGrow.trans {T T' ds ds' s s₁ s₂} (h : LGrow T ds s s₁) (h' : LGrow T' ds' s₁ s₂)
    (hT : ∀ f b, T' f b → T f b ∨ blockOf s.funcs f b = none) : LGrow T (ds ++ ds') s s₂ := by
  refine ⟨Nat.le_trans h.reg h'.reg, ?_, ?_, ?_, h.env.trans h'.env, ?_, h.heads.trans h'.heads⟩
  · obtain ⟨g, h1⟩ := h.globals
    obtain ⟨g', h2⟩ := h'.globals
    exact ⟨g ++ g', by rw [h2, h1, List.append_assoc]⟩
  · intro f b code h1
    obtain ⟨r, h2⟩ := h.grow f b code h1
    obtain ⟨r', h3⟩ := h'.grow f b _ h2
    exact ⟨r ++ r', by rw [h3, List.append_assoc]⟩
  · intro f b code h1 h2
    have h3 := h.same f b code h1 h2
    refine h'.same f b code h3 ?_
    intro h4
    rcases hT f b h4 with h5 | h5
    · exact h2 h5
    · rw [h1] at h5; cases h5
  · intro id hid
    simp only [List.mem_append, not_or] at hid
    have h1 := h.others id hid.1
    have h2 := h'.others id hid.2
    exact ⟨h2.1.trans h1.1, h2.2.1.trans h1.2.1, h2.2.2.1.trans h1.2.2.1, h2.2.2.2.trans h1.2.2.2⟩

theorem LGrow.mono {T T' ds ds' s s'} (h : LGrow T ds s s') (hT : ∀ f b, T f b → T' f b ∨ blockOf s.funcs f b = none)
    (hd : ∀ id, id ∈ ds → id ∈ ds') : LGrow T' ds' s s' := by
  refine ⟨h.reg, h.globals, h.grow, fun f b code h1 h2 => h.same f b code h1 (fun h3 => ?_), h.env,
    fun id h1 => h.others id (fun h2 => h1 (hd id h2)), h.heads⟩
  rcases hT f b h3 with h4 | h4
  · exact h2 h4
  · rw [h1] at h4; cases h4

/-- Appending instructions where the builder is. -/
theorem LGrow.gen {s : LState} {is : List LInstr} {n : Nat} (hn : s.nextReg ≤ n) {ds : List Nat} : LGrow (Here s) ds s (s.gen is n) := by
  refine ⟨hn, ⟨[], by simp⟩, ?_, ?_, .refl _, fun _ _ => ⟨rfl, rfl, rfl, rfl⟩, gen_heads _ _ _⟩
  · intro f b code hc
    rw [blockOf_gen]
    split
    · exact ⟨is, by rw [hc]; rfl⟩
    · exact ⟨[], by simpa using hc⟩
  · intro f b code hc hT
    rw [blockOf_gen_same hT, hc]

theorem HasBlock.gen {s : LState} (h : HasBlock s) (is : List LInstr) (n : Nat) : HasBlock (s.gen is n) := by
  obtain ⟨code, h⟩ := h
  exact ⟨_, blockOf_gen_cur h⟩

theorem LFrame.gen {s : LState} (h : HasBlock s) {is : List LInstr} {n : Nat} (hn : s.nextReg ≤ n) {ds : List Nat} :
    LFrame (Here s) ds s (s.gen is n) := ⟨.gen hn, rfl, rfl, h.gen is n, .inl ⟨rfl, rfl⟩⟩

theorem LFrame.refl {ds : List Nat} {s : LState} (h : HasBlock s) : LFrame (Here s) ds s s :=
  ⟨.refl, rfl, rfl, h, .inl ⟨rfl, rfl⟩⟩

theorem LFrame.trans {T T' ds ds' s s₁ s₂} (h : LFrame T ds s s₁) (h' : LFrame T' ds' s₁ s₂)
    (hT : ∀ f b, T' f b → T f b ∨ blockOf s.funcs f b = none) : LFrame T (ds ++ ds') s s₂ := by
  refine ⟨h.toLGrow.trans h'.toLGrow hT, h'.fn.trans h.fn, h'.func.trans h.func, h'.cur, ?_⟩
  rcases h'.curT with h1 | h1
  · exact hT _ _ h1
  · exact .inr (h.none_of h1)

theorem LFrame.mono {T T' ds ds' s s'} (h : LFrame T ds s s') (hT : ∀ f b, T f b → T' f b ∨ blockOf s.funcs f b = none)
    (hd : ∀ id, id ∈ ds → id ∈ ds') : LFrame T' ds' s s' :=
  ⟨h.toLGrow.mono hT hd, h.fn, h.func, h.cur, h.curT.elim (hT _ _) .inr⟩

/-- What may be added to after the first of two steps that began where the builder was. -/
theorem LFrame.here {T ds s s'} (h : LFrame T ds s s') : ∀ f b, Here s' f b → T f b ∨ blockOf s.funcs f b = none := by
  rintro f b ⟨rfl, rfl⟩
  exact h.curT

/-- Adding a block changes nothing else. -/
theorem Appended.grow {f b s s'} (h : Appended f b s s') (hf : ∃ c code, blockOf s.funcs f c = some code) {T : Nat → Nat → Prop} {ds : List Nat} :
    LGrow T ds s s' := by
  have hgrow : ∀ f' b' code, blockOf s.funcs f' b' = some code → blockOf s'.funcs f' b' = some code := by
    intro f' b' code h1
    rw [h.same f' b', h1]
    rintro ⟨rfl, rfl⟩
    rw [h.new] at h1
    cases h1
  have hr := h.rest
  refine ⟨by rw [hr]; exact Nat.le_refl _, ⟨[], by rw [hr]; simp⟩, fun _ _ code h1 => ⟨[], by simpa using hgrow _ _ _ h1⟩,
    fun _ _ _ h1 _ => hgrow _ _ _ h1, by rw [hr]; exact .refl _, fun _ _ => by rw [hr]; exact ⟨rfl, rfl, rfl, rfl⟩, ?_⟩
  intro i x hx
  obtain ⟨y, h1, h2, h3⟩ := h.heads i x hx
  refine ⟨y, h1, h2, ?_⟩
  intro hb
  by_cases hi : i = f
  · subst hi
    obtain ⟨c, code, hc⟩ := hf
    unfold blockOf at hc
    rw [hx] at hc
    simp [hb] at hc
  · rw [h3 hi]; exact hb

theorem Appended.curFn {f b s s'} (h : Appended f b s s') : s'.curFn = s.curFn := by rw [h.rest]
theorem Appended.curBlock {f b s s'} (h : Appended f b s s') : s'.curBlock = s.curBlock := by rw [h.rest]
theorem Appended.currentFunc {f b s s'} (h : Appended f b s s') : s'.currentFunc = s.currentFunc := by rw [h.rest]
theorem Appended.nextReg {f b s s'} (h : Appended f b s s') : s'.nextReg = s.nextReg := by rw [h.rest]
theorem Appended.globals {f b s s'} (h : Appended f b s s') : s'.globals = s.globals := by rw [h.rest]
theorem Appended.env {f b s s'} (h : Appended f b s s') : s'.env = s.env := by rw [h.rest]; rfl
theorem Appended.whileCond {f b s s'} (h : Appended f b s s') : s'.whileCond = s.whileCond := by rw [h.rest]
theorem Appended.whileEnd {f b s s'} (h : Appended f b s s') : s'.whileEnd = s.whileEnd := by rw [h.rest]

theorem Appended.keeps {f b s s'} (h : Appended f b s s') {f' b' code} (h1 : blockOf s.funcs f' b' = some code) :
    blockOf s'.funcs f' b' = some code := by
  rw [h.same f' b', h1]
  rintro ⟨rfl, rfl⟩
  rw [h.new] at h1
  cases h1

end Skull
