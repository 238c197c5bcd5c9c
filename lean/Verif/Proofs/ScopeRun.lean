import Verif.Spec.ScopeRun
import Verif.Proofs.SemSound
/-
Sequences of declarations and blocks keep the invariant.
-/
namespace Skull
open Spec

/-- The blocks around, as they were when the next one began. -/
inductive Pending : SS → Option (Nat × Nat) → Frames → Prop
  | top {s} : Pending s none []
  | block {s s₀ B₀ E₀ i sc f fs} : SInv s₀ B₀ E₀ none → s₀.scope = some i → s₀.scopes[i]? = some sc → E₀.vis = (f :: fs).flatten →
      Frame (opened s₀ i sc) s → Pending s₀ B₀ fs → Pending s (some (s₀.scopes.length, i)) (f :: fs)

theorem Pending.mono {s s' B fs} (h : Pending s B fs) (hf : Frame s s') : Pending s' B fs := by
  cases h with
  | top => exact .top
  | block h1 h2 h3 h4 h5 h6 => exact .block h1 h2 h3 h4 (h5.trans hf) h6

/-- The state represents the blocks and the declarations. -/
def RunInv (s : SS) (fs : Frames) (ds : List Decl) : Prop :=
  ∃ f rest B, fs = f :: rest ∧ SInv s B (runEnv fs ds) none ∧ Pending s B rest

theorem declarable_is {sym : Symbol} (h : Declarable sym) (scopes cur pend n id) :
    SymIs scopes cur pend n id sym.exprType sym.kind (declOf sym) := by
  unfold Declarable at h
  unfold declOf
  cases hk : sym.kind with
  | var v => rw [hk] at h; exact .var fun _ => h
  | func f => rw [hk] at h; exact .func fun _ => ⟨rfl, h⟩
  | alias => exact .alias
  | ns scope => rw [hk] at h; cases h; exact .nsNone

theorem closeBlock_eq {s₂ : SS} {c i si} (hb : BlkAt s₂ c (some i)) (hi : s₂.scopes[i]? = some si) :
    closeBlock s₂ = .ok () (closed s₂ i si) := by
  unfold Spec.closeBlock
  have h3 : resetScopeHead s₂ = .ok () { s₂ with scope := some c } := by
    unfold resetScopeHead; rw [hb.findHead]
  rw [bind_of _ h3]
  have hb' : BlkAt { s₂ with scope := some c } c (some i) := by
    obtain ⟨cur, sc, h1, h2, h3, h4, h5⟩ := hb
    exact ⟨c, sc, rfl, .head, h3, h4, h5⟩
  rw [bind_of _ (restoreParent_eq hb')]
  show makeAdjacentScope { s₂ with scope := some i } = _
  unfold makeAdjacentScope
  simp only [hi]
  rfl

theorem scopeRun_inv {cfg s fs ds} (h : ScopeRun cfg s fs ds) : RunInv s fs ds := by
  induction h with
  | start h =>
    have := (setup_inv h { strtod := cfg.strtod, canImport := fun _ => False, returns := False, strict := False } false).1
    exact ⟨[], [], none, rfl, this, .top⟩
  | @declare s s' sym f fs ds _ hd h ih =>
    obtain ⟨f', rest, B, hf, hi, hp⟩ := ih
    cases hf
    obtain ⟨_, h1, h2, _⟩ := declare_sound hi (declarable_is hd ..) (.inl rfl) h
    refine ⟨_, _, B, rfl, ?_, hp.mono h2⟩
    have hl : s.syms.length = ds.length := hi.len
    rw [hl]
    exact h1
  | @openBlock s s' fs ds _ h ih =>
    obtain ⟨f, rest, B, rfl, hi, hp⟩ := ih
    obtain ⟨h1, h2, _, _, i, sc, h3, h4⟩ := withScope_inv hi
    rw [makeChild_eq hi h3 h4] at h
    cases h
    exact ⟨[], _, _, rfl, opened_inv h1 h3 h4, .block h1 h3 h4 rfl (.refl _) (hp.mono h2)⟩
  | @closeBlock s s' f g fs ds _ h ih =>
    obtain ⟨f', rest, B, hf, hi, hp⟩ := ih
    cases hf
    cases hp with
    | @block _ _ _ E₀ _ _ _ _ h1 h2 h3 h4 h5 h6 =>
      have hu := under_of_frame h2 h3 h5
      rw [closeBlock_eq hi.blk.1 hu.cur] at h
      cases h
      obtain ⟨h7, h8⟩ := closed_inv h1 hu hi
      rw [h4] at h7
      exact ⟨g, fs, _, rfl, h7, h6.mono h8⟩
  | @closeNamespace s s' s'' f g fs ds id _ h hn h' ih =>
    obtain ⟨f', rest, B, hf, hi, hp⟩ := ih
    cases hf
    cases hp with
    | @block _ _ _ E₀ _ _ _ _ h1 h2 h3 h4 h5 h6 =>
      have hu := under_of_frame h2 h3 h5
      rw [closeBlock_eq hi.blk.1 hu.cur] at h
      cases h
      obtain ⟨h7, h8⟩ := closed_inv h1 hu hi
      rw [h4] at h7
      obtain ⟨cur, chain, k1, k2, k3⟩ := blockScope_eq hu hi
      unfold closeNamespace at h'
      rw [k1] at h'
      simp only at h'
      have hlt : id < s.syms.length := by
        rw [hi.len]; exact get_lt hn
      obtain ⟨sym, hsym⟩ : ∃ sym, s.syms[id]? = some sym := ⟨_, List.getElem?_eq_getElem hlt⟩
      obtain ⟨d, m1, m2⟩ := hi.sym _ _ hsym
      have hd : some (Decl.ns []) = some d := hn.symm.trans m1
      cases hd
      have hcore : ({ sym with kind := .ns (some cur) } : Symbol).core = sym.core := by
        unfold Symbol.core
        cases hk : sym.kind with
        | ns => rfl
        | var => rw [hk] at m2; cases m2
        | func => rw [hk] at m2; cases m2
        | alias => rw [hk] at m2; cases m2
      have hsym' : ∀ i si, (closed s i si).syms[id]? = some sym := fun _ _ => hsym
      rw [updSym_eq _ (hsym' _ _)] at h'
      cases h'
      refine ⟨g, fs, _, rfl, ?_, h6.mono (h8.trans (set_frame (hsym' _ _) hcore))⟩
      exact set_inv (sym' := { sym with kind := .ns (some cur) }) h7 (hsym' _ _)
        (.ns k2 (by intro i hi'; cases hi'; exact k3) hi.ids) (.inl rfl)

theorem innermost_eq (x : List Char) : ∀ fs : Frames, innermost fs x = fs.flatten.lookup x
  | [] => rfl
  | f :: fs => by
    rw [List.flatten_cons, List.lookup_append]
    unfold innermost
    rw [innermost_eq x fs]
    cases f.lookup x <;> rfl

end Skull
