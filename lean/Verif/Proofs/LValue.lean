import Verif.Proofs.LSimExpr
import Verif.Spec.CValue
/-
The code of an expression without calls computes its value.
-/
namespace Skull
open Spec

section
variable {ω : Type} {cfg : LCfg} {R : LEnv} {F : Floats} {ρ : Nat → Option Val} {ps : List MVal}

/-- Later results do not matter. -/
theorem Holds.keep {n n' ids} {regs regs' : Regs} {m : Mem ω} (h : Holds cfg R.refs R.isGlobal R.spilled n ρ ids ps regs m)
    (hr : ∀ r, r < n → regs' r = regs r) (hn : n ≤ n') : Holds cfg R.refs R.isGlobal R.spilled n' ρ ids ps regs' m := by
  intro id hid v var p h1 h2 h3
  obtain ⟨h4, h5⟩ := h id hid v var p h1 h2 h3
  refine ⟨fun r hp => Nat.lt_of_lt_of_le (h4 r hp) hn, ?_⟩
  rw [operand_same h4 hr]
  exact h5

theorem Holds.sub {n ids ids'} {regs : Regs} {m : Mem ω} (h : Holds cfg R.refs R.isGlobal R.spilled n ρ ids ps regs m)
    (hs : ∀ id ∈ ids', id ∈ ids) : Holds cfg R.refs R.isGlobal R.spilled n ρ ids' ps regs m := fun id hid => h id (hs id hid)

theorem code_value (hf : FoldSound F cfg.fold) : ∀ {e : AExpr} {N is x N'}, ECode cfg R N e is x N' → WtE cfg.syms e → ∀ {regs : Regs} {m : Mem ω} {v},
    Holds cfg R.refs R.isGlobal R.spilled N ρ (Spec.AExpr.idents e) ps regs m → valueE (safeArith F) ρ e = some v →
    ∃ regs', steps F ps is regs m = some (regs', m) ∧ operand regs' ps x.val = some (.val v) ∧ Below N' x.val ∧ x.ty = some e.type ∧
      ∀ r, r < N → regs' r = regs r := by
  have var_ty : ∀ {t id ty cc var}, WtE cfg.syms (.ident t id ty cc) → cfg.var id = some var → var.type = ty := by
    intro t id ty cc var hw hv
    cases hw with
    | ident h1 h2 =>
      unfold LCfg.var at hv
      rw [h1] at hv
      simp only [h2] at hv
      cases hv
      rfl
  intro e
  induction e using AExpr.rec (motive_2 := fun _ => True) with
  | ident t id ty cc =>
    intro N is x N' hc hw regs m v hh hv
    have hv : ρ id = some v := hv
    cases hc with
    | @load _ _ _ _ _ var p h1 h2 h3 =>
      have hty := var_ty hw h1
      obtain ⟨_, h4⟩ := hh id (by simp [Spec.AExpr.idents]) v var p hv h1 h2
      rw [if_pos (by exact h3)] at h4
      obtain ⟨q, h4, h5⟩ := h4
      refine ⟨regs.set N (.val v), steps_one ?_, Regs.set_same, ?_, by rw [hty]; rfl, Regs.set_below⟩
      · simp only [step, h4, h5]
      · rintro r h; cases h; omega
    | @value _ _ _ _ _ var p h1 h2 h3 =>
      have hty := var_ty hw h1
      obtain ⟨h6, h4⟩ := hh id (by simp [Spec.AExpr.idents]) v var p hv h1 h2
      rw [if_neg (by rw [show (R.isGlobal id || !(var.isConst && !R.spilled id)) = false from h3]; decide)] at h4
      exact ⟨regs, rfl, h4, h6, by rw [hty]; rfl, fun _ _ => rfl⟩
  | const t w =>
    intro N is x N' hc hw regs m v hh hv
    cases hv
    cases hc with
    | const =>
      refine ⟨regs, rfl, operand_const ?_, ?_, rfl, fun _ _ => rfl⟩
      · cases w <;> rfl
      · rintro r hr
        cases w <;> cases hr
  | call => intro N is x N' hc hw regs m v hh hv; cases hv
  | un o r ty cc ih =>
    intro N is x N' hc hw regs m v hh hv
    simp only [valueE] at hv
    split at hv
    rotate_left
    · cases hv
    rename_i y he
    cases hc with
    | ref => exact absurd rfl (un_ref hv).1
    | deref => exact absurd rfl (un_ref hv).2
    | @not _ _ _ _ is x k js w k' h1 h2 =>
      obtain ⟨ht, hz'⟩ := safe_not hv
      cases hw with
      | un h3 h4 =>
        obtain ⟨regs₁, r1, o1, u1, t1, s1⟩ := ih h1 h4 hh he
        obtain ⟨regs₂, r2, o2, u2, s2⟩ := h2.steps (m := m) hf o1 (operand_const (v := .bool true) rfl) hz'
        refine ⟨regs₂, steps_append r1 r2, o2, u2, ?_, ?_⟩
        · rcases un_type hv h3 with ⟨_, rfl⟩ | ⟨h, _⟩
          · rfl
          · cases h
        · intro r hr
          rw [s2 r (Nat.lt_of_lt_of_le hr h1.straight.le), s1 r hr]
    | @neg _ _ _ _ is x k js w k' h1 h2 =>
      obtain ⟨w0, hw0, hop⟩ := safe_neg hv
      cases hw with
      | un h3 h4 =>
        obtain ⟨regs₁, r1, o1, u1, t1, s1⟩ := ih h1 h4 hh he
        rw [t1] at h2
        obtain ⟨regs₂, r2, o2, u2, s2⟩ := h2.steps (m := m) hf (operand_const hw0) o1 hop
        refine ⟨regs₂, steps_append r1 r2, o2, u2, ?_, ?_⟩
        · rcases un_type hv h3 with ⟨h, _⟩ | ⟨_, rfl⟩
          · cases h
          · exact t1
        · intro r hr
          rw [s2 r (Nat.lt_of_lt_of_le hr h1.straight.le), s1 r hr]
  | bin o l r ty cc ihl ihr =>
    intro N is x N' hc hw regs m v hh hv
    simp only [valueE] at hv
    split at hv
    rotate_left
    · cases hv
    rename_i vx vy he1 he2
    cases hc with
    | @bin _ _ _ _ _ _ is x k js y k' ks w k'' h1 h2 h3 =>
      cases hw with
      | bin w1 w2 w3 w4 _ =>
        obtain ⟨regs₁, r1, o1, u1, t1, s1⟩ := ihl h1 w1 (Holds.sub hh (by simp +contextual [Spec.AExpr.idents])) he1
        obtain ⟨regs₂, r2, o2, u2, t2, s2⟩ := ihr h2 w2
          (Holds.keep (Holds.sub hh (by simp +contextual [Spec.AExpr.idents])) s1 h1.straight.le) he2
        rw [t2] at h3
        obtain ⟨regs₃, r3, o3, u3, s3⟩ := h3.steps (m := m) hf (by rw [operand_same u1 s2]; exact o1) o2 (safe_bin hv)
        refine ⟨regs₃, steps_append (steps_append r1 r2) r3, o3, u3, ?_, ?_⟩
        · rw [t2]; exact resultFor_type w4
        · intro r hr
          have l1 := h1.straight.le
          have l2 := h2.straight.le
          rw [s3 r (by omega), s2 r (by omega), s1 r hr]
  | nil => trivial
  | cons => trivial
  | unchecked => trivial

end
end Skull
