import Verif.Proofs.LSimRun
/-
Running the code of expressions.
-/
namespace Skull
open Spec

section
variable {ω : Type} {cfg : LCfg} {R : LEnv} {G : List LGlobal} {M : List LFunc} {F : Floats} {c : RunCtx ω}

theorem un_type {o a ty x z} (h : (safeArith F).un o a x = some z) (ht : unType o a = some ty) :
    (o = .not ∧ ty = .prim .bool) ∨ (o = .unaryNeg ∧ ty = a) := by
  unfold unType at ht
  split at ht
  · cases ht; exact .inr ⟨rfl, rfl⟩
  · cases ht; exact .inr ⟨rfl, rfl⟩
  · cases ht; exact .inl ⟨rfl, rfl⟩
  · cases ht

theorem un_ref {o ty x z} (h : (safeArith F).un o ty x = some z) : o ≠ .ref ∧ o ≠ .deref := by
  have h : (if safeUn F o x then docUn F o ty x else none) = some z := h
  split at h
  · unfold docUn at h
    split at h <;> first | (cases h; done) | exact ⟨by simp, by simp⟩
  · cases h

theorem resultFor_type {o a ty} (h : binType o a = some ty) : resultFor o (some a) = some ty := by
  unfold binType at h
  split at h <;> first | (cases h; rfl) | cases h

theorem operands_cons {regs ps x xs v vs} (h1 : operand regs ps x = some v) (h2 : operands regs ps xs = some vs) :
    operands regs ps (x :: xs) = some (v :: vs) := by
  simp only [operands, h1, h2]

theorem sim_expr (hl : CodeOf cfg R G M F c) {n} (ih : SimAt cfg R G M F c n)
    {e L S v S' base N is x N' regs ps f} {m : Mem ω} (h : evalE c (n + 1) e L S = some (v, S')) (hc : ECode cfg R N e is x N')
    (hw : WtE cfg.syms e) (hL : LocRel cfg R N base L regs ps m) (hG : GlobRel cfg R G S m) :
    ∃ regs' m', Runs F c.ext M f ps is regs m regs' m' ∧ operand regs' ps x.val = some (.val v) ∧ Below N' x.val ∧ x.ty = some e.type ∧
      (∀ r, r < N → regs' r = regs r) ∧ GlobRel cfg R G S' m' ∧ Framed m.next m m' := by
  have var_ty : ∀ {t id ty cc var}, WtE cfg.syms (.ident t id ty cc) → cfg.var id = some var → var.type = ty := by
    intro t id ty cc var hw hv
    cases hw with
    | ident h1 h2 =>
      unfold LCfg.var at hv
      rw [h1] at hv
      simp only [h2] at hv
      cases hv
      rfl
  cases hc with
  | @load _ t id ty cc var p h1 h2 h3 =>
    have hty := var_ty hw h1
    simp only [evalE] at h
    have key : S' = S ∧ ∃ q, operand regs ps p = some q ∧ m.read q = some (.val v) := by
      split at h
      · rename_i w hw'
        cases h
        obtain ⟨var', p', h4, h5, h6, h7, h8, h9⟩ := hL.loc id _ hw'
        rw [h1] at h4
        cases h4
        rw [h2] at h5
        cases h5
        rw [h6] at h3
        have h3 : R.isConst id var = false := by simpa using h3
        obtain ⟨r, a, rfl, h10, h11, h12, h13⟩ := h9 h3
        exact ⟨rfl, _, h10, h13⟩
      · split at h
        · rename_i w hw'
          cases h
          obtain ⟨g, h4, h5, h6⟩ := hG.glob id _ hw'
          rw [h2] at h4
          cases h4
          exact ⟨rfl, _, rfl, h6⟩
        · cases h
    obtain ⟨rfl, q, h4, h5⟩ := key
    refine ⟨regs.set N (.val v), m, .one ?_, Regs.set_same, ?_, by rw [hty]; rfl, Regs.set_below, hG, .refl _⟩
    · simp only [step, h4, h5]
    · rintro r h; cases h; omega
  | @value _ t id ty cc var p h1 h2 h3 =>
    have hty := var_ty hw h1
    simp only [evalE] at h
    split at h
    · rename_i w hw'
      cases h
      obtain ⟨var', p', h4, h5, h6, h7, h8, h9⟩ := hL.loc id _ hw'
      rw [h1] at h4
      cases h4
      rw [h2] at h5
      cases h5
      rw [h6] at h3
      exact ⟨regs, m, .nil, h8 (by simpa using h3), h7, by rw [hty]; rfl, fun _ _ => rfl, hG, .refl _⟩
    · split at h
      · rename_i w hw'
        cases h
        obtain ⟨g, h4, h5, h6⟩ := hG.glob id _ hw'
        rw [h5] at h3
        cases h3
      · cases h
  | const =>
    simp only [evalE] at h
    cases h
    refine ⟨regs, m, .nil, operand_const ?_, ?_, rfl, fun _ _ => rfl, hG, .refl _⟩
    · rename_i v
      cases v <;> rfl
    · rename_i v
      rintro r hr
      cases v <;> cases hr
  | @call _ t args id ty sym fn is as k ref h1 h2 h3 =>
    simp only [evalE] at h
    split at h
    · rename_i vs S₁ he
      cases hw with
      | @call _ _ _ sym' fn' h4 h5 h6 h7 =>
        have : fn' = fn := by
          unfold LCfg.func at h1
          rw [h4] at h1
          simp only [h5] at h1
          cases h1
          rfl
        subst this
        rw [h6] at h2
        obtain ⟨regs₁, m₁, r1, o1, u1, s1, g1, f1⟩ := ih.args he h2 h7 hL hG (f := f)
        obtain ⟨m₂, c2, g2, f2⟩ := ih.call h h3 g1
        refine ⟨regs₁.set k (.val v), m₂, ?_, Regs.set_same, ?_, rfl, ?_, g2, f1.trans' f2⟩
        · intro rest w fin hr
          rw [List.append_assoc]
          exact r1 _ _ _ (.call o1 c2 hr)
        · rintro r h; cases h; omega
        · intro r hr
          rw [Regs.set_below r (Nat.lt_of_lt_of_le hr h2.straight.le), s1 r hr]
    · cases h
  | ref =>
    simp only [evalE] at h
    rw [hl.arith] at h
    split at h
    · split at h
      · rename_i hz
        exact absurd rfl (un_ref hz).1
      · cases h
    · cases h
  | deref =>
    simp only [evalE] at h
    rw [hl.arith] at h
    split at h
    · split at h
      · rename_i hz
        exact absurd rfl (un_ref hz).2
      · cases h
    · cases h
  | @not _ r ty cc is x k js w k' h1 h2 =>
    simp only [evalE] at h
    rw [hl.arith] at h
    split at h
    · rename_i y S₁ he
      split at h
      · rename_i z hz
        cases h
        obtain ⟨ht, hz'⟩ := safe_not hz
        cases hw with
        | un h3 h4 =>
          obtain ⟨regs₁, m₁, r1, o1, u1, t1, s1, g1, f1⟩ := ih.expr he h1 h4 hL hG (f := f)
          obtain ⟨regs₂, r2, o2, u2, s2⟩ := h2.run (ext := c.ext) (M := M) (f := f) (m := m₁) hl.fold o1 (operand_const (v := .bool true) rfl) hz'
          refine ⟨regs₂, m₁, r1.append r2, o2, u2, ?_, ?_, g1, f1⟩
          · rcases un_type hz h3 with ⟨_, rfl⟩ | ⟨h, _⟩
            · rfl
            · cases h
          · intro r hr
            rw [s2 r (Nat.lt_of_lt_of_le hr h1.straight.le), s1 r hr]
      · cases h
    · cases h
  | @neg _ r ty cc is x k js w k' h1 h2 =>
    simp only [evalE] at h
    rw [hl.arith] at h
    split at h
    · rename_i y S₁ he
      split at h
      · rename_i z hz
        cases h
        obtain ⟨w0, hw0, hop⟩ := safe_neg hz
        cases hw with
        | un h3 h4 =>
          obtain ⟨regs₁, m₁, r1, o1, u1, t1, s1, g1, f1⟩ := ih.expr he h1 h4 hL hG (f := f)
          rw [t1] at h2
          obtain ⟨regs₂, r2, o2, u2, s2⟩ := h2.run (ext := c.ext) (M := M) (f := f) (m := m₁) hl.fold (operand_const hw0) o1 hop
          refine ⟨regs₂, m₁, r1.append r2, o2, u2, ?_, ?_, g1, f1⟩
          · rcases un_type hz h3 with ⟨h, _⟩ | ⟨_, rfl⟩
            · cases h
            · exact t1
          · intro r hr
            rw [s2 r (Nat.lt_of_lt_of_le hr h1.straight.le), s1 r hr]
      · cases h
    · cases h
  | @bin _ o l r ty cc is x k js y k' ks w k'' h1 h2 h3 =>
    simp only [evalE] at h
    rw [hl.arith] at h
    split at h
    · rename_i vx S₁ he1
      split at h
      · rename_i vy S₂ he2
        split at h
        · rename_i z hz
          cases h
          cases hw with
          | bin w1 w2 w3 w4 _ =>
            obtain ⟨regs₁, m₁, r1, o1, u1, t1, s1, g1, f1⟩ := ih.expr he1 h1 w1 hL hG (f := f)
            obtain ⟨regs₂, m₂, r2, o2, u2, t2, s2, g2, f2⟩ := ih.expr he2 h2 w2
              ((hL.keep s1 f1).mono h1.straight.le) g1 (f := f)
            rw [t2] at h3
            obtain ⟨regs₃, r3, o3, u3, s3⟩ := h3.run (ext := c.ext) (M := M) (f := f) (m := m₂) hl.fold
              (by rw [operand_same u1 s2]; exact o1) o2 (safe_bin hz)
            refine ⟨regs₃, m₂, (r1.append r2).append r3, o3, u3, ?_, ?_, g2, f1.trans' f2⟩
            · rw [t2]; exact resultFor_type w4
            · intro r hr
              have l1 := h1.straight.le
              have l2 := h2.straight.le
              rw [s3 r (by omega), s2 r (by omega), s1 r hr]
        · cases h
      · cases h
    · cases h

theorem operands_same {n : Nat} {regs regs' : Regs} {ps} : ∀ {xs : List LVal}, (∀ x ∈ xs, Below n x) → (∀ r, r < n → regs' r = regs r) →
    operands regs' ps xs = operands regs ps xs
  | [], _, _ => rfl
  | x :: xs, hx, hr => by
    simp only [operands]
    rw [operand_same (hx x (List.mem_cons_self ..)) hr, operands_same (fun y hy => hx y (List.mem_cons_of_mem _ hy)) hr]

theorem sim_args {n} (ih : SimAt cfg R G M F c n)
    {as L S vs S' base N is xs N' tys regs ps f} {m : Mem ω} (h : evalA c (n + 1) as L S = some (vs, S'))
    (hc : ACode cfg R N tys.length as is xs N') (hw : WtA cfg.syms tys as) (hL : LocRel cfg R N base L regs ps m) (hG : GlobRel cfg R G S m) :
    ∃ regs' m', Runs F c.ext M f ps is regs m regs' m' ∧ operands regs' ps xs = some (vs.map .val) ∧ (∀ x ∈ xs, Below N' x) ∧
      (∀ r, r < N → regs' r = regs r) ∧ GlobRel cfg R G S' m' ∧ Framed m.next m m' := by
  cases hw with
  | nil =>
    cases hc
    simp only [evalA] at h
    cases h
    exact ⟨regs, m, .nil, rfl, by simp, fun _ _ => rfl, hG, .refl _⟩
  | more =>
    simp only [evalA] at h
    cases h
  | cons w1 w2 w3 =>
    cases hc with
    | @cons _ _ _ _ _ _ _ k _ _ _ h1 h2 =>
      simp only [evalA] at h
      split at h
      · rename_i v S₁ he1
        split at h
        · rename_i vs S₂ he2
          cases h
          obtain ⟨regs₁, m₁, r1, o1, u1, t1, s1, g1, f1⟩ := ih.expr he1 h1 w1 hL hG (f := f)
          obtain ⟨regs₂, m₂, r2, o2, u2, s2, g2, f2⟩ := ih.args he2 h2 w3 ((hL.keep s1 f1).mono h1.straight.le) g1 (f := f)
          refine ⟨regs₂, m₂, r1.append r2, ?_, ?_, ?_, g2, f1.trans' f2⟩
          · exact operands_cons (by rw [operand_same u1 s2]; exact o1) o2
          · intro y hy
            rcases List.mem_cons.1 hy with rfl | hy
            · exact u1.mono h2.straight.le
            · exact u2 y hy
          · intro r hr
            rw [s2 r (Nat.lt_of_lt_of_le hr h1.straight.le), s1 r hr]
        · cases h
      · cases h

theorem lookup_zip : ∀ {ps : List Nat} {vs : List Val} {id v}, (ps.zip vs).lookup id = some v → ∃ i : Nat, ps[i]? = some id ∧ vs[i]? = some v
  | [], _, _, _, h => by simp at h
  | _ :: _, [], _, _, h => by simp at h
  | p :: ps, w :: vs, id, v, h => by
    simp only [List.zip_cons_cons, List.lookup_cons] at h
    split at h
    · rename_i heq
      cases h
      exact ⟨0, by simpa using (beq_iff_eq.1 heq).symm, rfl⟩
    · obtain ⟨i, h1, h2⟩ := lookup_zip h
      exact ⟨i + 1, h1, h2⟩

theorem find_decl {l : List (Nat × List Nat × ATree)} {id d} (h : l.find? (·.1 = id) = some d) : (id, d.2.1, d.2.2) ∈ l := by
  have h1 := List.find?_some h
  simp only [decide_eq_true_eq] at h1
  subst h1
  exact List.mem_of_find?_eq_some h

end
end Skull
