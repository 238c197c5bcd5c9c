import Verif.Proofs.LVCode
import Verif.Proofs.LRun
/-
The code of statements without blocks is code that LLVM accepts.
-/
namespace Skull.LVer
open Spec

/- ### Numbers of results -/

/-- The instructions have different numbers, from `n` up to `m`. -/
structure Nums (n : Nat) (is : List LInstr) (m : Nat) : Prop where
  le : n ≤ m
  range : ∀ i ∈ is, ∀ r, i.dst = some r → n ≤ r ∧ r < m
  once : is.Pairwise fun i j => ∀ r, i.dst = some r → j.dst ≠ some r

theorem Nums.nil {n : Nat} : Nums n [] n := ⟨Nat.le_refl _, by simp, .nil⟩
theorem Nums.one {n i} (h : i.dst = some n) : Nums n [i] (n + 1) :=
  ⟨Nat.le_succ _, by simp [h], by simp⟩
theorem Nums.no {n i} (h : i.dst = none) : Nums n [i] n := ⟨Nat.le_refl _, by simp [h], by simp⟩
theorem Nums.append {n m k is js} (h1 : Nums n is m) (h2 : Nums m js k) : Nums n (is ++ js) k := by
  refine ⟨Nat.le_trans h1.le h2.le, ?_, ?_⟩
  · intro i hi r hr
    rcases List.mem_append.1 hi with hi | hi
    · have := h1.range i hi r hr; have := h2.le; omega
    · have := h2.range i hi r hr; have := h1.le; omega
  · rw [List.pairwise_append]
    refine ⟨h1.once, h2.once, fun i hi j hj r hr hr' => ?_⟩
    have := h1.range i hi r hr
    have := h2.range j hj r hr'
    omega

theorem bin_nums {cfg op a b n is v m} (h : BinCode cfg op a b n is v m) : Nums n is m := by
  cases h with
  | fold => exact .nil
  | instr => exact .one rfl

theorem op_nums {cfg o ty a b n is v m} (h : OpCode cfg o ty a b n is v m) : Nums n is m := by
  induction h with
  | bin _ h => exact bin_nums h
  | builtin => exact .one rfl
  | isnt _ h ih => exact ih.append (bin_nums h)

mutual
theorem expr_nums {cfg R n e is x m} : ECode cfg R n e is x m → Nums n is m
  | .load .. => .one rfl
  | .value .. => .nil
  | .const => .nil
  | .call _ h _ => (args_nums h).append (.one rfl)
  | .ref .. => .nil
  | .deref .. => .append (m := n + 1) (.one rfl) (is := [_]) (.one rfl)
  | .not h h' => (expr_nums h).append (bin_nums h')
  | .neg h h' => (expr_nums h).append (op_nums h')
  | .bin h h' h'' => ((expr_nums h).append (expr_nums h')).append (op_nums h'')
theorem args_nums {cfg R n k as is vs m} : ACode cfg R n k as is vs m → Nums n is m
  | .nil => .nil
  | .cons h h' => (expr_nums h).append (args_nums h')
end

theorem stmt_nums {cfg R G f k ann st is k'} (h : SCode cfg R G f k ann st is k') : Nums k.reg is k'.reg := by
  cases h with
  | alias => exact .nil
  | globalConst _ h => exact expr_nums h
  | global _ h => exact (expr_nums h).append (.no rfl)
  | localMut _ _ _ h => exact (expr_nums h).append (.append (is := [_]) (.one rfl) (.no rfl))
  | localConst _ _ _ h => exact expr_nums h
  | assign _ _ h => exact (expr_nums h).append (.no rfl)
  | call h => exact expr_nums h
  | noop => exact .append (is := [_]) (.one rfl) (.no rfl)
  | quiet => exact .nil

theorem stop_nums {cfg R f k ann st is k'} (h : StopCode cfg R f k ann st is k') : Nums k.reg is k'.reg := by
  cases h with
  | retVoid => exact .no rfl
  | ret h => exact (expr_nums h).append (.no rfl)
  | unreachable => exact .no rfl

theorem entry_nums {cfg R i n ps is m} (h : EntryCode cfg R i n ps is m) : Nums n is m := by
  induction h with
  | nil => exact .nil
  | cons _ _ _ _ ih => exact .append (.append (is := [_]) (.one rfl) (.no rfl)) ih

/- ### Jumps -/

/-- No instruction jumps. -/
def NoJumps (is : List LInstr) : Prop := ∀ i ∈ is, targets i = []

theorem straight_jumps {n is m} (h : Straight n is m) : NoJumps is := by
  intro i hi
  have := h.noTerm i hi
  cases i <;> first | rfl | cases this

/- ### Statements -/

theorem var_func {cfg : LCfg} {id v x} (h : cfg.var id = some v) : cfg.func id ≠ some x := by
  unfold LCfg.var at h
  unfold LCfg.func
  intro h'
  split at h
  · rename_i sym hs
    rw [hs] at h'
    split at h
    · rename_i hk
      simp only [hk] at h'
      cases h'
    · cases h
  · cases h

/-- A new variable. -/
theorem Vis.addVar {cfg M G f R own ds P id v p} (h : Vis cfg M G f R own ds P) (hv : cfg.var id = some v) (hr : R.refs id = some p)
    (hx : if R.isGlobal id then ∃ g, p = .global g ∧ g < G.length
      else id ∈ own ∧ ValIs M G f P p (if R.isConst id v then lty v.type else .ptr)) : Vis cfg M G f R own (ds ++ [id]) P := by
  refine ⟨fun id' hd v' p' h1 h2 => ?_, fun id' hd sym fn ref h1 h2 => ?_⟩
  · rcases List.mem_append.1 hd with hd | hd
    · exact h.vars id' hd v' p' h1 h2
    · cases List.mem_singleton.1 hd
      cases hv.symm.trans h1
      cases hr.symm.trans h2
      exact hx
  · rcases List.mem_append.1 hd with hd | hd
    · exact h.funcs id' hd sym fn ref h1 h2
    · cases List.mem_singleton.1 hd
      exact (var_func hv h1).elim

/-- A new function. -/
theorem Vis.addFunc {cfg M G f R own ds P id sym fn ref x} (h : Vis cfg M G f R own ds P) (hf : cfg.func id = some (sym, fn))
    (hr : R.funcRef id = some ref) (hx : M[ref]? = some x) (h1 : x.params = fn.paramTypes) (h2 : x.ret = fn.returnType) :
    Vis cfg M G f R own (ds ++ [id]) P := by
  refine ⟨fun id' hd v' p' k1 k2 => ?_, fun id' hd sym fn ref k1 k2 => ?_⟩
  · rcases List.mem_append.1 hd with hd | hd
    · exact h.vars id' hd v' p' k1 k2
    · cases List.mem_singleton.1 hd
      exact (var_func k1 hf).elim
  · rcases List.mem_append.1 hd with hd | hd
    · exact h.funcs id' hd sym fn ref k1 k2
    · cases List.mem_singleton.1 hd
      cases hf.symm.trans k1
      cases hr.symm.trans k2
      exact ⟨x, hx, h1, h2⟩

/-- Expressions with values are not Void. -/
theorem sound_type {syms own e} (hw : WtE syms e) (hs : soundE syms own e = true) : e.type ≠ .prim .void := by
  cases hw with
  | ident => simp [soundE] at hs; exact hs
  | @const t v h => cases v <;> simp [AExpr.type, Value.type]
  | call => simp [soundE] at hs; exact hs.1
  | @un o r ty k1 k2 =>
    cases o <;> first | (cases k1; done) | (simp [soundE] at hs; exact hs.1) | (simp [soundE] at hs; exact hs)
  | ref => simp [AExpr.type]
  | deref => simp [soundE] at hs; exact hs
  | @bin o l r ty k1 k2 k3 k4 k5 =>
    show ty ≠ _
    generalize r.type = τ at k4
    cases o <;> cases τ <;> (try (rename_i p; cases p)) <;> first | (cases k4; done) | (cases k4; simp)

/-- Constants can be used everywhere. -/
theorem const_val {M G f f' v τ} {P P' : Set'} (hc : v.isConstant = true) (h : ValIs M G f P v τ) : ValIs M G f' P' v τ := by
  cases v <;> first | exact h | cases hc

/-- What is asked of a global. -/
def GlobOk (M : List LFunc) (G : List LGlobal) (g : LGlobal) : Prop :=
  lty g.ty ≠ .void ∧ g.init.isConstant = true ∧ ∀ f, ValIs M G f (fun _ _ => False) g.init (lty g.ty)

theorem stmt_ok {cfg : LCfg} (hf : FoldTyped cfg.fold) {R M G f k ann st is k' loop before child next K ds A l} {P : Set'}
    (h : SCode cfg R G f k ann st is k') (hw : WtNode cfg.syms loop before ann st child next) (hv : Vis cfg M G f R K.own ds P)
    (hs : soundAnn cfg.syms K st ann = true) (hn : ∀ id, names id ann → id ∈ ds) (ho : f ≠ 0 → ∀ id ∈ ann.defs, id ∈ K.own) :
    CodeOk M G f A P is ∧ Vis cfg M G f R K.own (ds ++ lasting l ann) (After M P is) ∧
    ∀ (i : Nat) (g : LGlobal), k.glob ≤ i → i < k'.glob → G[i]? = some g → GlobOk M G g := by
  have names_value : ∀ {e}, ann.value = some e → ∀ id, e.reads id = true ∨ e.calls id = true → id ∈ ds :=
    fun h1 id h2 => hn id (.inl ⟨_, h1, h2⟩)
  have same : ∀ {js}, Vis cfg M G f R K.own ds (After M P js) := hv.mono .refl (fun _ _ h => .inl h)
  cases h with
  | alias => exact ⟨.nil, by simpa [lasting] using same, by intro i g h1 h2; omega⟩
  | globalConst h1 h2 h3 h4 h5 h6 h7 =>
    cases hw with
    | varDef w1 w2 _ _ _ _ w3 _ w4 _ =>
      cases var_of w1 w2 h1
      have he : soundE cfg.syms K.own _ = true := hs
      obtain ⟨c1, c2, _⟩ := expr_ok (A := A) hf h2 hv w4 he (names_value rfl)
      have hlen := (List.getElem?_eq_some_iff.1 h6).1
      refine ⟨c1, same.addVar h1 h4 (by rw [if_pos h5]; exact ⟨_, rfl, hlen⟩), ?_⟩
      intro i g k1 k2 k3
      have : i = k.glob := by simp at k2; omega
      subst this
      cases h6.symm.trans k3
      refine ⟨?_, h3, fun f' => ?_⟩
      · have := lty_void (sound_type w4 he)
        rw [← w3] at this
        exact this
      · rw [← w3] at c2
        exact const_val h3 c2
  | global h1 h2 h3 h4 h5 h6 h7 =>
    cases hw with
    | varDef w1 w2 _ _ _ _ w3 _ w4 _ =>
      cases var_of w1 w2 h1
      have he : soundE cfg.syms K.own _ = true := hs
      obtain ⟨c1, c2, _⟩ := expr_ok (A := A) hf h2 hv w4 he (names_value rfl)
      have hlen := (List.getElem?_eq_some_iff.1 h6).1
      refine ⟨c1.append (.one ⟨⟨_, lty_void (sound_type w4 he), c2⟩, hlen, rfl⟩ (by simp [targets])),
        same.addVar h1 h4 (by rw [if_pos h5]; exact ⟨_, rfl, hlen⟩), ?_⟩
      intro i g k1 k2 k3
      have : i = k.glob := by simp at k2; omega
      subst this
      cases h6.symm.trans k3
      refine ⟨?_, rfl, fun f' => rfl⟩
      have := lty_void (sound_type w4 he)
      rw [← w3] at this
      exact this
  | @localMut _ _ id e v is x n _ h0 h1 h2 h3 h4 h5 h6 =>
    cases hw with
    | varDef w1 w2 _ _ _ _ w3 _ w4 _ =>
      cases var_of w1 w2 h1
      have he : soundE cfg.syms K.own _ = true := hs
      obtain ⟨c1, c2, _⟩ := expr_ok (A := A) hf h3 hv w4 he (names_value rfl)
      have hty := lty_void (sound_type w4 he)
      refine ⟨c1.append (CodeOk.append (is := [_]) (js := [_]) (.one (by rw [← w3] at hty; exact hty) (by simp [targets]))
        (.one ⟨⟨_, hty, val_after c2⟩, .inr ⟨_, .head _, rfl⟩⟩ (by simp [targets]))), ?_, by intro i g h1 h2; simp at h2; omega⟩
      refine same.addVar h1 h4 ?_
      rw [if_neg (by simp [h5]), if_neg (by simp [h2])]
      exact ⟨ho h0 id (by simp [Ann.defs]), .inr ⟨.alloca n v.type, by simp, rfl⟩⟩
  | @localConst _ _ id e v is x n _ h0 h1 h2 h3 h4 h5 h6 =>
    cases hw with
    | varDef w1 w2 _ _ _ _ w3 _ w4 _ =>
      cases var_of w1 w2 h1
      have he : soundE cfg.syms K.own _ = true := hs
      obtain ⟨c1, c2, _⟩ := expr_ok (A := A) hf h3 hv w4 he (names_value rfl)
      refine ⟨c1, ?_, by intro i g h1 h2; simp at h2; omega⟩
      refine same.addVar h1 h4 ?_
      rw [if_neg (by simp [h5]), if_pos h2, w3]
      exact ⟨ho h0 id (by simp [Ann.defs]), c2⟩
  | @assign _ _ id _ _ _ _ _ _ _ h1 h2 h3 h4 =>
    cases hw with
    | assign w1 w2 _ _ _ w3 w4 =>
      cases var_of w1 w2 h1
      have he : soundE cfg.syms K.own _ = true := hs
      obtain ⟨c1, c2, _⟩ := expr_ok (A := A) hf h3 hv w4 he (names_value rfl)
      have hin := hn id (.inr (by simp [Ann.assigns]))
      refine ⟨c1.append (.one ⟨⟨_, lty_void (sound_type w4 he), c2⟩, val_after (hv.place hin h1 h4 (by simp [h2]))⟩ (by simp [targets])), ?_,
        by intro i g h1 h2; simp at h2; omega⟩
      simpa [lasting] using same
  | call h1 =>
    cases hw with
    | call w1 _ =>
      refine ⟨call_ok hf h1 hv w1 hs (names_value rfl), by simpa [lasting] using same, by intro i g h1 h2; simp at h2; omega⟩
  | noop h1 =>
    cases hw with
    | other =>
      refine ⟨CodeOk.append (is := [_]) (js := [_]) (.one (by simp [InstrIs, lty]) (by simp [targets]))
        (.one ⟨⟨.i64, by simp, rfl⟩, .inr ⟨_, .head _, rfl⟩⟩ (by simp [targets])), by simpa [lasting] using same,
        by intro i g h1 h2; simp at h2; omega⟩
  | quiet h1 =>
    have : lasting l ann = [] := by
      rcases h1 with rfl | rfl | rfl <;> cases hw <;> rfl
    rw [this]
    exact ⟨.nil, by simpa using same, by intro i g h1 h2; omega⟩

theorem stop_ok {cfg : LCfg} (hf : FoldTyped cfg.fold) {R M G f k ann st is k' loop before child next K ds A} {P : Set'}
    (h : StopCode cfg R f k ann st is k') (hw : WtNode cfg.syms loop before ann st child next) (hv : Vis cfg M G f R K.own ds P)
    (hs : soundAnn cfg.syms K st ann = true) (hn : ∀ id, names id ann → id ∈ ds) (hr : ∃ x, M[f]? = some x ∧ x.ret = K.ret) :
    CodeOk M G f A P is := by
  obtain ⟨x, h1, h2⟩ := hr
  cases h with
  | retVoid =>
    have : K.ret = .prim .void := by simpa [soundAnn] using hs
    exact .one ⟨x, h1, by rw [h2, this]; rfl⟩ (by simp [targets])
  | ret h3 =>
    simp only [soundAnn, Bool.and_eq_true, decide_eq_true_eq] at hs
    cases hw with
    | retValue _ w1 _ =>
      obtain ⟨c1, c2, _⟩ := expr_ok (A := A) hf h3 hv w1 hs.1 (fun id h => hn id (.inl ⟨_, rfl, h⟩))
      refine c1.append (.one ⟨x, h1, ?_, ?_⟩ (by simp [targets]))
      · rw [h2, ← hs.2]; exact lty_void (sound_type w1 hs.1)
      · rw [h2, ← hs.2]; exact c2
  | unreachable => exact .one trivial (by simp [targets])

end Skull.LVer
