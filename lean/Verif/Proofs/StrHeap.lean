import Verif.Model.StrHeap
import Verif.Proofs.DrvHeap
/-
The check with the values of string literals does what the check does, and the values are those of the expression (C94).
-/
namespace Skull.StrHeap
open Skull Skull.Spec
open Skull.DrvHeap (Runs)
open Skull.ContHeap (M alloc use free Holds Does use_d free_d alloc_d Same.rfl')
open Skull.CHeap (Same)

mutual
/-- The blocks of an expression. -/
def eb : VE → List Nat
  | .other => []
  | .lit t o => if t.ty = .strConst then o.toList else []
  | .call ps => ab ps
  | .un r => eb r
  | .bin l r => eb l ++ eb r
def ab : VA → List Nat
  | .nil => []
  | .cons e n => eb e ++ ab n
end

mutual
theorem blank_eb : ∀ e, eb (blank e) = []
  | .missing | .ident _ => rfl
  | .const t => by simp [blank, eb]
  | .call _ ps _ => by rw [blank, eb, blank_ab ps]
  | .un _ r => by rw [blank, eb, blank_eb r]
  | .bin _ l r => by rw [blank, eb, blank_eb l, blank_eb r]; rfl
theorem blank_ab : ∀ ps, ab (blankA ps) = []
  | .nil => rfl
  | .cons _ e n => by rw [blankA, ab, blank_eb e, blank_ab n]; rfl
end

variable {α β σ τ : Type} {B : τ → List Nat} {B' : σ → List Nat} {G : β → τ → Prop} {G' : α → σ → Prop} {F pre : List Nat}

/-- The memory of a step: `f` does what `c` does, and `G` holds for what it gives if it succeeds. -/
abbrev Steps (f : M (Out β × τ)) (c : SRes β) (pre : List Nat) (B : τ → List Nat) (G : β → τ → Prop) : Prop :=
  Runs f (outc c) (·.1) (fun r => ∀ a, r.1.1 = some a → G a r.2) pre (fun r => B r.2)

/-- The texts of the expression can be read. -/
def ReadsE (a : AExpr) (v : VE) : Prop := ∀ F, Does (readE a v) (fun _ => True) (eb v ++ F) (fun _ => eb v ++ F)

def ReadsA (a : AArgs) (v : VA) : Prop := ∀ F, Does (readA a v) (fun _ => True) (ab v ++ F) (fun _ => ab v ++ F)

theorem end_r (c : Chk β) (s : SS) {t : τ} (h : Same pre (B t)) (hg : ∀ b s', c s = .ok b s' → G b t) : Steps (endH c s t) (c s) pre B G := by
  unfold endH
  cases hc : c s with
  | ub => exact .ub
  | fail s => exact .pure rfl (fun _ h => by cases h) h
  | ok b s => exact .pure rfl (fun _ h => by cases h; exact hg b s hc) h

theorem andThen_r {c : Chk α} {d : α → Chk β} {s : SS} {stop : τ} {k : α → SS → M (Out β × τ)} (hs : Same pre (B stop))
    (hk : ∀ a s', Steps (k a s') (d a s') pre B G) : Steps (andThen c s stop k) ((c >>= d) s) pre B G := by
  show Steps _ (Chk.bind c d s) pre B G
  unfold andThen Chk.bind
  cases c s with
  | ub => exact .ub
  | fail s => exact .pure rfl (fun _ h => by cases h) hs
  | ok b s => exact hk b s

theorem after_r {f : M (Out α × σ)} {c : Chk α} {d : α → Chk β} {s : SS} {stop : σ → τ} {k : α → SS → σ → M (Out β × τ)}
    (hf : Steps f (c s) pre B' G') (hs : ∀ v, Same (B' v) (B (stop v))) (hk : ∀ a s' v, G' a v → Steps (k a s' v) (d a s') (B' v) B G) :
    Steps (afterH f stop k) ((c >>= d) s) pre B G := by
  show Steps _ (Chk.bind c d s) pre B G
  unfold afterH Chk.bind
  cases hc : c s with
  | ub =>
    rw [hc] at hf
    exact .bind hf (fun _ => rfl) fun r hr _ => by cases hr
  | fail s' =>
    rw [hc] at hf
    refine .bind hf (fun h => by cases h) fun r hr _ => ?_
    obtain ⟨⟨o, s2⟩, v⟩ := r
    cases hr
    exact .pure rfl (fun _ h => by cases h) (hs v)
  | ok a s' =>
    rw [hc] at hf
    refine .bind hf (fun h => by cases h) fun r hr hq => ?_
    obtain ⟨⟨o, s2⟩, v⟩ := r
    cases hr
    exact hk a s' v (hq a rfl)

theorem frame_r {f : M (Out β × τ)} {c : SRes β} (h : Steps f c pre B G) (F : List Nat) : Steps f c (pre ++ F) (fun t => B t ++ F) G :=
  Runs.frame h F

theorem toConst_ok {t : Token} {str : List Nat} {s s' : SS} {a : AExpr} (h : toConst t str s = .ok a s') :
    (str.takeWhile (· ≠ 0)).all isScalar = true ∧ ∃ l, a = .const t (.str l) := by
  have h' : Chk.bind (toBytes t (str.takeWhile (· ≠ 0))) _ s = .ok a s' := h
  unfold Chk.bind toBytes at h'
  split at h'
  · rename_i a' s2 hb
    split at hb
    · rename_i hs
      cases hb
      cases h'
      exact ⟨hs, _, rfl⟩
    · cases hb
  · cases h'
  · cases h'

theorem bytes_r {t : Token} (ht : t.ty = .strConst) (str : List Nat) (copy : Nat) (s : SS) :
    Steps (bytesH t str copy s) (toConst t str s) [copy] eb ReadsE := by
  unfold bytesH
  refine .step (alloc_d _) fun ret _ => .step (use_d (by simp)) fun _ _ => .step (use_d (by simp)) fun _ _ => ?_
  split
  · refine .step (free_d (post := [copy]) (Same.rfl' _)) fun _ _ => .step (alloc_d _) fun ret _ => .step (use_d (by simp)) fun _ _ =>
      .step (free_d (post := [ret]) (by same)) fun _ _ => end_r _ _ ?_ fun b s' hb F => ?_
    · rw [eb, if_pos ht]
      exact Same.rfl' _
    · obtain ⟨_, l, rfl⟩ := toConst_ok hb
      rw [readE, eb, if_pos ht]
      exact use_d (by simp)
  · rename_i hn
    refine .step (free_d (post := [copy]) (Same.rfl' _)) fun _ _ => .step (free_d (post := []) (Same.rfl' _)) fun _ _ => end_r _ _ ?_ fun b s' hb => ?_
    · rw [eb, if_pos ht]
      exact Same.rfl' _
    · exact absurd (toConst_ok hb).1 hn

theorem str_r {t : Token} (ht : t.ty = .strConst) (s : SS) :
    Steps (strH t s) ((do toConst t (← evalLit t ((evalStr t).getD .ub)) : Chk AExpr) s) [] eb ReadsE := by
  unfold strH
  refine .step (alloc_d _) fun copy _ => .step (use_d (by simp)) fun _ _ => ?_
  have hb : Same [] (eb (.lit t none)) := by rw [eb, if_pos ht]; exact Same.rfl' _
  cases (evalStr t).getD .ub
  case ub => exact .ub
  case ok str =>
    exact .step (free_d (post := []) (Same.rfl' _)) fun _ _ => .step (alloc_d _) fun copy _ => bytes_r ht str copy s
  all_goals exact .step (free_d (post := []) (Same.rfl' _)) fun _ _ => end_r _ _ hb fun b s' h => by cases h

theorem value_ok {cfg : Cfg} {t : Token} {s s' : SS} {v : Value} (ht : t.ty ≠ .strConst) (h : validateConst cfg t s = .ok v s') : ∀ l, v ≠ .str l := by
  have hb : ∀ {α : Type} (c : Chk α) (f : α → Value), (∀ a l, f a ≠ .str l) → Chk.bind c (fun a => pure (f a)) s = .ok v s' → ∀ l, v ≠ .str l := by
    intro α c f hf h
    unfold Chk.bind at h
    split at h
    · cases h; exact hf _
    · cases h
    · cases h
  unfold validateConst at h
  generalize t.ty = ty at h ht
  cases ty with
  | intConst => exact hb _ (fun i => .int i) (fun _ _ h => by cases h) h
  | floatConst => exact hb _ (fun i => .float i) (fun _ _ h => by cases h) h
  | boolConst => cases h; exact fun _ h => by cases h
  | runeConst => exact hb _ (fun i => .rune i) (fun _ _ h => by cases h) h
  | strConst => exact absurd rfl ht
  | _ => cases h

theorem const_r (cfg : Cfg) (t : Token) (s : SS) : Steps (constH cfg t s) (validateExpr cfg (.const t) s) [] eb ReadsE := by
  unfold constH
  rw [validateExpr]
  split
  · rename_i ht
    have e : (do pure (.const t (← validateConst cfg t)) : Chk AExpr) s = (do toConst t (← evalLit t ((evalStr t).getD .ub)) : Chk AExpr) s := by
      show Chk.bind (validateConst cfg t) _ s = Chk.bind _ _ s
      unfold validateConst
      rw [ht]
      show Chk.bind (Chk.bind _ _) _ s = _
      unfold Chk.bind
      cases evalLit t ((evalStr t).getD .ub) s <;> rfl
    rw [e]
    exact str_r ht s
  · rename_i ht
    refine end_r _ _ ?_ fun b s' hb F => ?_
    · rw [eb, if_neg ht]
      exact Same.rfl' _
    · have hb' : Chk.bind (validateConst cfg t) _ s = .ok b s' := hb
      unfold Chk.bind at hb'
      split at hb'
      · rename_i v s2 hv
        cases hb'
        have := value_ok ht hv
        cases v with
        | str l => exact absurd rfl (this l)
        | _ => exact .pure trivial (Same.rfl' _)
      · cases hb'
      · cases hb'

theorem bind_ok {c : Chk α} {d : α → Chk β} {s s' : SS} {b : β} (h : (c >>= d) s = .ok b s') : ∃ a s2, c s = .ok a s2 ∧ d a s2 = .ok b s' := by
  have h' : Chk.bind c d s = .ok b s' := h
  unfold Chk.bind at h'
  split at h'
  · rename_i a s2 hc
    exact ⟨a, s2, hc, h'⟩
  · cases h'
  · cases h'

theorem unEnd {o : Oper} {r b : AExpr} {s s' : SS} (h : (do
      validateRestrictions o r r.token
      let ty ← exprType o r.type
      pure (.un o r ty r.isConstExpr) : Chk AExpr) s = .ok b s') : ∃ ty, b = .un o r ty r.isConstExpr := by
  obtain ⟨_, _, _, h⟩ := bind_ok h
  obtain ⟨ty, _, _, h⟩ := bind_ok h
  cases h
  exact ⟨ty, rfl⟩

theorem binEnd {o : Oper} {l r b : AExpr} {s s' : SS} (h : (do
      sameTypes l r
      validateRestrictions o r l.token
      let ty ← exprType o r.type
      pure (.bin o l r ty (l.isConstExpr && r.isConstExpr)) : Chk AExpr) s = .ok b s') : ∃ ty, b = .bin o l r ty (l.isConstExpr && r.isConstExpr) := by
  obtain ⟨_, _, _, h⟩ := bind_ok h
  obtain ⟨_, _, _, h⟩ := bind_ok h
  obtain ⟨ty, _, _, h⟩ := bind_ok h
  cases h
  exact ⟨ty, rfl⟩

mutual
theorem expr_r (cfg : Cfg) : ∀ (e : Expr) (s : SS), Steps (exprH cfg e s) (validateExpr cfg e s) [] eb ReadsE
  | .missing, s => by rw [exprH, validateExpr]; exact .ub
  | .ident t, s => by
    rw [exprH]
    refine end_r _ _ (Same.rfl' _) fun b s' hb => ?_
    rw [validateExpr] at hb
    have hb' : Chk.bind (scopeFindVar t) _ s = .ok b s' := hb
    unfold Chk.bind at hb'
    split at hb'
    · rename_i x s2 _
      have hb2 : Chk.bind (updVar x.1 _) _ s2 = .ok b s' := hb'
      unfold Chk.bind at hb2
      split at hb2
      · cases hb2
        exact fun F => .pure trivial (Same.rfl' _)
      · cases hb2
      · cases hb2
    · cases hb'
    · cases hb'
  | .const t, s => by rw [exprH]; exact const_r cfg t s
  | .call name ps num, s => by
    rw [exprH, validateExpr]
    have hb : Same [] (eb (.call (blankA ps))) := by rw [eb, blank_ab]; exact Same.rfl' _
    exact andThen_r hb fun id s => andThen_r hb fun f s => andThen_r hb fun _ s => andThen_r hb fun _ s =>
      after_r (args_r cfg f.paramTypes ps s) (fun v => by rw [eb]; exact Same.rfl' _) fun args s v hv =>
      end_r _ _ (by rw [eb]; exact Same.rfl' _) fun b s' hb F => by
        cases hb
        rw [readE, eb]
        exact hv F
  | .un o rhs, s => by
    rw [exprH, validateExpr]
    have hb : Same [] (eb (.un (blank rhs))) := by rw [eb, blank_eb]; exact Same.rfl' _
    exact andThen_r hb fun _ s => after_r (expr_r cfg rhs s) (fun v => by rw [eb]; exact Same.rfl' _) fun r s v hv =>
      end_r _ _ (by rw [eb]; exact Same.rfl' _) fun b s' hb F => by
        obtain ⟨ty, rfl⟩ := unEnd hb
        rw [readE, eb]
        exact hv F
  | .bin o lhs rhs, s => by
    rw [exprH, validateExpr]
    have hb : Same [] (eb (.bin (blank lhs) (blank rhs))) := by rw [eb, blank_eb, blank_eb]; exact Same.rfl' _
    exact andThen_r hb fun _ s => after_r (expr_r cfg rhs s) (fun v => by rw [eb, blank_eb]; exact Same.rfl' _) fun r s vr hr =>
      after_r (B' := fun vl => eb vl ++ eb vr) (frame_r (expr_r cfg lhs s) (eb vr)) (fun v => by rw [eb]; exact Same.rfl' _) fun l s vl hl =>
      end_r _ _ (by rw [eb]; exact Same.rfl' _) fun b s' hb F => by
        obtain ⟨ty, rfl⟩ := binEnd hb
        rw [readE, eb]
        exact .bind ((hl (eb vr ++ F)).cast (by same) fun _ _ => Same.rfl' _) fun _ _ => (hr (eb vl ++ F)).cast (by same) fun _ _ => by same

theorem args_r (cfg : Cfg) : ∀ (tys : List Ty) (ps : Args) (s : SS), Steps (argsH cfg tys ps s) (validateArgs cfg tys ps s) [] ab ReadsA
  | [], .nil, s => by
    rw [argsH, validateArgs]
    exact end_r _ _ (Same.rfl' _) fun b s' hb F => by cases hb; exact .pure trivial (Same.rfl' _)
  | [], .cons first e next, s => by
    rw [argsH, validateArgs]
    exact end_r _ _ (by rw [ab, blank_eb, blank_ab]; exact Same.rfl' _) fun b s' hb F => by cases hb; exact .pure trivial (Same.rfl' _)
  | _ :: _, .nil, s => by rw [argsH, validateArgs]; exact .ub
  | ty :: tys, .cons first e next, s => by
    rw [argsH, validateArgs]
    refine after_r (expr_r cfg e s) (fun v => by rw [ab, blank_ab, List.append_nil]; exact Same.rfl' _) fun a s v hv => ?_
    split
    · exact end_r _ _ (by rw [ab, blank_ab, List.append_nil]; exact Same.rfl' _) fun b s' hb => by cases hb
    · exact after_r (B' := fun vs => ab vs ++ eb v) (frame_r (args_r cfg tys next s) (eb v)) (fun vs => by rw [ab]; same) fun rest s vs hvs =>
        end_r _ _ (by rw [ab]; same) fun b s' hb F => by
          cases hb
          rw [readA, ab]
          exact .bind ((hv (ab vs ++ F)).cast (by same) fun _ _ => Same.rfl' _) fun _ _ => (hvs (eb v ++ F)).cast (by same) fun _ _ => by same
end

theorem freeOpt_d (x : Option Nat) (F : List Nat) : Does (freeOpt x) (fun _ => True) (x.toList ++ F) (fun _ => F) := by
  cases x with
  | none => exact .pure trivial (Same.rfl' _)
  | some b => exact free_d (Same.rfl' _)

mutual
theorem freeE_d : ∀ (v : VE) (F : List Nat), Does (freeVE v) (fun _ => True) (eb v ++ F) (fun _ => F)
  | .other, F => by rw [freeVE, eb]; exact .pure trivial (Same.rfl' _)
  | .lit t o, F => by
    rw [freeVE, eb]
    split
    · exact freeOpt_d o F
    · exact .pure trivial (Same.rfl' _)
  | .call ps, F => by rw [freeVE, eb]; exact freeA_d ps F
  | .un r, F => by rw [freeVE, eb]; exact freeE_d r F
  | .bin l r, F => by
    rw [freeVE, eb]
    exact .bind ((freeE_d l (eb r ++ F)).cast (by same) fun _ _ => Same.rfl' _) fun _ _ => freeE_d r F
theorem freeA_d : ∀ (v : VA) (F : List Nat), Does (freeVA v) (fun _ => True) (ab v ++ F) (fun _ => F)
  | .nil, F => by rw [freeVA, ab]; exact .pure trivial (Same.rfl' _)
  | .cons e n, F => by
    rw [freeVA, ab]
    exact .bind ((freeE_d e (ab n ++ F)).cast (by same) fun _ _ => Same.rfl' _) fun _ _ => freeA_d n F
end

end Skull.StrHeap
