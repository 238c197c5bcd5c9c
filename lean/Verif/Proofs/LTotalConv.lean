import Verif.Proofs.LTotalStmt
/-
Programs that get code compare only what can be compared.
-/
namespace Skull
open Spec

theorem OpCode.compared {cfg o τ a b n is v m} (h : OpCode cfg o τ a b n is v m) (ho : o = .is ∨ o = .isnt) :
    ∃ p, τ = some (.prim p) ∧ p ≠ .void := by
  have key : ∀ {a b n is v m}, OpCode cfg .is τ a b n is v m → ∃ p, τ = some (.prim p) ∧ p ≠ .void := by
    intro a b n is v m h
    cases h with
    | bin h1 _ => unfold opFor at h1; split at h1 <;> simp_all
    | builtin h1 => unfold builtinFor at h1; split at h1 <;> simp_all
  rcases ho with rfl | rfl
  · exact key h
  · cases h with
    | bin h1 _ => simp [opFor] at h1
    | builtin h1 => simp [builtinFor] at h1
    | isnt h1 _ => exact key h1

theorem OpCode.result {cfg o τ τ' ty a b n is v m} (h : OpCode cfg o τ' a b n is v m) (ht : binType o τ = some ty)
    (he : ¬ (o = .is ∨ o = .isnt) → τ' = some τ) : resultFor o τ' = some ty := by
  by_cases ho : o = .is ∨ o = .isnt
  · rcases ho with rfl | rfl <;> cases ht <;> rfl
  · rw [he ho]
    unfold binType at ht
    split at ht <;> cases ht <;> first | rfl | exact absurd (by simp) ho

mutual

theorem ECode.compares {cfg : LCfg} {R : LEnv} : ∀ (a : AExpr) {n is x m}, WtE cfg.syms a → ECode cfg R n a is x m →
    Compares a ∧ x.ty = comparedAs a
  | .ident t id ty c, n, is, x, m, w, h => by
    cases w with
    | ident h1 h2 h3 h4 =>
      cases h with
      | load g1 _ _ => rw [var_of h1 h2] at g1; cases g1; exact ⟨trivial, rfl⟩
      | value g1 _ _ => rw [var_of h1 h2] at g1; cases g1; exact ⟨trivial, rfl⟩
  | .const t v, n, is, x, m, w, h => by cases h; exact ⟨trivial, rfl⟩
  | .call t args id ty, n, is, x, m, w, h => by
    cases w with
    | call h1 h2 h3 h4 =>
      cases h with
      | call g1 g2 g3 =>
        rw [func_of h1 h2] at g1
        cases g1
        refine ⟨?_, rfl⟩
        unfold Compares
        rw [h3] at g2
        exact g2.compares args h4
  | .un o e ty c, n, is, x, m, w, h => by
    unfold Compares
    cases w with
    | un h1 h2 =>
      obtain ⟨ho, rfl, p, hp⟩ := unType_prim h1
      rw [comparedAs_un (by rcases ho with rfl | rfl <;> simp)]
      cases h with
      | ref | deref => simp at ho
      | not g1 g2 =>
        obtain ⟨k1, k2⟩ := g1.compares e h2
        refine ⟨k1, ?_⟩
        simp only [unType] at h1
        split at h1 <;> simp_all
      | neg g1 g2 =>
        obtain ⟨k1, k2⟩ := g1.compares e h2
        exact ⟨k1, k2.trans (comparedAs_of_prim h2 hp)⟩
    | ref h1 =>
      cases h1 with
      | ident h1 h2 h3 h4 =>
        cases h with
        | ref g1 g2 => rw [var_of h1 h2] at g1; cases g1; exact ⟨by simp only [Compares], inner_comparedAs.symm⟩
    | @deref t id ty c h1 =>
      generalize hx : Ty.ref ty = ty' at h1 h
      cases h1 with
      | ident h1 h2 h3 h4 =>
        cases h with
        | deref g1 g2 g3 =>
          rw [var_of h1 h2] at g1
          cases g1
          rw [← hx] at g3
          cases g3
          exact ⟨by simp only [Compares], by rw [comparedAs_un (by simp)]⟩
  | .bin o l r ty c, n, is, x, m, w, h => by
    unfold Compares
    cases w with
    | bin h1 h2 h3 h4 h5 =>
      cases h with
      | bin g1 g2 g3 =>
        obtain ⟨k1, _⟩ := g1.compares l h1
        obtain ⟨k2, k3⟩ := g2.compares r h2
        refine ⟨⟨fun ho => ?_, k1, k2⟩, ?_⟩
        · rw [← k3]; exact g3.compared ho
        · refine (g3.result h4 fun ho => ?_).trans rfl
          rw [k3]
          rcases binType_prim h4 with h | ⟨p, hp⟩
          · exact absurd h ho
          · exact comparedAs_of_prim h2 hp

theorem ACode.compares {cfg : LCfg} {R : LEnv} : ∀ (args : AArgs) {n is vs m} {tys : List Ty}, WtA cfg.syms tys args →
    ACode cfg R n tys.length args is vs m → ComparesArgs args
  | .nil, _, _, _, _, _, _, _ => by unfold ComparesArgs; trivial
  | .unchecked _, _, _, _, _, _, _, _ => by unfold ComparesArgs; trivial
  | .cons t e next, n, is, vs, m, tys, w, h => by
    unfold ComparesArgs
    cases w with
    | cons h1 h2 h3 =>
      cases h with
      | cons g1 g2 => exact ⟨(g1.compares e h1).1, g2.compares next h3⟩

end

/-- The same for what the generator does. -/
theorem gen_compares {cfg : LCfg} {a : AExpr} {s x s'} (w : WtE cfg.syms a) (h : genExprL cfg a s = some (x, s')) : Compares a := by
  obtain ⟨is, n, hc, _⟩ := genExprL_code a h
  exact (hc.compares a w).1

theorem simple_compares {cfg : LCfg} {loop before ann stmt child next s u s'} (hs : isSimple stmt = true)
    (w : WtNode cfg.syms loop before ann stmt child next) (h : simpleL cfg ann stmt s = some (u, s')) :
    ∀ e, ann.value = some e → Compares e := by
  intro e he
  cases w with
  | varDef h1 h2 h3 h4 h5 h6 h7 h8 h9 h10 =>
    cases he
    obtain ⟨_, _, h1, _⟩ := LGen.bind_eq.1 h
    exact gen_compares h9 h1
  | assign h1 h2 h3 h4 h5 h6 h7 =>
    cases he
    obtain ⟨_, _, h1, _⟩ := LGen.bind_eq.1 h
    exact gen_compares h7 h1
  | retValue h1 h2 h3 =>
    cases he
    obtain ⟨_, _, h1, _⟩ := LGen.bind_eq.1 h
    exact gen_compares h2 h1
  | call h1 h2 =>
    cases he
    obtain ⟨_, _, h2, _⟩ := LGen.bind_eq.1 h
    exact gen_compares h1 h2
  | ifs | elifs | whiles => cases hs
  | _ => cases he

theorem quiet_compares {syms} : ∀ (t : ATree) {loop before}, WtTree syms loop before t → Spec.Quiet t → ComparesAll t
  | .nil, _, _, _, _ => trivial
  | .unchecked _, _, _, _, h => h.elim
  | .node ann stmt tok child next, loop, before, w, h => by
    cases w with
    | node w _ wn =>
      refine ⟨?_, fun _ => ?_, quiet_compares next wn h.2⟩
      · rcases h.1 with rfl | rfl | rfl <;> cases w <;> (intro e he; cases he)
      · have : child = .nil := by rcases h.1 with rfl | rfl | rfl <;> cases w <;> rfl
        rw [this]
        trivial

theorem isPlain_simple {st} (h : isPlain st = true) : isSimple st = true := by cases st <;> first | rfl | cases h

/-- A mode's condition. -/
def modeE : LMode → Option AExpr
  | .stmts => none
  | .afterIf e .. => some e

theorem run_compares {cfg : LCfg} {mode t s r s'} (h : GenRun cfg mode t s r s') : ∀ {loop before}, WtTree cfg.syms loop before t →
    (∀ e, modeE mode = some e → WtE cfg.syms e) → ComparesAll t ∧ ∀ e, modeE mode = some e → Compares e := by
  have none : ∀ e, modeE .stmts = some e → WtE cfg.syms e := fun e h => by cases h
  have no : ∀ e, modeE .stmts = some e → Compares e := fun e h => by cases h
  induction h with
  | nil => intro _ _ _ _; exact ⟨trivial, no⟩
  | @plain ann stmt tok child next s s₁ r s' hp h1 h2 ih =>
    intro loop before w hm
    cases w with
    | node w wc wn =>
      refine ⟨⟨simple_compares (isPlain_simple hp) w h1, fun _ => ?_, (ih wn none).1⟩, no⟩
      have : child = .nil ∨ ∃ t, child = .unchecked t := by
        cases stmt <;> first | cases hp | skip
        all_goals cases w <;> first | exact .inl rfl | assumption
      rcases this with rfl | ⟨t, rfl⟩ <;> trivial
  | @stop ann stmt tok child next s ty s' hp h1 =>
    intro loop before w hm
    cases w with
    | node w wc wn =>
      have hs : isSimple stmt = true := by rcases hp with ⟨e, rfl⟩ | rfl <;> rfl
      have hq : Spec.Quiet next ∧ child = .nil := by
        rcases hp with ⟨e, rfl⟩ | rfl
        · cases w with
          | ret h => exact ⟨h, rfl⟩
          | retValue _ _ h => exact ⟨h, rfl⟩
          | other h => simp at h
        · cases w with
          | unreachable h => exact ⟨h, rfl⟩
          | other h => simp at h
      refine ⟨⟨simple_compares hs w h1, fun _ => ?_, quiet_compares next wn hq.1⟩, no⟩
      rw [hq.2]
      trivial
  | breaks =>
    intro loop before w hm
    cases w with
    | node w wc wn =>
      cases w with
      | breaks _ h => exact ⟨⟨(fun e he => by cases he), fun _ => trivial, quiet_compares _ wn h⟩, no⟩
      | other h => simp at h
  | continues =>
    intro loop before w hm
    cases w with
    | node w wc wn =>
      cases w with
      | continues _ h => exact ⟨⟨(fun e he => by cases he), fun _ => trivial, quiet_compares _ wn h⟩, no⟩
      | other h => simp at h
  | whiles g1 g2 g3 g4 g5 g6 g7 g8 ih1 ih2 =>
    intro loop before w hm
    cases w with
    | node w wc wn =>
      cases w with
      | whiles h1 h2 h3 =>
        exact ⟨⟨(fun e he => by cases he; exact (g6.compares _ h1).1), fun _ => (ih1 wc none).1, (ih2 wn none).1⟩, no⟩
  | ifs g1 g2 g3 g4 g5 ih1 ih2 =>
    intro loop before w hm
    cases w with
    | node w wc wn =>
      cases w with
      | ifs h1 h2 h3 =>
        obtain ⟨k1, k2⟩ := ih2 wn (fun e he => by cases he; exact h1)
        exact ⟨⟨(fun e he => by cases he; exact k2 _ rfl), fun _ => (ih1 wc none).1, k1⟩, no⟩
  | elifs g1 g2 g3 g4 g5 ih1 ih2 =>
    intro loop before w hm
    cases w with
    | node w wc wn =>
      cases w with
      | elifs h1 h2 h3 h4 =>
        obtain ⟨k1, k2⟩ := ih2 wn (fun e he => by cases he; exact h1)
        refine ⟨⟨(fun e he => by cases he; exact k2 _ rfl), fun _ => (ih1 wc none).1, k1⟩, fun e he => ?_⟩
        cases he
        exact (g2.compares _ (hm _ rfl)).1
  | elses g1 g2 g3 g4 ih1 ih2 =>
    intro loop before w hm
    cases w with
    | node w wc wn =>
      cases w with
      | elses h1 h2 =>
        refine ⟨⟨(fun e he => by cases he), fun _ => (ih1 wc none).1, (ih2 wn none).1⟩, fun e he => ?_⟩
        cases he
        exact (g2.compares _ (hm _ rfl)).1
      | other h => simp at h
  | comment g1 ih =>
    intro loop before w hm
    cases w with
    | node w wc wn =>
      cases w with
      | other h =>
        obtain ⟨k1, k2⟩ := ih wn hm
        exact ⟨⟨(fun e he => by cases he), fun _ => trivial, k1⟩, k2⟩
  | endIf g1 g2 g3 ih =>
    intro loop before w hm
    refine ⟨(ih w none).1, fun e he => ?_⟩
    cases he
    exact (g2.compares _ (hm _ rfl)).1
  | external g1 g2 g3 ih =>
    intro loop before w hm
    cases w with
    | node w wc wn =>
      cases w with
      | func h1 h2 h3 h4 h5 h6 h7 h8 h9 =>
        rw [func_of h1 h2] at g1
        cases g1
        exact ⟨⟨(fun e he => by cases he), (fun hx => by have hx : _ = false := hx; simp only [isForeign, ← h3, g2] at hx; cases hx), (ih wn none).1⟩, no⟩
  | func g1 g2 _ g3 g4 ih1 ih2 =>
    intro loop before w hm
    cases w with
    | node w wc wn =>
      cases w with
      | func h1 h2 h3 h4 h5 h6 h7 h8 h9 =>
        exact ⟨⟨(fun e he => by cases he), fun _ => (ih1 wc none).1, (ih2 wn none).1⟩, no⟩
  | ns g1 g2 ih1 ih2 =>
    intro loop before w hm
    cases w with
    | node w wc wn =>
      cases w with
      | ns h1 => exact ⟨⟨(fun e he => by cases he), fun _ => (ih1 wc none).1, (ih2 wn none).1⟩, no⟩
      | other h => simp at h

theorem codegenL_compares {cfg : Cfg} {t : Tree} {a : ATree} {ss : SS} (hp : Parsed t) (h : semantic cfg t = .ok a ss) {fold debug name s}
    (hs : codegenL ⟨ss.syms, fold, debug⟩ name a = some s) : ComparesAll a := by
  unfold codegenL at hs
  obtain ⟨⟨u, s1⟩, hs, _⟩ := Option.map_eq_some_iff.1 hs
  unfold genModuleL at hs
  obtain ⟨r, s2, hs, _⟩ := LGen.bind_eq.1 hs
  exact (run_compares ((gen_runs a).1 hs) (semantic_wt hp h).2 (fun e he => by cases he)).1

end Skull
