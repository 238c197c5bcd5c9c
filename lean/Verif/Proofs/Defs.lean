import Verif.Proofs.CheckedTree
import Verif.Proofs.LFrame
/-
Every declaration makes a new symbol: the symbols that a checked tree declares are different from each other, and from the main function.
-/
namespace Skull
open Spec

/-- The declarations of a part of the tree are among the symbols from `n` up to `m`, each once. -/
def DefsIn (ds : List Nat) (n m : Nat) : Prop := ds.Nodup ∧ ∀ id ∈ ds, n ≤ id ∧ id < m

theorem DefsIn.nil (n m : Nat) : DefsIn [] n m := ⟨.nil, by simp⟩

theorem DefsIn.append {a b : List Nat} {n m k n' k' : Nat} (h : DefsIn a n m) (h' : DefsIn b m k) (hn : n' ≤ n) (hm : n ≤ m) (hk : m ≤ k) (hk' : k ≤ k') :
    DefsIn (a ++ b) n' k' := by
  refine ⟨List.nodup_append.2 ⟨h.1, h'.1, ?_⟩, ?_⟩
  · rintro x hx _ hy rfl
    have := (h.2 x hx).2
    have := (h'.2 x hy).1
    omega
  · intro id hid
    rcases List.mem_append.1 hid with hx | hx
    · have := h.2 _ hx; omega
    · have := h'.2 _ hx; omega

theorem DefsIn.mono {a : List Nat} {n m n' m' : Nat} (h : DefsIn a n m) (hn : n' ≤ n) (hm : m ≤ m') : DefsIn a n' m' :=
  ⟨h.1, fun id hid => by have := h.2 _ hid; omega⟩

theorem node_defs (ann : Ann) (stmt : Stmt) (tok : List Token) (child next : ATree) :
    (ATree.node ann stmt tok child next).defs =
      (match ann with | .varDef id _ => [id] | .func id ps => id :: ps | _ => []) ++ child.defs ++ next.defs := by
  cases ann <;> simp [ATree.defs]

theorem varDef_defs {cfg name isConst isImplicit isExported e tok tokEnd s a s'} (hs : SymsOk s.syms)
    (h : validateVarDef cfg name isConst isImplicit isExported e tok tokEnd s = .ok a s') :
    a = .none ∨ ∃ id x, a = .varDef id x ∧ s.syms.length ≤ id ∧ id < s'.syms.length := by
  unfold validateVarDef at h
  replace h := bind_ok.1 h
  obtain ⟨o, s₁, h1, h⟩ := h
  have k1 : Grow s s₁ := .keeps (tokenToType_keeps _) h1
  cases o with
  | some ty =>
    replace h := bind_ok_unit.1 h
    obtain ⟨s₂, h2, h⟩ := h
    cases h
    exact .inl rfl
  | none =>
    simp only at h
    have h0 := h
    unfold validateVar at h
    replace h := bind_ok.1 h
    obtain ⟨x, s₂, h2, h⟩ := h
    replace h := bind_ok.1 h
    obtain ⟨id, s₃, h3, h⟩ := h
    replace h := bind_ok_unit.1 h
    obtain ⟨s₄, h4, h⟩ := h
    replace h := bind_ok.1 h
    obtain ⟨v, s₅, h5, h⟩ := h
    replace h := bind_ok_unit.1 h
    obtain ⟨s₆, h6, h⟩ := h
    replace h := bind_ok_unit.1 h
    obtain ⟨s₇, h7, h⟩ := h
    cases h
    obtain ⟨k2, w⟩ := expr_grow (k1.ok hs) h2
    obtain ⟨n, rest, sym, u, rfl, e3, rfl, _⟩ := nodeToVar_wt h3
    refine .inr ⟨_, _, rfl, (k1.trans k2).ext.len, ?_⟩
    have h0' : validateVarDef cfg (n :: rest) isConst isImplicit isExported e tok tokEnd s = .ok (.varDef s₂.syms.length x) s' := by
      unfold validateVarDef
      rw [bind_ok]
      exact ⟨none, s₁, h1, h0⟩
    obtain ⟨_, hw⟩ := varDef_wt hs h0' false [] .nil
    cases hw with
    | varDef hg => exact (List.getElem?_eq_some_iff.1 hg).1

theorem funcDecl_defs {cfg : Cfg} {p : FuncProto} {s r s'} (h : validateFuncDecl cfg p s = .ok r s') :
    DefsIn (r.1 :: r.2) s.syms.length s'.syms.length := by
  unfold validateFuncDecl at h
  replace h := bind_ok_unit.1 h
  obtain ⟨t₁, g1, h⟩ := h
  replace h := bind_ok.1 h
  obtain ⟨ret, t₂, g2, h⟩ := h
  replace h := bind_ok.1 h
  obtain ⟨str, t₃, g3, h⟩ := h
  replace h := bind_ok.1 h
  obtain ⟨link, t₄, g4, h⟩ := h
  replace h := bind_ok.1 h
  obtain ⟨id, t₅, g5, h⟩ := h
  rw [newSym_eq] at g5
  cases g5
  replace h := bind_ok_unit.1 h
  obtain ⟨t₆, g6, h⟩ := h
  replace h := bind_ok_unit.1 h
  obtain ⟨t₇, g7, h⟩ := h
  replace h := bind_ok.1 h
  obtain ⟨ids, t₈, g8, h⟩ := h
  cases h
  have j1 := (Keeps.bind isTopLvlScope_keeps (fun _ => .ite (.error _ _) (.pure _)) _ _ _ g1).1
  have j2 : t₂.syms = t₁.syms := by
    have : Keeps (validateReturnType p.returnType) := by
      unfold validateReturnType
      split
      · exact .pure _
      · refine .bind (tokenToType_keeps _) fun o => ?_
        split
        · exact .pure _
        · exact .error _ _
    exact (this _ _ _ g2).1
  have j3 := (tokName_keeps _ _ _ _ g3).1
  have j4 := (linkageName_keeps _ _ _ _ _ _ g4).1
  have j : t₄.syms = s.syms := by rw [j4, j3, j2, j1]
  have j6 := (enterFunc_keeps _ _ _ _ g6).1
  have j7 := mustAdd_grow g7
  unfold SS.push at j6
  simp only [j] at j6
  have e7 : t₇.syms.length = s.syms.length + 1 := by rw [j7, j6]; simp
  unfold validateFuncParams at g8
  rw [j]
  split at g8
  · cases g8
    refine ⟨by simp, ?_⟩
    simp
    omega
  · replace g8 := bind_ok_unit.1 g8
    obtain ⟨s₁, h1, h⟩ := g8
    replace h := bind_ok.1 h
    obtain ⟨ps, s₂, h2, h⟩ := h
    replace h := bind_ok_unit.1 h
    obtain ⟨s₃, h3, h⟩ := h
    replace h := bind_ok_unit.1 h
    obtain ⟨s₄, h4, h⟩ := h
    cases h
    have k1 := (makeChildScope_keeps _ _ _ h1).1
    have k4 := (restoreParentScope_keeps _ _ _ h4).1
    obtain ⟨news, a1, a2, a3, a4, a5⟩ := params_wt _ _ _ _ h2
    have l2 : s₂.syms.length = s.syms.length + 1 + ps.length := by rw [a1, k1, List.length_append, e7, a2]
    have l3 : s₃.syms.length = s₂.syms.length := by
      unfold updFunc updSym at h3
      split at h3
      · cases h3
        simp
      · cases h3
    rw [k1, e7] at a4
    rw [a4]
    refine ⟨List.nodup_cons.2 ⟨?_, List.nodup_range'⟩, ?_⟩
    · simp [List.mem_range'_1]
      intro hx; omega
    · intro id hid
      rw [k4, l3, l2]
      rcases List.mem_cons.1 hid with rfl | hid
      · omega
      · simp [List.mem_range'_1] at hid
        omega

def NodesDefs (cfg : Cfg) (t : Tree) : Prop :=
  ∀ before s a s' loop, Sized t → SymsOk s.syms → s.whileDepth < 2 ^ 32 → (0 < s.whileDepth → loop = true) →
    validateNodes cfg before t s = .ok a s' → DefsIn a.defs s.syms.length s'.syms.length

theorem block_defs {cfg child s a s' loop} (hn : NodesDefs cfg child) (hz : Sized child) (hs : SymsOk s.syms) (hd : s.whileDepth < 2 ^ 32)
    (hl : 0 < s.whileDepth → loop = true) (h : Skull.block (validateNodes cfg [] child) s = .ok a s') :
    DefsIn a.defs s.syms.length s'.syms.length := by
  unfold Skull.block at h
  replace h := bind_ok_unit.1 h
  obtain ⟨s₁, h1, h⟩ := h
  replace h := bind_ok.1 h
  obtain ⟨r, s₂, h2, h⟩ := h
  have e : r = a := by
    replace h := bind_ok_unit.1 h
    obtain ⟨s₃, _, h⟩ := h
    replace h := bind_ok_unit.1 h
    obtain ⟨s₄, _, h⟩ := h
    replace h := bind_ok_unit.1 h
    obtain ⟨s₅, _, h⟩ := h
    cases h
    rfl
  subst e
  have k1 : Grow s s₁ := .keeps makeChildScope_keeps h1
  have d1 := makeChildScope_steady _ _ _ h1
  have e1 := (makeChildScope_keeps _ _ _ h1).1
  have k3 := (block_keeps r _ _ _ h).1
  have := hn _ _ _ _ loop hz (k1.ok hs) (by rw [d1]; exact hd) (by rw [d1]; exact hl) h2
  rw [e1] at this
  rw [k3]
  exact this

theorem stmt_defs {cfg before stmt tok tokEnd child next s r s' loop} (hn : NodesDefs cfg child)
    (hp : ∀ p, stmt = .funcProto p → p.numParams = p.params.length) (hz : Sized child) (hs : SymsOk s.syms)
    (hd : s.whileDepth < 2 ^ 32) (hl : 0 < s.whileDepth → loop = true)
    (h : validateStmt cfg before stmt tok tokEnd child next (validateNodes cfg [] child) s = .ok r s') :
    DefsIn (annDefs r.1 ++ r.2.defs) s.syms.length s'.syms.length := by
  unfold validateStmt at h
  split at h
  · replace h := bind_ok.1 h
    obtain ⟨a, s₁, h1, h⟩ := h
    cases h
    obtain ⟨k, hq, w⟩ := return_wt hs h1 loop before
    have w := w .nil trivial
    cases w <;> exact .nil _ _
  · replace h := bind_ok_unit.1 h
    obtain ⟨s₁, h1, h⟩ := h
    cases h
    exact .nil _ _
  · rename_i p
    replace h := bind_ok.1 h
    obtain ⟨s₀, s₁, h0, h⟩ := h
    cases h0
    replace h := bind_ok_unit.1 h
    obtain ⟨s₂, h1, h⟩ := h
    replace h := bind_ok.1 h
    obtain ⟨d, s₃, h2, h⟩ := h
    replace h := bind_ok.1 h
    obtain ⟨body, s₄, h3, h⟩ := h
    replace h := bind_ok_unit.1 h
    obtain ⟨s₅, h4, h⟩ := h
    replace h := bind_ok_unit.1 h
    obtain ⟨s₆, h5, h⟩ := h
    cases h
    have k1 : Grow s s₂ := .keeps (setDepth_keeps _) h1
    have e1 := (setDepth_keeps _ _ _ _ h1).1
    have d1 : s₂.whileDepth = 0 := by cases h1; rfl
    obtain ⟨k2, _⟩ := funcDecl_wt (hp _ rfl) h2
    have d2 := funcDecl_steady _ _ _ _ _ h2
    rw [d1] at d2
    obtain ⟨k3, d3, w, _⟩ := block_wt (loop := false) (nodes_wt _) hz (k2.ok (k1.ok hs)) (by rw [d2]; decide) (fun hx => by omega) h3
    have k4 : Grow s₄ s₅ := by
      refine .keeps (.bind .get fun _ => .bind (funcAt_keeps _) fun f => .ite (.pure _) (.bind ?_ fun _ => leaveFunc_keeps)) h4
      exact .ite (.error _ _) (.ite (.error _ _) (.pure _))
    have k5 : Grow s₅ s' := .keeps (setDepth_keeps _) h5
    have x2 := funcDecl_defs h2
    have x3 := block_defs (loop := false) hn hz (k2.ok (k1.ok hs)) (by rw [d2]; decide) (fun hx => by omega) h3
    rw [e1] at x2
    have := k2.ext.len
    rw [e1] at this
    exact x2.append x3 (Nat.le_refl _) this k3.ext.len (k4.trans k5).ext.len
  · replace h := bind_ok.1 h
    obtain ⟨a, s₁, h1, h⟩ := h
    cases h
    rcases varDef_defs hs h1 with rfl | ⟨id, x, rfl, h2, h3⟩
    · exact .nil _ _
    · exact ⟨by simp [annDefs, ATree.defs], by simp [annDefs, ATree.defs]; exact ⟨h2, h3⟩⟩
  · replace h := bind_ok.1 h
    obtain ⟨a, s₁, h1, h⟩ := h
    cases h
    have w := (varAssign_wt hs h1 loop before .nil).2
    cases w <;> exact .nil _ _
  · cases h
  · replace h := bind_ok.1 h
    obtain ⟨a, s₁, h1, h⟩ := h
    cases h
    cases child <;> exact .nil _ _
  · replace h := bind_ok.1 h
    obtain ⟨a, s₁, h1, h⟩ := h
    cases h
  · replace h := bind_ok_unit.1 h
    obtain ⟨s₁, h1, h⟩ := h
    rw [needBlock_ok] at h1
    obtain ⟨hb, rfl⟩ := h1
    replace h := bind_ok.1 h
    obtain ⟨e, s₂, h2, h⟩ := h
    replace h := bind_ok.1 h
    obtain ⟨body, s₃, h3, h⟩ := h
    cases h
    obtain ⟨k1, w1, ht⟩ := condition_wt hs h2
    have d1 := condition_steady _ _ _ _ _ h2
    exact (block_defs (loop := loop) hn hz (k1.ok hs) (by rw [d1]; exact hd) (by rw [d1]; exact hl) h3).mono k1.ext.len (Nat.le_refl _)
  · replace h := bind_ok_unit.1 h
    obtain ⟨s₁, h1, h⟩ := h
    rw [needIf_ok] at h1
    obtain ⟨hi, rfl⟩ := h1
    replace h := bind_ok_unit.1 h
    obtain ⟨s₁, h1, h⟩ := h
    rw [needBlock_ok] at h1
    obtain ⟨hb, rfl⟩ := h1
    replace h := bind_ok.1 h
    obtain ⟨body, s₃, h3, h⟩ := h
    cases h
    exact block_defs (loop := loop) hn hz hs hd hl h3
  · replace h := bind_ok_unit.1 h
    obtain ⟨s₁, h1, h⟩ := h
    rw [needBlock_ok] at h1
    obtain ⟨hb, rfl⟩ := h1
    replace h := bind_ok_unit.1 h
    obtain ⟨s₁, h1, h⟩ := h
    rw [needIf_ok] at h1
    obtain ⟨hi, rfl⟩ := h1
    replace h := bind_ok.1 h
    obtain ⟨e, s₂, h2, h⟩ := h
    replace h := bind_ok.1 h
    obtain ⟨body, s₃, h3, h⟩ := h
    cases h
    obtain ⟨k1, w1, ht⟩ := condition_wt hs h2
    have d1 := condition_steady _ _ _ _ _ h2
    exact (block_defs (loop := loop) hn hz (k1.ok hs) (by rw [d1]; exact hd) (by rw [d1]; exact hl) h3).mono k1.ext.len (Nat.le_refl _)
  · replace h := bind_ok.1 h
    obtain ⟨s₀, s₁, h0, h⟩ := h
    cases h0
    replace h := bind_ok_unit.1 h
    obtain ⟨s₂, h1, h⟩ := h
    have k0 : Grow s s₂ := .keeps (setDepth_keeps _) h1
    have d0 : s₂.whileDepth = (s.whileDepth + 1) % 2 ^ 32 := by cases h1; rfl
    replace h := bind_ok_unit.1 h
    obtain ⟨s₃, h2, h⟩ := h
    rw [needBlock_ok] at h2
    obtain ⟨hb, rfl⟩ := h2
    replace h := bind_ok.1 h
    obtain ⟨e, s₄, h3, h⟩ := h
    replace h := bind_ok.1 h
    obtain ⟨body, s₅, h4, h⟩ := h
    replace h := bind_ok.1 h
    obtain ⟨s₆, s₇, h5, h⟩ := h
    cases h5
    replace h := bind_ok_unit.1 h
    obtain ⟨s₈, h6, h⟩ := h
    cases h
    obtain ⟨k1, w1, ht⟩ := condition_wt (k0.ok hs) h3
    have d1 := condition_steady _ _ _ _ _ h3
    have k3 : Grow s₅ s' := .keeps (setDepth_keeps _) h6
    exact (block_defs (loop := true) hn hz (k1.ok (k0.ok hs)) (by rw [d1, d0]; exact Nat.mod_lt _ (by decide)) (fun _ => rfl) h4).mono
      (k0.trans k1).ext.len k3.ext.len
  · replace h := bind_ok_unit.1 h
    obtain ⟨s₁, h1, h⟩ := h
    cases h
    exact .nil _ _
  · replace h := bind_ok_unit.1 h
    obtain ⟨s₁, h1, h⟩ := h
    cases h
    exact .nil _ _
  · replace h := bind_ok.1 h
    obtain ⟨id, s₁, h1, h⟩ := h
    replace h := bind_ok.1 h
    obtain ⟨body, s₂, h2, h⟩ := h
    replace h := bind_ok_unit.1 h
    obtain ⟨s₃, h3, h⟩ := h
    cases h
    unfold declareNamespace at h1
    replace h1 := bind_ok.1 h1
    obtain ⟨t, t₁, g1, h1⟩ := h1
    replace h1 := bind_ok.1 h1
    obtain ⟨n, t₂, g2, h1⟩ := h1
    replace h1 := bind_ok.1 h1
    obtain ⟨i, t₃, g3, h1⟩ := h1
    rw [newSym_eq] at g3
    cases g3
    replace h1 := bind_ok_unit.1 h1
    obtain ⟨t₄, g4, h1⟩ := h1
    cases h1
    have j1 : Grow s t₁ := .keeps (headTok_keeps _) g1
    have j2 : Grow t₁ t₂ := .keeps (tokName_keeps _) g2
    have j3 : Grow t₂ (t₂.push { name := n, loc := some t, kind := .ns Option.none }) := .push trivial
    have j4 : Grow _ s₁ := .of_eq (mustAdd_grow g4)
    have i1 := headTok_steady _ _ _ _ g1
    have i2 := tokName_steady _ _ _ _ g2
    have i4 := mustAdd_steady _ _ _ _ g4
    have ii : s₁.whileDepth = s.whileDepth := by rw [i4, ← i1, ← i2]; rfl
    have jj := ((j1.trans j2).trans j3).trans j4
    have x := block_defs (loop := loop) hn hz (jj.ok hs) (by rw [ii]; exact hd) (by rw [ii]; exact hl) h2
    refine x.mono jj.ext.len ?_
    unfold closeNamespace updSym at h3
    split at h3
    · cases h3
    · split at h3
      · cases h3; simp
      · cases h3
  · replace h := bind_ok_unit.1 h
    obtain ⟨s₁, h1, h⟩ := h
    cases h
    exact .nil _ _
  all_goals
    cases h
    exact .nil _ _

theorem nodes_defs {cfg : Cfg} : ∀ t, NodesDefs cfg t
  | .nil => by
    intro before s a s' loop _ hs hd hl h
    unfold validateNodes at h
    cases h
    exact .nil _ _
  | .node stmt tok tokEnd child next => by
    intro before s a s' loop hz hs hd hl h
    unfold validateNodes at h
    replace h := bind_ok_unit.1 h
    obtain ⟨s₁, h1, h⟩ := h
    obtain rfl := sane_state h1
    replace h := bind_ok.1 h
    obtain ⟨r, s₂, h2, h⟩ := h
    replace h := bind_ok.1 h
    obtain ⟨rest, s₃, h3, h⟩ := h
    cases h
    obtain ⟨k2, d2, _⟩ := stmt_wt (nodes_wt child) hz.1 hz.2.1 hs hd hl h2
    obtain ⟨k3, _⟩ := nodes_wt next _ _ _ _ loop hz.2.2 (k2.ok hs) (by rw [d2]; exact hd) (by rw [d2]; exact hl) h3
    have x2 := stmt_defs (nodes_defs child) hz.1 hz.2.1 hs hd hl h2
    have x3 := nodes_defs next _ _ _ _ loop hz.2.2 (k2.ok hs) (by rw [d2]; exact hd) (by rw [d2]; exact hl) h3
    rw [node_defs]
    exact x2.append x3 (Nat.le_refl _) k2.ext.len k3.ext.len (Nat.le_refl _)

/-- The declarations of a checked program are different from each other and from the main function. -/
theorem semantic_defs {cfg : Cfg} {t : Tree} {a : ATree} {s : SS} (hp : Parsed t) (h : semantic cfg t = .ok a s) :
    a.defs.Nodup ∧ 0 ∉ a.defs := by
  unfold semantic at h
  cases hs : setupState cfg with
  | none => rw [hs] at h; cases h
  | some s₀ =>
    rw [hs] at h
    simp only at h
    unfold validateAstTree at h
    replace h := bind_ok.1 h
    obtain ⟨a', s₁, h1, h⟩ := h
    replace h := bind_ok_unit.1 h
    obtain ⟨s₂, h2, h⟩ := h
    replace h := bind_ok_unit.1 h
    obtain ⟨s₃, h3, h⟩ := h
    have h0 : SymsOk s₀.syms ∧ s₀.whileDepth = 0 ∧ s₀.syms.length = 1 := by
      unfold setupState at hs
      cases hn : createMainFuncName cfg.filename with
      | none => rw [hn] at hs; cases hs
      | some name =>
        rw [hn] at hs
        cases hs
        refine ⟨?_, rfl, rfl⟩
        intro id sym hid
        cases id with
        | zero => cases hid; rfl
        | succ n => cases hid
    have w := nodes_defs t [] s₀ a' s₁ false (parsed_sized hp) h0.1 (by rw [h0.2.1]; decide) (by rw [h0.2.1]; decide) h1
    have e : a' = a := by
      split at h
      · cases h; rfl
      · replace h := bind_ok.1 h
        obtain ⟨err, s₄, h4, h⟩ := h
        split at h
        · cases h
        · cases h; rfl
    rw [← e]
    refine ⟨w.1, fun h => ?_⟩
    have := (w.2 _ h).1
    omega

end Skull
