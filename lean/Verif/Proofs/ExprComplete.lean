import Verif.Proofs.ExprSound
/-
The expression parser never runs out of fuel, and it accepts every chain.
-/
namespace Skull
open Spec

theorem Step.len {s s' : PS} (h : Step s s') : s'.toks.length ≤ s.toks.length := by
  obtain ⟨p, hp, _⟩ := h.toks
  rw [hp]; simp

/-- Enough fuel for each function. -/
structure FuelAt (f : Nat) : Prop where
  expr : ∀ s, 5 * s.toks.length + 4 ≤ f → parseExpression f s ≠ .fuel
  loop : ∀ c s, 5 * s.toks.length + 3 ≤ f → parseRhsLoop f c s ≠ .fuel
  single : ∀ s, 5 * s.toks.length + 2 ≤ f → parseSingle f s ≠ .fuel
  root : ∀ s, 5 * s.toks.length + 1 ≤ f → parseRoot f s ≠ .fuel
  args : ∀ n as k s, 5 * s.toks.length + 5 ≤ f → parseArgs f n as k s ≠ .fuel

theorem fuel_expr {f : Nat} (ih : FuelAt f) (s : PS) (hf : 5 * s.toks.length + 4 ≤ f + 1) :
    parseExpression (f + 1) s ≠ .fuel := by
  intro h
  simp only [parseExpression] at h
  split at h
  · simp at h
  · split at h
    · rename_i h1
      have hl := ((stepAt f).single _ _ _ h1).len
      split at h
      · simp at h
      · split at h
        · simp at h
        · exact ih.loop _ _ (by omega) h
    · simp at h
    · rename_i h1; exact ih.single _ (by omega) h1

theorem fuel_loop {f : Nat} (ih : FuelAt f) (c : Expr) (s : PS) (hf : 5 * s.toks.length + 3 ≤ f + 1) :
    parseRhsLoop (f + 1) c s ≠ .fuel := by
  intro h
  simp only [parseRhsLoop] at h
  split at h
  · simp at h
  · rename_i ht
    rw [ht] at hf; simp at hf
    split at h
    · simp at h
    · split at h
      · simp at h
      · split at h
        · simp at h
        · rename_i h1
          have hl := ((stepAt f).single _ _ _ h1).len
          simp at hl
          split at h
          · simp at h
          · exact ih.loop _ _ (by omega) h
        · simp at h
        · rename_i h1; exact ih.single _ (by simp; omega) h1

theorem fuel_single {f : Nat} (ih : FuelAt f) (s : PS) (hf : 5 * s.toks.length + 2 ≤ f + 1) :
    parseSingle (f + 1) s ≠ .fuel := by
  intro h
  simp only [parseSingle] at h
  split at h
  · simp at h
  · rename_i ht
    split at h
    · exact ih.root _ (by omega) h
    · rw [ht] at hf
      split at h
      · simp at h
      · simp at hf
        split at h
        · simp at h
        · split at h
          · simp at h
          · simp at h
          · simp at h
          · rename_i h1; exact ih.root _ (by simp; omega) h1

theorem fuel_root {f : Nat} (ih : FuelAt f) (s : PS) (hf : 5 * s.toks.length + 1 ≤ f + 1) :
    parseRoot (f + 1) s ≠ .fuel := by
  intro h
  simp only [parseRoot] at h
  split at h
  · simp at h
  · rename_i t rest ht
    rw [ht] at hf; simp at hf
    split at h
    · split at h
      · simp at h
      · split at h
        · simp at h
        · split at h <;> simp at h
      · simp at h
      · rename_i h1; exact ih.expr _ (by simp; omega) h1
    · split at h
      · rename_i hcall
        cases rest with
        | nil => simp at hcall
        | cons o rest2 => simp at hf; exact ih.args _ _ _ _ (by simp; omega) h
      · split at h <;> simp at h

theorem fuel_args {f : Nat} (ih : FuelAt f) (n as k) (s : PS) (hf : 5 * s.toks.length + 5 ≤ f + 1) :
    parseArgs (f + 1) n as k s ≠ .fuel := by
  intro h
  simp only [parseArgs] at h
  split at h
  · simp at h
  · split at h
    · simp at h
    · split at h
      · rename_i h1
        have hl := ((stepAt f).expr _ _ _ h1).len
        split at h
        · simp at h
        · rename_i ht
          rw [ht] at hl; simp at hl
          split at h
          · simp at h
          · split at h
            · simp at h
            · split at h
              · simp at h
              · exact ih.args _ _ _ _ (by simp; omega) h
      · simp at h
      · rename_i h1; exact ih.expr _ (by omega) h1

theorem fuelAt (f : Nat) : FuelAt f := by
  induction f with
  | zero => constructor <;> intros <;> omega
  | succ f ih => exact ⟨fuel_expr ih, fuel_loop ih, fuel_single ih, fuel_root ih, fuel_args ih⟩

theorem parseExpr_fuel (s : PS) : parseExpr s ≠ .fuel := (fuelAt _).expr s (by unfold exprFuel; omega)

theorem parseExpr_ub (s : PS) : parseExpr s ≠ .ub := (stepAt _).exprUb s

/- ### Completeness -/

/-- The first token of an atom, an operand and a chain. -/
def StartOk (t : Token) : Prop :=
  t.ty = .parenOpen ∨ isName t = true ∨ isLiteral t = true ∨ (unLevel t.ty).isSome = true

theorem atom_start (a : Atom) (h : a.WF) :
    ∃ t ts, a.tokens = t :: ts ∧ (t.ty = .parenOpen ∨ isName t = true ∨ isLiteral t = true) := by
  cases a with
  | leaf t => exact ⟨t, [], by simp [Atom.tokens], by simp only [Atom.WF] at h; exact .inr h⟩
  | call n o as c => exact ⟨n, _, by simp only [Atom.tokens]; rfl, by simp only [Atom.WF] at h; exact .inr (.inl h.1)⟩
  | group o c cl => exact ⟨o, _, by simp only [Atom.tokens]; rfl, by simp only [Atom.WF] at h; exact .inl h.1⟩

theorem operand_start (o : Operand) (h : o.WF) : ∃ t ts, o.tokens = t :: ts ∧ StartOk t := by
  cases o with
  | plain a =>
    simp only [Operand.WF] at h
    obtain ⟨t, ts, h1, h2⟩ := atom_start a h
    exact ⟨t, ts, by simp [Operand.tokens, h1], by unfold StartOk; rcases h2 with h2 | h2 | h2 <;> simp [h2]⟩
  | pre t a => exact ⟨t, _, by simp only [Operand.tokens]; rfl, by simp only [Operand.WF] at h; exact .inr (.inr (.inr h.1))⟩
  | bare t => exact ⟨t, [], by simp [Operand.tokens], by simp only [Operand.WF] at h; exact .inr (.inr (.inr h))⟩

theorem chain_start : ∀ c : Chain, c.WF → ∃ t ts, c.tokens = t :: ts ∧ StartOk t
  | .one o, h => by
    simp only [Chain.WF] at h
    simpa [Chain.tokens] using operand_start o h
  | .more c t o, h => by
    simp only [Chain.WF] at h
    obtain ⟨u, ts, h1, h2⟩ := chain_start c h.1
    exact ⟨u, ts ++ t :: o.tokens, by simp [Chain.tokens, h1], h2⟩

theorem startOk_not {t : Token} (h : StartOk t) (ty : TokType)
    (hty : ty = .comma ∨ ty = .newline ∨ ty = .parenClose) : t.ty ≠ ty := by
  intro he
  unfold StartOk at h
  simp [isName, isLiteral, he] at h
  rcases hty with rfl | rfl | rfl <;> simp [unLevel] at h

theorem atomStart_unary {t : Token} (h : t.ty = .parenOpen ∨ isName t = true ∨ isLiteral t = true) :
    unaryOper t.ty = .unknown := by
  simp [isName, isLiteral] at h
  rcases h with h | (h | h) | (((h | h) | h) | h) | h <;> rw [h] <;> rfl

/-- What may follow an operand. -/
def TailOk (tail : List Token) : Prop := (tail.head?.map (·.ty)) ≠ some .parenOpen

/-- The loop stops at a token that is no binary operator. -/
theorem loop_stop {f : Nat} {e : Expr} {s : PS} {t : Token} {rest : List Token} (hs : s.toks = t :: rest)
    (hb : binaryOper t.ty = .unknown) : parseRhsLoop (f + 1) e s = .ok (some e) s := by
  simp only [parseRhsLoop, hs, hb, if_true]

theorem root_group {f : Nat} {s : PS} {t cl : Token} {rest tail : List Token} {e : Expr} (ht : t.ty = .parenOpen)
    (hcl : cl.ty = .parenClose) (hs : s.toks = t :: rest)
    (he : parseExpression f { s with toks := rest } = .ok (some e) { s with toks := cl :: tail }) :
    parseRoot (f + 1) s = .ok (some e) { s with toks := tail } := by
  simp [parseRoot, hs, ht, he, hcl]

theorem parseExpr_none {f : Nat} {s : PS} {t : Token} {rest : List Token} (hs : s.toks = t :: rest)
    (ht : t.ty = .parenClose) (he : s.err = false) : parseExpression (f + 3) s = .ok none s := by
  have h1 : unaryOper t.ty = .unknown := by rw [ht]; rfl
  have h2 : isIdentLike t = false := by simp [isIdentLike, ht]
  have h3 : isSingleTokenExpr t.ty = false := by rw [ht]; rfl
  have hr : parseRoot (f + 1) s = .ok none s := by
    simp [parseRoot, hs, h2, h3]; intro h; rw [ht] at h; exact absurd h (by decide)
  have hsg : parseSingle (f + 2) s = .ok none s := by simp [parseSingle, hs, h1, hr]
  simp [parseExpression, hs, hsg, he]

mutual
theorem complete_atom : ∀ (a : Atom), a.WF → a.Full → ∀ (f : Nat) (s : PS) (tail : List Token), s.err = false → TailOk tail →
    s.toks = a.tokens ++ tail → 5 * s.toks.length + 1 ≤ f →
    parseRoot f s = .ok (some (buildAtom a)) { s with toks := tail }
  | .leaf t, hw, _, f, s, tail, _, ht, hs, hf => by
    simp only [Atom.WF] at hw
    obtain ⟨f, rfl⟩ : ∃ g, f = g + 1 := ⟨f - 1, by omega⟩
    simp only [Atom.tokens, List.cons_append, List.nil_append] at hs
    have h1 : ¬t.ty = .parenOpen := by
      intro h; simp [isName, isLiteral, h] at hw
    have h2 : ¬(isIdentLike t = true ∧ tail.head?.map (·.ty) = some .parenOpen) := by
      intro h; exact ht h.2
    have h3 := (single_iff t).2 hw
    simp only [parseRoot, hs, h1, if_false, Bool.and_eq_true, decide_eq_true_eq, h2, h3, if_true, buildAtom]
  | .call n o as c, hw, hfl, f, s, tail, he, _, hs, hf => by
    simp only [Atom.WF, Atom.Full] at hw hfl
    obtain ⟨f, rfl⟩ : ∃ g, f = g + 1 := ⟨f - 1, by omega⟩
    simp only [Atom.tokens, List.cons_append] at hs
    have h1 : ¬n.ty = .parenOpen := by
      intro h; simp [isName, h] at hw
    have h2 : isIdentLike n = true := by rw [← isName_eq]; exact hw.1
    simp [hs] at hf
    have ih := complete_seq as hw.2.2.1 hfl n .nil 0 f { s with toks := as.tokens ++ c :: tail } c tail he hw.2.2.2 (by decide)
      rfl (by simp; omega)
    simp [parseRoot, hs, h1, h2, hw.2.1, ih, buildAtom, Args.append]
  | .group o c cl, hw, hfl, f, s, tail, he, _, hs, hf => by
    simp only [Atom.WF, Atom.Full] at hw hfl
    obtain ⟨f, rfl⟩ : ∃ g, f = g + 1 := ⟨f - 1, by omega⟩
    simp only [Atom.tokens, List.cons_append, List.append_assoc, List.nil_append] at hs
    simp [hs] at hf
    have hcl : binaryOper cl.ty = .unknown := by rw [hw.2.2]; rfl
    obtain ⟨f', hf', ih⟩ := complete_chain c hw.2.1 hfl f { s with toks := c.tokens ++ cl :: tail } (cl :: tail) he
      (by simp [TailOk, hw.2.2]) rfl (by simp; omega)
    obtain ⟨f', rfl⟩ : ∃ g, f' = g + 1 := ⟨f' - 1, by omega⟩
    rw [loop_stop (t := cl) (rest := tail) rfl hcl] at ih
    simp only [buildAtom]
    exact root_group hw.1 hw.2.2 hs ih
theorem complete_operand : ∀ (o : Operand), o.WF → o.Full → ∀ (f : Nat) (s : PS) (tail : List Token), s.err = false →
    TailOk tail → s.toks = o.tokens ++ tail → 5 * s.toks.length + 2 ≤ f →
    parseSingle f s = .ok (some (buildOperand o)) { s with toks := tail }
  | .plain a, hw, hfl, f, s, tail, he, ht, hs, hf => by
    simp only [Operand.WF, Operand.Full] at hw hfl
    obtain ⟨f, rfl⟩ : ∃ g, f = g + 1 := ⟨f - 1, by omega⟩
    simp only [Operand.tokens] at hs
    obtain ⟨t, ts, h1, h2⟩ := atom_start a hw
    have ih := complete_atom a hw hfl f s tail he ht hs (by omega)
    simp only [parseSingle]
    rw [hs, h1]
    simp [atomStart_unary h2, buildOperand, ih]
  | .pre t a, hw, hfl, f, s, tail, he, ht, hs, hf => by
    simp only [Operand.WF, Operand.Full] at hw hfl
    obtain ⟨f, rfl⟩ : ∃ g, f = g + 1 := ⟨f - 1, by omega⟩
    simp only [Operand.tokens, List.cons_append] at hs
    obtain ⟨t2, ts, h1, h2⟩ := atom_start a hw.2
    simp [hs] at hf
    have ih := complete_atom a hw.2 hfl f { s with toks := a.tokens ++ tail } tail he ht rfl (by simp; omega)
    simp only [parseSingle, hs]
    rw [if_neg ((unOper_iff t.ty).2 hw.1)]
    rw [h1] at ih ⊢
    simp only [List.cons_append] at ih ⊢
    simp [atomStart_unary h2, ih, buildOperand]
  | .bare t, _, hfl, _, _, _, _, _, _, _ => by simp only [Operand.Full] at hfl
theorem complete_chain : ∀ (c : Chain), c.WF → c.Full → ∀ (f : Nat) (s : PS) (tail : List Token), s.err = false →
    TailOk tail → s.toks = c.tokens ++ tail → 5 * s.toks.length + 4 ≤ f →
    ∃ f', 5 * tail.length + 3 ≤ f' ∧
      parseExpression f s = parseRhsLoop f' (buildChain c) { s with toks := tail }
  | .one o, hw, hfl, f, s, tail, he, ht, hs, hf => by
    simp only [Chain.WF, Chain.Full] at hw hfl
    obtain ⟨f, rfl⟩ : ∃ g, f = g + 1 := ⟨f - 1, by omega⟩
    simp only [Chain.tokens] at hs
    obtain ⟨t, ts, h1, _⟩ := operand_start o hw
    have ih := complete_operand o hw hfl f s tail he ht hs (by omega)
    refine ⟨f, ?_, ?_⟩
    · rw [hs] at hf; simp at hf; omega
    · simp only [parseExpression]
      rw [hs, h1]
      simp [ih, he, buildChain]
  | .more c t o, hw, hfl, f, s, tail, he, ht, hs, hf => by
    simp only [Chain.WF, Chain.Full] at hw hfl
    simp only [Chain.tokens, List.append_assoc, List.cons_append] at hs
    have hb := (binOper_iff t.ty).2 hw.2.1
    have hto : TailOk (t :: (o.tokens ++ tail)) := by
      intro h
      simp at h
      have := hw.2.1
      rw [h] at this
      exact absurd this (by decide)
    obtain ⟨f', hf', ih⟩ := complete_chain c hw.1 hfl.1 f s (t :: (o.tokens ++ tail)) he hto hs hf
    simp at hf'
    obtain ⟨f', rfl⟩ : ∃ g, f' = g + 1 := ⟨f' - 1, by omega⟩
    have iho := complete_operand o hw.2.2 hfl.2 f' { s with toks := o.tokens ++ tail } tail he ht rfl (by simp; omega)
    refine ⟨f', by omega, ?_⟩
    rw [ih]
    simp only [he] at iho ⊢
    simp only [parseRhsLoop, hb.1, hb.2, if_false, Bool.false_eq_true, iho, buildChain]
theorem complete_seq : ∀ (q : Seq), q.WF → q.Full → ∀ (n : Token) (as : Args) (k f : Nat) (s : PS) (cl : Token)
    (tail : List Token), s.err = false → cl.ty = .parenClose → k < 65536 → s.toks = q.tokens ++ cl :: tail →
    5 * s.toks.length + 5 ≤ f →
    parseArgs f n as k s =
      .ok (some (.call n (as.append (buildSeq q)) ((k + seqCount q) % 65536))) { s with toks := tail }
  | .nil, _, _, n, as, k, f, s, cl, tail, he, hcl, hk, hs, hf => by
    simp only [Seq.tokens, List.nil_append] at hs
    obtain ⟨f, rfl⟩ : ∃ g, f = g + 4 := ⟨f - 4, by omega⟩
    have h1 := parseExpr_none (f := f) hs hcl he
    simp only [parseArgs, hs, h1]
    simp [hcl, buildSeq, Args.append_nil, seqCount, Nat.mod_eq_of_lt hk]
  | .last c, hw, hfl, n, as, k, f, s, cl, tail, he, hcl, hk, hs, hf => by
    simp only [Seq.WF, Seq.Full] at hw hfl
    simp only [Seq.tokens] at hs
    obtain ⟨f, rfl⟩ : ∃ g, f = g + 1 := ⟨f - 1, by omega⟩
    have hb : binaryOper cl.ty = .unknown := by rw [hcl]; rfl
    obtain ⟨f', hf', ih⟩ := complete_chain c hw hfl f s (cl :: tail) he (by simp [TailOk, hcl]) hs (by omega)
    obtain ⟨f', rfl⟩ : ∃ g, f' = g + 1 := ⟨f' - 1, by omega⟩
    rw [loop_stop (t := cl) (rest := tail) rfl hb] at ih
    obtain ⟨t, ts, h1, h2⟩ := chain_start c hw
    have hfirst : chainFirst c = t := by simp [chainFirst, h1]
    have hnc := startOk_not h2 .comma (.inl rfl)
    have happ := Args.snoc_append t (buildChain c) .nil as
    rw [Args.append_nil] at happ
    have hs2 : s.toks = t :: (ts ++ cl :: tail) := by rw [hs, h1]; rfl
    simp only [parseArgs, hs2, hnc, if_false, ih]
    simp [hcl, buildSeq, happ, seqCount, hfirst]
  | .cons c t r, hw, hfl, n, as, k, f, s, cl, tail, he, hcl, hk, hs, hf => by
    simp only [Seq.WF, Seq.Full] at hw hfl
    simp only [Seq.tokens, List.append_assoc, List.cons_append] at hs
    obtain ⟨f, rfl⟩ : ∃ g, f = g + 1 := ⟨f - 1, by omega⟩
    have hb : binaryOper t.ty = .unknown := by rw [hw.2.1]; rfl
    obtain ⟨f', hf', ih⟩ := complete_chain c hw.1 hfl.1 f s (t :: (r.tokens ++ cl :: tail)) he (by simp [TailOk, hw.2.1]) hs
      (by omega)
    obtain ⟨f', rfl⟩ : ∃ g, f' = g + 1 := ⟨f' - 1, by omega⟩
    rw [loop_stop (t := t) (rest := r.tokens ++ cl :: tail) rfl hb] at ih
    obtain ⟨u, ts, h1, h2⟩ := chain_start c hw.1
    have hfirst : chainFirst c = u := by simp [chainFirst, h1]
    have hnc := startOk_not h2 .comma (.inl rfl)
    have hs2 : s.toks = u :: (ts ++ t :: (r.tokens ++ cl :: tail)) := by rw [hs, h1]; rfl
    have ihr := complete_seq r hw.2.2 hfl.2 n (as.snoc u (buildChain c)) ((k + 1) % 65536) f
      { s with toks := r.tokens ++ cl :: tail } cl tail he hcl (Nat.mod_lt _ (by decide)) rfl
      (by rw [hs2] at hf; simp at hf; simp; omega)
    simp only [parseArgs, hs2, hnc, if_false, ih]
    simp only [hw.2.1, reduceCtorEq, if_false, ne_eq, not_true, ihr]
    rw [Args.snoc_append]
    simp [buildSeq, seqCount, hfirst]; omega
end

end Skull
