import Verif.Model.Parser
import Verif.Spec.Grammar
/-
The trees `parse_expression` builds, in terms of the chains of Spec/Grammar, and: what it accepts is a chain.
-/
namespace Skull
open Spec

/-- The first token of a chain. -/
def chainFirst (c : Chain) : Token := c.tokens.headD default

/-- Append lists of arguments. -/
def Args.append : Args → Args → Args
  | .nil, b => b
  | .cons t e n, b => .cons t e (n.append b)

/-- The number of arguments. -/
def seqCount : Seq → Nat
  | .nil => 0
  | .last _ => 1
  | .cons _ _ r => seqCount r + 1

mutual
/-- The tree the parser builds for a chain. -/
def buildAtom : Atom → Expr
  | .leaf t => if isIdentLike t then .ident t else .const t
  | .call n _ as _ => .call n (buildSeq as) (seqCount as % 65536)
  | .group _ c _ => buildChain c
def buildOperand : Operand → Expr
  | .plain a => buildAtom a
  | .pre t a => .un (unaryOper t.ty) (buildAtom a)
  | .bare t => .un (unaryOper t.ty) .missing
def buildChain : Chain → Expr
  | .one o => buildOperand o
  | .more c t o => attach (buildChain c) (binaryOper t.ty) (buildOperand o)
def buildSeq : Seq → Args
  | .nil => .nil
  | .last c => .cons (chainFirst c) (buildChain c) .nil
  | .cons c _ r => .cons (chainFirst c) (buildChain c) (buildSeq r)
end

theorem isName_eq (t : Token) : isName t = isIdentLike t := by
  unfold isName isIdentLike; cases t.ty <;> rfl

theorem single_iff (t : Token) : isSingleTokenExpr t.ty = true ↔ isName t = true ∨ isLiteral t = true := by
  unfold isSingleTokenExpr isName isLiteral; cases t.ty <;> simp

theorem binOper_iff (ty : TokType) :
    (binaryOper ty ≠ .unknown ∧ isUnaryOper (binaryOper ty) = false) ↔ (binLevel ty).isSome = true := by
  cases ty <;> simp [binaryOper, isUnaryOper, binLevel]

theorem binOf_eq {ty : TokType} (h : (binLevel ty).isSome = true) : binaryOper ty = binOf ty := by
  cases ty <;> simp [binLevel, binaryOper, binOf] at *

theorem binLevel_eq {ty : TokType} (h : (binLevel ty).isSome = true) :
    operToPrecedence (binaryOper ty) = (binLevel ty).getD 0 := by
  cases ty <;> simp [binLevel, binaryOper, operToPrecedence] at *

theorem unOper_iff (ty : TokType) : unaryOper ty ≠ .unknown ↔ (unLevel ty).isSome = true := by
  cases ty <;> simp [unaryOper, unLevel]

theorem unOf_eq (ty : TokType) : unaryOper ty = unOf ty := by cases ty <;> rfl

theorem unLevel_eq {ty : TokType} (h : (unLevel ty).isSome = true) :
    operToPrecedence (unaryOper ty) = (unLevel ty).getD 0 := by
  cases ty <;> simp [unLevel, unaryOper, operToPrecedence] at *

theorem Args.append_nil : ∀ a : Args, a.append .nil = a
  | .nil => rfl
  | .cons _ _ n => by rw [Args.append, Args.append_nil n]

theorem Args.snoc_append (t : Token) (e : Expr) (b : Args) : ∀ a : Args, (a.snoc t e).append b = a.append (.cons t e b)
  | .nil => rfl
  | .cons _ _ n => by rw [Args.snoc, Args.append, Args.append, Args.snoc_append t e b n]

mutual
theorem atom_tokens_ne : ∀ a : Atom, a.tokens ≠ []
  | .leaf _ => by simp [Atom.tokens]
  | .call .. => by simp [Atom.tokens]
  | .group .. => by simp [Atom.tokens]
theorem operand_tokens_ne : ∀ o : Operand, o.tokens ≠ []
  | .plain a => by simpa [Operand.tokens] using atom_tokens_ne a
  | .pre .. => by simp [Operand.tokens]
  | .bare .. => by simp [Operand.tokens]
theorem chain_tokens_ne : ∀ c : Chain, c.tokens ≠ []
  | .one o => by simpa [Chain.tokens] using operand_tokens_ne o
  | .more .. => by simp [Chain.tokens]
end

theorem chainFirst_eq {c : Chain} {t : Token} {rest r : List Token} (h : t :: rest = c.tokens ++ r) : chainFirst c = t := by
  unfold chainFirst
  cases hc : c.tokens with
  | nil => exact absurd hc (chain_tokens_ne c)
  | cons a b => rw [hc] at h; simp at h; simp [h.1]

/-- How the state of the parser may change: tokens are consumed, but no newline; diagnostics are added; `err` is set only with a
diagnostic and never cleared. -/
structure Step (s s' : PS) : Prop where
  toks : ∃ pre, s.toks = pre ++ s'.toks ∧ ∀ t ∈ pre, t.ty ≠ .newline
  diags : ∃ d, s'.diags = d ++ s.diags ∧ (s'.err = true → s.err = true ∨ d ≠ [])
  mono : s.err = true → s'.err = true

theorem Step.refl (s : PS) : Step s s :=
  ⟨⟨[], by simp⟩, ⟨[], by simp⟩, fun h => h⟩

theorem Step.trans {a b c : PS} (h1 : Step a b) (h2 : Step b c) : Step a c := by
  obtain ⟨⟨p, hp, hpn⟩, ⟨d, hd, hde⟩, hm⟩ := h1
  obtain ⟨⟨q, hq, hqn⟩, ⟨e, he, hee⟩, hm'⟩ := h2
  refine ⟨⟨p ++ q, by simp [hp, hq], ?_⟩, ⟨e ++ d, by simp [hd, he], ?_⟩, fun h => hm' (hm h)⟩
  · intro t ht
    rcases List.mem_append.1 ht with h | h
    · exact hpn t h
    · exact hqn t h
  · intro h
    rcases hee h with h | h
    · rcases hde h with h | h
      · exact .inl h
      · right; simp [h]
    · right; simp [h]

theorem Step.fail (s : PS) (c : Code) (t : Option Token) : Step s (s.fail c t) :=
  ⟨⟨[], by simp [PS.fail]⟩, ⟨[⟨c, t⟩], by simp [PS.fail]⟩, fun _ => rfl⟩

theorem Step.next {s : PS} {t : Token} {rest : List Token} (h : s.toks = t :: rest) (ht : t.ty ≠ .newline) :
    Step s { s with toks := rest } :=
  ⟨⟨[t], by simp [h], by simpa using ht⟩, ⟨[], by simp⟩, fun h => h⟩

/-- Every function of the expression parser makes a `Step`, and only `parse_root_expr` at the end of the tokens is undefined. -/
structure StepAt (f : Nat) : Prop where
  expr : ∀ s e s', parseExpression f s = .ok e s' → Step s s'
  loop : ∀ c s e s', parseRhsLoop f c s = .ok e s' → Step s s'
  single : ∀ s e s', parseSingle f s = .ok e s' → Step s s'
  root : ∀ s e s', parseRoot f s = .ok e s' → Step s s'
  args : ∀ n as k s e s', parseArgs f n as k s = .ok e s' → Step s s'
  exprUb : ∀ s, parseExpression f s ≠ .ub
  loopUb : ∀ c s, parseRhsLoop f c s ≠ .ub
  singleUb : ∀ s, parseSingle f s ≠ .ub
  rootUb : ∀ s, s.toks ≠ [] → parseRoot f s ≠ .ub
  argsUb : ∀ n as k s, parseArgs f n as k s ≠ .ub

theorem binary_not_newline {t : Token} (h : ¬binaryOper t.ty = .unknown) : t.ty ≠ .newline := by
  intro hn; rw [hn] at h; exact h rfl

theorem unary_not_newline {t : Token} (h : ¬unaryOper t.ty = .unknown) : t.ty ≠ .newline := by
  intro hn; rw [hn] at h; exact h rfl

theorem single_not_newline {t : Token} (h : isSingleTokenExpr t.ty = true) : t.ty ≠ .newline := by
  intro hn; rw [hn] at h; exact absurd h (by decide)

theorem step_expr {f : Nat} (ih : StepAt f) (s e s') (h : parseExpression (f + 1) s = .ok e s') : Step s s' := by
  simp only [parseExpression] at h
  split at h
  · simp at h; rw [← h.2]; exact Step.refl _
  · split at h
    · rename_i h1
      have hs := ih.single _ _ _ h1
      split at h
      · simp at h; rw [← h.2]; exact hs
      · split at h
        · simp at h; rw [← h.2]; exact hs
        · exact hs.trans (ih.loop _ _ _ _ h)
    · simp at h
    · simp at h

theorem step_exprUb {f : Nat} (ih : StepAt f) (s) : parseExpression (f + 1) s ≠ .ub := by
  intro h
  simp only [parseExpression] at h
  split at h
  · simp at h
  · split at h
    · split at h
      · simp at h
      · split at h
        · simp at h
        · exact ih.loopUb _ _ h
    · rename_i h1; exact ih.singleUb _ h1
    · simp at h

theorem step_loop {f : Nat} (ih : StepAt f) (c s e s') (h : parseRhsLoop (f + 1) c s = .ok e s') : Step s s' := by
  simp only [parseRhsLoop] at h
  split at h
  · simp at h; rw [← h.2]; exact Step.refl _
  · rename_i t rest htoks
    split at h
    · simp at h; rw [← h.2]; exact Step.refl _
    · rename_i hop
      have hn := Step.next htoks (binary_not_newline hop)
      split at h
      · simp at h; rw [← h.2]; exact Step.fail _ _ _
      · split at h
        · rename_i h1
          simp at h; rw [← h.2]
          exact (hn.trans (ih.single _ _ _ h1)).trans (Step.fail _ _ _)
        · rename_i h1
          have hs := hn.trans (ih.single _ _ _ h1)
          split at h
          · simp at h; rw [← h.2]; exact hs
          · exact hs.trans (ih.loop _ _ _ _ h)
        · simp at h
        · simp at h

theorem step_loopUb {f : Nat} (ih : StepAt f) (c s) : parseRhsLoop (f + 1) c s ≠ .ub := by
  intro h
  simp only [parseRhsLoop] at h
  split at h
  · simp at h
  · split at h
    · simp at h
    · split at h
      · simp at h
      · split at h
        · simp at h
        · split at h
          · simp at h
          · exact ih.loopUb _ _ h
        · rename_i h1; exact ih.singleUb _ h1
        · simp at h

theorem step_single {f : Nat} (ih : StepAt f) (s e s') (h : parseSingle (f + 1) s = .ok e s') : Step s s' := by
  simp only [parseSingle] at h
  split at h
  · simp at h; rw [← h.2]; exact Step.refl _
  · rename_i t rest htoks
    split at h
    · exact ih.root _ _ _ h
    · rename_i hun
      have hn := Step.next htoks (unary_not_newline hun)
      split at h
      · simp at h; rw [← h.2]; exact hn.trans (Step.fail _ _ _)
      · split at h
        · simp at h; rw [← h.2]; exact hn.trans (Step.fail _ _ _)
        · split at h
          · rename_i h1; simp at h; rw [← h.2]; exact hn.trans (ih.root _ _ _ h1)
          · rename_i h1; simp at h; rw [← h.2]; exact hn.trans (ih.root _ _ _ h1)
          · simp at h
          · simp at h

theorem step_singleUb {f : Nat} (ih : StepAt f) (s) : parseSingle (f + 1) s ≠ .ub := by
  intro h
  simp only [parseSingle] at h
  split at h
  · simp at h
  · rename_i htoks
    split at h
    · exact ih.rootUb _ (by simp [htoks]) h
    · split at h
      · simp at h
      · split at h
        · simp at h
        · split at h
          · simp at h
          · simp at h
          · rename_i h1; exact ih.rootUb _ (by simp) h1
          · simp at h

theorem step_root {f : Nat} (ih : StepAt f) (s e s') (h : parseRoot (f + 1) s = .ok e s') : Step s s' := by
  simp only [parseRoot] at h
  split at h
  · simp at h
  · rename_i t rest htoks
    split at h
    · rename_i hpo
      have hn := Step.next htoks (by rw [hpo]; decide)
      split at h
      · rename_i h1
        simp at h; rw [← h.2]
        exact (hn.trans (ih.expr _ _ _ h1)).trans (Step.fail _ _ _)
      · rename_i h1
        have hs := hn.trans (ih.expr _ _ _ h1)
        split at h
        · simp at h; rw [← h.2]; exact hs.trans (Step.fail _ _ _)
        · rename_i hcl
          split at h
          · simp at h; rw [← h.2]; exact hs.trans (Step.fail _ _ _)
          · rename_i hty
            simp at h; rw [← h.2]
            exact hs.trans (Step.next hcl (by simp at hty; rw [hty]; decide))
      · simp at h
      · simp at h
    · split at h
      · rename_i hcall
        cases hrest : rest with
        | nil => simp [hrest] at hcall
        | cons o rest2 =>
          simp [hrest] at hcall
          have h1 : t.ty ≠ .newline := by
            intro hn; simp [isIdentLike, hn] at hcall
          have hn : Step s { s with toks := rest2 } := by
            refine ⟨⟨[t, o], by simp [htoks, hrest], ?_⟩, ⟨[], by simp⟩, fun h => h⟩
            intro x hx; simp at hx
            rcases hx with rfl | rfl
            · exact h1
            · rw [hcall.2]; decide
          rw [hrest] at h
          exact hn.trans (ih.args _ _ _ _ _ _ h)
      · split at h
        · rename_i hst
          simp at h; rw [← h.2]; exact Step.next htoks (single_not_newline hst)
        · simp at h; rw [← h.2]; exact Step.refl _

theorem step_rootUb {f : Nat} (ih : StepAt f) (s) (hs : s.toks ≠ []) : parseRoot (f + 1) s ≠ .ub := by
  intro h
  simp only [parseRoot] at h
  split at h
  · simp_all
  · split at h
    · split at h
      · simp at h
      · split at h
        · simp at h
        · split at h <;> simp at h
      · rename_i h1; exact ih.exprUb _ h1
      · simp at h
    · split at h
      · exact ih.argsUb _ _ _ _ h
      · split at h <;> simp at h

theorem step_args {f : Nat} (ih : StepAt f) (n as k s e s') (h : parseArgs (f + 1) n as k s = .ok e s') :
    Step s s' := by
  simp only [parseArgs] at h
  split at h
  · simp at h; rw [← h.2]; exact Step.fail _ _ _
  · split at h
    · simp at h; rw [← h.2]; exact Step.fail _ _ _
    · split at h
      · rename_i h1
        have hs := ih.expr _ _ _ h1
        split at h
        · simp at h; rw [← h.2]; exact hs.trans (Step.fail _ _ _)
        · rename_i ht
          split at h
          · simp at h; rw [← h.2]; exact hs.trans (Step.fail _ _ _)
          · rename_i hnl
            split at h
            · simp at h; rw [← h.2]; exact hs.trans (Step.next ht hnl)
            · split at h
              · simp at h; rw [← h.2]; exact hs.trans (Step.fail _ _ _)
              · exact (hs.trans (Step.next ht hnl)).trans (ih.args _ _ _ _ _ _ h)
      · simp at h
      · simp at h

theorem step_argsUb {f : Nat} (ih : StepAt f) (n as k s) : parseArgs (f + 1) n as k s ≠ .ub := by
  intro h
  simp only [parseArgs] at h
  split at h
  · simp at h
  · split at h
    · simp at h
    · split at h
      · split at h
        · simp at h
        · split at h
          · simp at h
          · split at h
            · simp at h
            · split at h
              · simp at h
              · exact ih.argsUb _ _ _ _ h
      · rename_i h1; exact ih.exprUb _ h1
      · simp at h

theorem stepAt (f : Nat) : StepAt f := by
  induction f with
  | zero => constructor <;> intros <;> simp_all [parseExpression, parseRhsLoop, parseSingle, parseRoot, parseArgs]
  | succ f ih =>
    exact ⟨step_expr ih, step_loop ih, step_single ih, step_root ih, step_args ih, step_exprUb ih, step_loopUb ih,
      step_singleUb ih, step_rootUb ih, step_argsUb ih⟩

/-- What success of each function means. -/
structure SoundAt (f : Nat) : Prop where
  expr : ∀ s e s', parseExpression f s = .ok (some e) s' → s'.err = false →
    ∃ c : Chain, c.WF ∧ e = buildChain c ∧ s = { s' with toks := c.tokens ++ s'.toks }
  exprNone : ∀ s s', parseExpression f s = .ok none s' → s'.err = false → s' = s
  loop : ∀ c s e s', c.WF → parseRhsLoop f (buildChain c) s = .ok (some e) s' → s'.err = false →
    ∃ (d : Chain) (mid : List Token), d.WF ∧ e = buildChain d ∧ d.tokens = c.tokens ++ mid ∧
      s = { s' with toks := mid ++ s'.toks }
  loopNone : ∀ c s s', parseRhsLoop f c s = .ok none s' → s'.err = true
  single : ∀ s e s', parseSingle f s = .ok (some e) s' → s'.err = false →
    ∃ o : Operand, o.WF ∧ e = buildOperand o ∧ s = { s' with toks := o.tokens ++ s'.toks }
  singleNone : ∀ s s', parseSingle f s = .ok none s' → s'.err = false → s' = s
  root : ∀ s e s', parseRoot f s = .ok (some e) s' → s'.err = false →
    ∃ a : Atom, a.WF ∧ e = buildAtom a ∧ s = { s' with toks := a.tokens ++ s'.toks }
  rootNone : ∀ s s', parseRoot f s = .ok none s' → s'.err = false → s' = s
  args : ∀ n as k s e s', k < 65536 → parseArgs f n as k s = .ok (some e) s' → s'.err = false →
    ∃ (q : Seq) (cl : Token), q.WF ∧ cl.ty = .parenClose ∧
      e = .call n (as.append (buildSeq q)) ((k + seqCount q) % 65536) ∧
      s = { s' with toks := q.tokens ++ cl :: s'.toks }
  argsNone : ∀ n as k s s', parseArgs f n as k s = .ok none s' → s'.err = true

theorem fail_err (s : PS) (c : Code) (t : Option Token) : (s.fail c t).err = true := rfl

theorem sound_zero : SoundAt 0 := by
  constructor <;> intros <;> simp_all [parseExpression, parseRhsLoop, parseSingle, parseRoot, parseArgs]

theorem sound_expr {f : Nat} (ih : SoundAt f) (s e s') (h : parseExpression (f + 1) s = .ok (some e) s')
    (he : s'.err = false) :
    ∃ c : Chain, c.WF ∧ e = buildChain c ∧ s = { s' with toks := c.tokens ++ s'.toks } := by
  simp only [parseExpression] at h
  split at h
  · simp at h
  · split at h
    · rename_i head s1 h1
      split at h
      · simp at h
      · rename_i herr
        split at h
        · simp at h
        · rename_i x
          have hs1 : s1.err = false := by simpa using herr
          obtain ⟨o, hw, rfl, rfl⟩ := ih.single _ _ _ h1 hs1
          obtain ⟨d, mid, hd, rfl, ht, rfl⟩ := ih.loop (.one o) _ _ _ (by simpa [Chain.WF] using hw) h he
          refine ⟨d, hd, rfl, ?_⟩
          simp [ht, Chain.tokens]
    · simp at h
    · simp at h

theorem sound_exprNone {f : Nat} (ih : SoundAt f) (s s') (h : parseExpression (f + 1) s = .ok none s')
    (he : s'.err = false) : s' = s := by
  simp only [parseExpression] at h
  split at h
  · simp at h; exact h.symm
  · split at h
    · rename_i head s1 h1
      split at h
      · simp at h; subst h; simp_all
      · split at h
        · simp at h; subst h; exact ih.singleNone _ _ h1 he
        · have := ih.loopNone _ _ _ h; simp_all
    · simp at h
    · simp at h

theorem sound_loop {f : Nat} (ih : SoundAt f) (c s e s') (hc : c.WF)
    (h : parseRhsLoop (f + 1) (buildChain c) s = .ok (some e) s') (he : s'.err = false) :
    ∃ (d : Chain) (mid : List Token), d.WF ∧ e = buildChain d ∧ d.tokens = c.tokens ++ mid ∧
      s = { s' with toks := mid ++ s'.toks } := by
  simp only [parseRhsLoop] at h
  split at h
  · simp at h; obtain ⟨rfl, rfl⟩ := h
    exact ⟨c, [], hc, rfl, by simp, by simp⟩
  · rename_i t rest htoks
    split at h
    · simp at h; obtain ⟨rfl, rfl⟩ := h
      exact ⟨c, [], hc, rfl, by simp, by simp⟩
    · rename_i hop
      split at h
      · simp at h
      · rename_i hun
        split at h
        · simp at h
        · rename_i rhs s1 h1
          split at h
          · simp at h
          · rename_i herr
            have hs1 : s1.err = false := by simpa using herr
            obtain ⟨o, hw, rfl, hs⟩ := ih.single _ _ _ h1 hs1
            have hlev := (binOper_iff t.ty).1 ⟨hop, by simpa using hun⟩
            obtain ⟨d, mid, hd, rfl, ht, rfl⟩ := ih.loop (.more c t o) _ _ _ (by simp [Chain.WF, hc, hlev, hw]) h he
            refine ⟨d, t :: (o.tokens ++ mid), hd, rfl, ?_, ?_⟩
            · simp [ht, Chain.tokens]
            · cases s; simp_all
        · simp at h
        · simp at h

theorem sound_loopNone {f : Nat} (ih : SoundAt f) (c s s') (h : parseRhsLoop (f + 1) c s = .ok none s') :
    s'.err = true := by
  simp only [parseRhsLoop] at h
  split at h
  · simp at h
  · split at h
    · simp at h
    · split at h
      · simp at h; subst h; rfl
      · split at h
        · simp at h; subst h; rfl
        · split at h
          · simp at h; subst h; assumption
          · exact ih.loopNone _ _ _ h
        · simp at h
        · simp at h

theorem sound_single {f : Nat} (ih : SoundAt f) (s e s') (h : parseSingle (f + 1) s = .ok (some e) s')
    (he : s'.err = false) :
    ∃ o : Operand, o.WF ∧ e = buildOperand o ∧ s = { s' with toks := o.tokens ++ s'.toks } := by
  simp only [parseSingle] at h
  split at h
  · simp at h
  · rename_i t rest htoks
    split at h
    · obtain ⟨a, hw, rfl, rfl⟩ := ih.root _ _ _ h he
      exact ⟨.plain a, by simpa [Operand.WF] using hw, by simp [buildOperand], by simp [Operand.tokens]⟩
    · rename_i hun
      split at h
      · simp at h
      · split at h
        · simp at h
        · split at h
          · rename_i h1
            simp at h
            obtain ⟨rfl, rfl⟩ := h
            have := ih.rootNone _ _ h1 he
            refine ⟨.bare t, by simpa [Operand.WF] using (unOper_iff t.ty).1 hun, by simp [buildOperand], ?_⟩
            cases s; simp_all [Operand.tokens]
          · rename_i h1
            simp at h
            obtain ⟨rfl, rfl⟩ := h
            obtain ⟨a, hw, rfl, hs⟩ := ih.root _ _ _ h1 he
            refine ⟨.pre t a, ?_, by simp [buildOperand], ?_⟩
            · simp only [Operand.WF]; exact ⟨(unOper_iff t.ty).1 hun, hw⟩
            · cases s; simp_all [Operand.tokens]
          · simp at h
          · simp at h

theorem sound_singleNone {f : Nat} (ih : SoundAt f) (s s') (h : parseSingle (f + 1) s = .ok none s')
    (he : s'.err = false) : s' = s := by
  simp only [parseSingle] at h
  split at h
  · simp at h; exact h.symm
  · split at h
    · exact ih.rootNone _ _ h he
    · split at h
      · simp at h; subst h; simp [PS.fail] at he
      · split at h
        · simp at h; subst h; simp [PS.fail] at he
        · split at h <;> simp at h

theorem sound_root {f : Nat} (ih : SoundAt f) (s e s') (h : parseRoot (f + 1) s = .ok (some e) s')
    (he : s'.err = false) :
    ∃ a : Atom, a.WF ∧ e = buildAtom a ∧ s = { s' with toks := a.tokens ++ s'.toks } := by
  simp only [parseRoot] at h
  split at h
  · simp at h
  · rename_i t rest htoks
    split at h
    · rename_i hpo
      split at h
      · simp at h
      · rename_i e1 s1 h1
        split at h
        · simp at h
        · rename_i cl rest' hcl
          split at h
          · simp at h
          · rename_i hty
            simp at h
            obtain ⟨rfl, rfl⟩ := h
            obtain ⟨c, hw, rfl, hs⟩ := ih.expr _ _ _ h1 he
            refine ⟨.group t c cl, ?_, by simp [buildAtom], ?_⟩
            · simp only [Atom.WF]; exact ⟨hpo, hw, by simpa using hty⟩
            · cases s; simp_all [Atom.tokens]
      · simp at h
      · simp at h
    · split at h
      · rename_i hcall
        obtain ⟨q, cl, hq, hcl, rfl, hs⟩ := ih.args _ _ _ _ _ _ (by decide) h he
        cases hrest : rest with
        | nil => simp [hrest] at hcall
        | cons o rest2 =>
          simp [hrest] at hcall
          refine ⟨.call t o q cl, ?_, ?_, ?_⟩
          · simp only [Atom.WF, isName_eq]; exact ⟨hcall.1, hcall.2, hq, hcl⟩
          · simp [buildAtom, Args.append]
          · cases s; simp_all [Atom.tokens]
      · split at h
        · rename_i hst
          simp at h
          obtain ⟨rfl, rfl⟩ := h
          refine ⟨.leaf t, ?_, by simp [buildAtom], ?_⟩
          · simp only [Atom.WF]; exact (single_iff t).1 hst
          · cases s; simp_all [Atom.tokens]
        · simp at h

theorem sound_rootNone {f : Nat} (ih : SoundAt f) (s s') (h : parseRoot (f + 1) s = .ok none s')
    (he : s'.err = false) : s' = s := by
  simp only [parseRoot] at h
  split at h
  · simp at h
  · split at h
    · split at h
      · simp at h; subst h; simp [PS.fail] at he
      · split at h
        · simp at h; subst h; simp [PS.fail] at he
        · split at h <;> simp at h
          subst h; simp [PS.fail] at he
      · simp at h
      · simp at h
    · split at h
      · have := ih.argsNone _ _ _ _ _ h; simp_all
      · split at h <;> simp at h
        exact h.symm

theorem sound_args {f : Nat} (ih : SoundAt f) (n as k s e s') (hk : k < 65536) (h : parseArgs (f + 1) n as k s = .ok (some e) s')
    (he : s'.err = false) :
    ∃ (q : Seq) (cl : Token), q.WF ∧ cl.ty = .parenClose ∧
      e = .call n (as.append (buildSeq q)) ((k + seqCount q) % 65536) ∧
      s = { s' with toks := q.tokens ++ cl :: s'.toks } := by
  simp only [parseArgs] at h
  split at h
  · simp at h
  · rename_i last rest0 htoks
    split at h
    · simp at h
    · split at h
      · rename_i oe s1 h1
        split at h
        · simp at h
        · rename_i t rest ht
          split at h
          · simp at h
          · split at h
            · rename_i hpc
              simp at h
              obtain ⟨rfl, rfl⟩ := h
              cases oe with
              | none =>
                have := ih.exprNone _ _ h1 he
                refine ⟨.nil, t, by simp [Seq.WF], hpc, ?_, ?_⟩
                · simp [buildSeq, Args.append_nil, seqCount, Nat.mod_eq_of_lt hk]
                · subst this; simp only [ht, Seq.tokens, List.nil_append]; rw [← ht]
              | some e1 =>
                obtain ⟨c, hw, rfl, rfl⟩ := ih.expr _ _ _ h1 he
                refine ⟨.last c, t, by simpa [Seq.WF] using hw, hpc, ?_, ?_⟩
                · have := chainFirst_eq htoks.symm
                  have h2 := Args.snoc_append last (buildChain c) .nil as
                  rw [Args.append_nil] at h2
                  simp [buildSeq, seqCount, h2, this]
                · simp [Seq.tokens, ht]
            · split at h
              · simp at h
              · rename_i hcm
                have hcm : t.ty = .comma := by simpa using hcm
                cases oe with
                | none =>
                  cases hs1 : s1.err with
                  | false =>
                    have := ih.exprNone _ _ h1 hs1
                    subst this; rw [ht] at htoks; simp at htoks; obtain ⟨rfl, _⟩ := htoks; contradiction
                  | true =>
                    have := ((stepAt f).args _ _ _ _ _ _ h).mono hs1
                    simp [he] at this
                | some e1 =>
                  cases hs1 : s1.err with
                  | false =>
                    obtain ⟨c, hw, rfl, rfl⟩ := ih.expr _ _ _ h1 hs1
                    obtain ⟨q, cl, hq, hcl, rfl, hs⟩ := ih.args _ _ _ _ _ _ (Nat.mod_lt _ (by decide)) h he
                    refine ⟨.cons c t q, cl, by simp [Seq.WF, hw, hcm, hq], hcl, ?_, ?_⟩
                    · have := chainFirst_eq htoks.symm
                      rw [Args.snoc_append]
                      simp [buildSeq, seqCount, this]; omega
                    · simp at hs
                      simp [Seq.tokens, ht, hs]
                  | true =>
                    have := ((stepAt f).args _ _ _ _ _ _ h).mono hs1
                    simp [he] at this
      · simp at h
      · simp at h

theorem sound_argsNone {f : Nat} (ih : SoundAt f) (n as k s s') (h : parseArgs (f + 1) n as k s = .ok none s') :
    s'.err = true := by
  simp only [parseArgs] at h
  split at h
  · simp at h; subst h; rfl
  · split at h
    · simp at h; subst h; rfl
    · split at h
      · split at h
        · simp at h; subst h; rfl
        · split at h
          · simp at h; subst h; rfl
          · split at h
            · simp at h
            · split at h
              · simp at h; subst h; rfl
              · exact ih.argsNone _ _ _ _ _ h
      · simp at h
      · simp at h

theorem sound (f : Nat) : SoundAt f := by
  induction f with
  | zero => exact sound_zero
  | succ f ih =>
    exact ⟨sound_expr ih, sound_exprNone ih, sound_loop ih, sound_loopNone ih, sound_single ih, sound_singleNone ih,
      sound_root ih, sound_rootNone ih, sound_args ih, sound_argsNone ih⟩

end Skull
