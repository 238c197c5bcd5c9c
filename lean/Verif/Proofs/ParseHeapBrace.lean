import Verif.Spec.ParseMemory
import Verif.Spec.Source
import Verif.Proofs.TreeNests
/-
The braces in the tokens of statements.
-/
namespace Skull.PHeap

open Skull.Spec

/-- There is no brace in the tokens. -/
def NoBrace (ts : List Token) : Prop := ∀ t ∈ ts, t.ty ≠ .bracketOpen ∧ t.ty ≠ .bracketClose

theorem NoBrace.nil : NoBrace [] := fun _ h => by cases h

theorem NoBrace.cons {t : Token} {ts : List Token} (h : t.ty ≠ .bracketOpen ∧ t.ty ≠ .bracketClose) (hs : NoBrace ts) : NoBrace (t :: ts) := by
  intro s hs'
  rcases List.mem_cons.1 hs' with rfl | h'
  · exact h
  · exact hs s h'

theorem NoBrace.append {a b : List Token} (ha : NoBrace a) (hb : NoBrace b) : NoBrace (a ++ b) := by
  intro s hs
  rcases List.mem_append.1 hs with h | h
  · exact ha s h
  · exact hb s h

theorem isBrace {t : Token} {ty : TokType} (h : t.ty = ty) (h1 : ty ≠ .bracketOpen) (h2 : ty ≠ .bracketClose) :
    t.ty ≠ .bracketOpen ∧ t.ty ≠ .bracketClose := by rw [h]; exact ⟨h1, h2⟩

theorem name_noBrace {t : Token} (h : isName t = true) : t.ty ≠ .bracketOpen ∧ t.ty ≠ .bracketClose := by
  unfold isName at h
  constructor <;> intro e <;> rw [e] at h <;> simp at h

theorem literal_noBrace {t : Token} (h : isLiteral t = true) : t.ty ≠ .bracketOpen ∧ t.ty ≠ .bracketClose := by
  unfold isLiteral at h
  constructor <;> intro e <;> rw [e] at h <;> simp at h

theorem un_noBrace {t : Token} (h : (unLevel t.ty).isSome = true) : t.ty ≠ .bracketOpen ∧ t.ty ≠ .bracketClose := by
  constructor <;> intro e <;> rw [e] at h <;> simp [unLevel] at h

theorem bin_noBrace {t : Token} (h : (binLevel t.ty).isSome = true) : t.ty ≠ .bracketOpen ∧ t.ty ≠ .bracketClose := by
  constructor <;> intro e <;> rw [e] at h <;> simp [binLevel] at h

mutual
theorem atom_noBrace : ∀ a : Atom, a.WF → NoBrace a.tokens
  | .leaf t, h => NoBrace.cons (by rcases h with h | h; exact name_noBrace h; exact literal_noBrace h) .nil
  | .call n o as c, h => by
    obtain ⟨h1, h2, h3, h4⟩ := h
    exact .cons (name_noBrace h1) (.cons (isBrace h2 (by simp) (by simp)) (.append (seq_noBrace as h3) (.cons (isBrace h4 (by simp) (by simp)) .nil)))
  | .group o c cl, h => by
    obtain ⟨h1, h2, h3⟩ := h
    exact .cons (isBrace h1 (by simp) (by simp)) (.append (chain_noBrace c h2) (.cons (isBrace h3 (by simp) (by simp)) .nil))
theorem operand_noBrace : ∀ o : Operand, o.WF → NoBrace o.tokens
  | .plain a, h => atom_noBrace a h
  | .pre _ a, h => .cons (un_noBrace h.1) (atom_noBrace a h.2)
  | .bare _, h => .cons (un_noBrace h) .nil
theorem chain_noBrace : ∀ c : Chain, c.WF → NoBrace c.tokens
  | .one o, h => operand_noBrace o h
  | .more c _ o, h => .append (chain_noBrace c h.1) (.cons (bin_noBrace h.2.1) (operand_noBrace o h.2.2))
theorem seq_noBrace : ∀ s : Seq, s.WF → NoBrace s.tokens
  | .nil, _ => .nil
  | .last c, h => chain_noBrace c h
  | .cons c _ r, h => .append (chain_noBrace c h.1) (.cons (isBrace h.2.1 (by simp) (by simp)) (seq_noBrace r h.2.2))
end

theorem exprOf_noBrace {ex : List Token} {e : Expr} (h : ExprOf ex e) : NoBrace ex := by
  obtain ⟨⟨c, hc, rfl⟩, _⟩ := h
  exact chain_noBrace c hc

theorem typeOf_noBrace {ty : List Token} (h : TypeOf ty) : NoBrace ty := by
  induction h with
  | name h => exact .cons (name_noBrace h) .nil
  | ref h _ ih => exact .cons (isBrace h (by simp) (by simp)) ih

theorem declMark_noBrace {m : List Token} {a b : Bool} (h : DeclMark m a b) : NoBrace m := by
  cases h with
  | none => exact .nil
  | «mut» h => exact .cons (isBrace h (by simp) (by simp)) .nil
  | «export» h => exact .cons (isBrace h (by simp) (by simp)) .nil

theorem funcMark_noBrace {m : List Token} {a b : Bool} (h : FuncMark m a b) : NoBrace m := by
  cases h with
  | none => exact .nil
  | external h => exact .cons (isBrace h (by simp) (by simp)) .nil
  | «export» h => exact .cons (isBrace h (by simp) (by simp)) .nil

/-- Tokens without a brace, with one that is no separator among them: what follows does not come after a block. -/
theorem skip_false : ∀ {ts : List Token} (rest : List Token), NoBrace ts → blockAfterBlock false (ts ++ rest) = blockAfterBlock false rest
  | [], _, _ => rfl
  | t :: ts, rest, h => by
    have h1 := h t List.mem_cons_self
    rw [List.cons_append, blockAfterBlock, if_neg h1.1, if_neg h1.2, ite_self]
    exact skip_false rest fun s hs => h s (List.mem_cons_of_mem _ hs)

theorem skip_start {t : Token} {ts : List Token} (h : t.ty ≠ .bracketOpen ∧ t.ty ≠ .bracketClose) (h2 : ¬(t.ty = .newline ∨ t.ty = .comma)) (s : Bool) :
    blockAfterBlock s (t :: ts) = blockAfterBlock false ts := by
  rw [blockAfterBlock, if_neg h.1, if_neg h.2, if_neg h2]

theorem skip_plain {t : Token} {ts rest : List Token} (h : NoBrace (t :: ts)) (h2 : ¬(t.ty = .newline ∨ t.ty = .comma)) (s : Bool) :
    blockAfterBlock s (t :: (ts ++ rest)) = blockAfterBlock false rest := by
  rw [skip_start (h t List.mem_cons_self) h2, skip_false rest fun s hs => h s (List.mem_cons_of_mem _ hs)]

theorem skip_is {t : Token} {ts : List Token} {ty : TokType} (h : t.ty = ty) (h1 : ty ≠ .bracketOpen) (h2 : ty ≠ .bracketClose)
    (h3 : ty ≠ .newline) (h4 : ty ≠ .comma) (s : Bool) : blockAfterBlock s (t :: ts) = blockAfterBlock false ts :=
  skip_start (by rw [h]; exact ⟨h1, h2⟩) (by rw [h]; simp [h3, h4]) s

theorem start_of {ts rest : List Token} (h : NoBrace ts) (hn : ∀ t ∈ ts.head?, t.ty ≠ .newline ∧ t.ty ≠ .comma) (hne : ts ≠ []) (s : Bool) :
    blockAfterBlock s (ts ++ rest) = blockAfterBlock false rest := by
  cases ts with
  | nil => exact absurd rfl hne
  | cons t ts => exact skip_plain h (by have := hn t rfl; simp [this.1, this.2]) s

theorem chain_head : ∀ c : Chain, c.WF → ∀ t ∈ c.tokens.head?, t.ty ≠ .newline ∧ t.ty ≠ .comma := by
  have hname : ∀ t : Token, isName t = true → t.ty ≠ .newline ∧ t.ty ≠ .comma := by
    intro t h; unfold isName at h
    constructor <;> intro e <;> rw [e] at h <;> simp at h
  have hlit : ∀ t : Token, isLiteral t = true → t.ty ≠ .newline ∧ t.ty ≠ .comma := by
    intro t h; unfold isLiteral at h
    constructor <;> intro e <;> rw [e] at h <;> simp at h
  have hun : ∀ t : Token, (unLevel t.ty).isSome = true → t.ty ≠ .newline ∧ t.ty ≠ .comma := by
    intro t h
    constructor <;> intro e <;> rw [e] at h <;> simp [unLevel] at h
  have hatom : ∀ (a : Atom) (r : List Token), a.WF → ∀ t ∈ (a.tokens ++ r).head?, t.ty ≠ .newline ∧ t.ty ≠ .comma := by
    intro a r h t ht
    cases a with
    | leaf => cases ht; rcases h with h | h; exact hname _ h; exact hlit _ h
    | call => cases ht; exact hname _ h.1
    | group => cases ht; rw [h.1]; simp
  have hop : ∀ (o : Operand) (r : List Token), o.WF → ∀ t ∈ (o.tokens ++ r).head?, t.ty ≠ .newline ∧ t.ty ≠ .comma := by
    intro o r h t ht
    cases o with
    | plain a => exact hatom a r h t ht
    | pre => cases ht; exact hun _ h.1
    | bare => cases ht; exact hun _ h
  have key : ∀ (c : Chain) (r : List Token), c.WF → ∀ t ∈ (c.tokens ++ r).head?, t.ty ≠ .newline ∧ t.ty ≠ .comma := by
    intro c
    induction c using Chain.rec (motive_1 := fun _ => True) (motive_2 := fun _ => True) (motive_4 := fun _ => True) with
    | one o => intro r h; exact hop o r h
    | more c op o ih _ =>
      intro r h t ht
      rw [Chain.tokens, List.append_assoc] at ht
      exact ih _ h.1 t ht
    | _ => trivial
  intro c h t ht
  exact key c [] h t (by rw [List.append_nil]; exact ht)

theorem exprOf_skip {ex rest : List Token} {e : Expr} (h : ExprOf ex e) (s : Bool) : blockAfterBlock s (ex ++ rest) = blockAfterBlock false rest := by
  obtain ⟨⟨c, hc, rfl⟩, _⟩ := h
  exact start_of (chain_noBrace c hc) (chain_head c hc) (exprOf_ne ⟨⟨c, hc, rfl⟩, by assumption⟩) s

theorem paramsOf_noBrace {a b : List Token} {ps : List Param} (h : ParamsOf a b ps) : ∃ pre, a = pre ++ b ∧ NoBrace pre := by
  induction h with
  | none => exact ⟨[], rfl, .nil⟩
  | @last n ty ts h1 h2 => exact ⟨n :: ty, by simp, .cons (isBrace h1 (by simp) (by simp)) (typeOf_noBrace h2)⟩
  | @more n c ty ts rest ps h1 h2 h3 _ ih =>
    obtain ⟨pre, rfl, h⟩ := ih
    exact ⟨n :: (ty ++ c :: pre), by simp, .cons (isBrace h1 (by simp) (by simp)) (.append (typeOf_noBrace h2) (.cons (isBrace h3 (by simp) (by simp)) h))⟩

theorem retOf_noBrace {a b : List Token} {r : Option (List Token)} (h : RetOf a b r) : ∃ pre, a = pre ++ b ∧ NoBrace pre := by
  cases h with
  | none => exact ⟨[], rfl, .nil⟩
  | @some ty _ h => exact ⟨ty, rfl, typeOf_noBrace h⟩

theorem mark_skip {mark ts : List Token} {t : Token} (h : NoBrace mark) (h1 : ∀ t ∈ mark, t.ty ≠ .newline ∧ t.ty ≠ .comma) (ht : t.ty ≠ .bracketOpen ∧ t.ty ≠ .bracketClose)
    (h2 : t.ty ≠ .newline ∧ t.ty ≠ .comma) (s : Bool) : blockAfterBlock s (mark ++ t :: ts) = blockAfterBlock false ts := by
  have := start_of (ts := mark ++ [t]) (rest := ts) (h.append (.cons ht .nil)) (by
    intro x hx
    cases mark with
    | nil => cases hx; exact h2
    | cons m ms => cases hx; exact h1 _ List.mem_cons_self) (by simp) s
  simpa using this

/-- After a statement nothing comes right after a block, whatever was before it. -/
theorem written_skip {a b : List Token} {st : Stmt} (h : Written a b st)
    (hn : ∀ t n post, a = t :: n :: post → t.ty = .kwNamespace → n.ty ≠ .bracketClose) (s : Bool) :
    blockAfterBlock s a = true → blockAfterBlock false b = true := by
  have hd : ∀ {m a b}, DeclMark m a b → ∀ t ∈ m, t.ty ≠ .newline ∧ t.ty ≠ .comma := by
    intro m a b h t ht
    cases h <;> simp at ht <;> subst ht <;> rename_i h <;> rw [h] <;> simp
  have hf : ∀ {m a b}, FuncMark m a b → ∀ t ∈ m, t.ty ≠ .newline ∧ t.ty ≠ .comma := by
    intro m a b h t ht
    cases h <;> simp at ht <;> subst ht <;> rename_i h <;> rw [h] <;> simp
  cases h with
  | «return» h => rw [skip_is h (by simp) (by simp) (by simp) (by simp)]; exact id
  | returnExpr h he => rw [skip_is h (by simp) (by simp) (by simp) (by simp), exprOf_skip he]; exact id
  | «if» h he => rw [skip_is h (by simp) (by simp) (by simp) (by simp), exprOf_skip he]; exact id
  | elif h he => rw [skip_is h (by simp) (by simp) (by simp) (by simp), exprOf_skip he]; exact id
  | «while» h he => rw [skip_is h (by simp) (by simp) (by simp) (by simp), exprOf_skip he]; exact id
  | «else» h => rw [skip_is h (by simp) (by simp) (by simp) (by simp)]; exact id
  | unreachable h => rw [skip_is h (by simp) (by simp) (by simp) (by simp)]; exact id
  | comment h => rw [skip_is h (by simp) (by simp) (by simp) (by simp)]; exact id
  | noop h => rw [skip_is h (by simp) (by simp) (by simp) (by simp)]; exact id
  | «break» h => rw [skip_is h (by simp) (by simp) (by simp) (by simp)]; exact id
  | «continue» h => rw [skip_is h (by simp) (by simp) (by simp) (by simp)]; exact id
  | @«namespace» t n _ h =>
    rw [skip_is h (by simp) (by simp) (by simp) (by simp)]
    have h2 := hn t n _ rfl h
    rw [blockAfterBlock, if_neg h2, ite_self]
    split <;> simp
  | @«import» t n _ h h2 =>
    rw [skip_is h (by simp) (by simp) (by simp) (by simp), skip_is h2 (by simp) (by simp) (by simp) (by simp)]; exact id
  | @implicit mark n q ex _ _ _ e hm h1 h2 he =>
    rw [mark_skip (declMark_noBrace hm) (hd hm) (by rw [h1]; simp) (by rw [h1]; simp), skip_is h2 (by simp) (by simp) (by simp) (by simp), exprOf_skip he]; exact id
  | @explicit mark n sep ty ex _ _ _ e hm h1 h2 he =>
    rw [mark_skip (declMark_noBrace hm) (hd hm) (by rw [h1]; simp) (by rw [h1]; simp), skip_false _ (typeOf_noBrace h2), blockAfterBlock, exprOf_skip he, exprOf_skip he]
    simp
  | @assign n q ex _ e h1 h2 he =>
    have hnm : ¬(n.ty = .newline ∨ n.ty = .comma) := by
      unfold isName at h1
      rintro (e | e) <;> rw [e] at h1 <;> simp at h1
    rw [skip_start (name_noBrace h1) hnm, skip_is h2 (by simp) (by simp) (by simp) (by simp), exprOf_skip he]; exact id
  | expr he => rw [exprOf_skip he]; exact id
  | @func mark n opn close ps _ rt ext exported params ret hm h1 h2 h3 h4 h5 h6 =>
    obtain ⟨p1, rfl, hp1⟩ := paramsOf_noBrace h3
    obtain ⟨p2, rfl, hp2⟩ := retOf_noBrace h5
    rw [mark_skip (funcMark_noBrace hm) (hf hm) (by rw [h1]; simp) (by rw [h1]; simp), skip_is h2 (by simp) (by simp) (by simp) (by simp), skip_false _ hp1,
      skip_is h4 (by simp) (by simp) (by simp) (by simp), skip_false _ hp2]
    exact id

end Skull.PHeap
