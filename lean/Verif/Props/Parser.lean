import Verif.Proofs.ParserMain
import Verif.Spec.Render
/-
C24-C31: the parser.
-/
namespace Skull
open Spec

/-- The text of the result of the parser, to write down concrete cases. -/
def parseText (src : String) : Option String :=
  match parseAstTree (lexed src) with
  | .ok (some t) _ => some (treeText t)
  | _ => none

/-- The diagnostics of a refused source text. -/
def parseDiags (src : String) : Option (List Code) :=
  match parseAstTree (lexed src) with
  | .ok none s => some (s.diags.map (·.code))
  | _ => none

/-- Whether parsing a source text is undefined. -/
def parseUb (src : String) : Bool :=
  match parseAstTree (lexed src) with
  | .ub => true
  | _ => false

/-- Whether tokens are accepted. -/
def accepts (toks : List Token) : Bool :=
  match parseAstTree toks with
  | .ok (some _) _ => true
  | _ => false

theorem accepts_some {toks : List Token} (h : accepts toks = true) : ∃ t s, parseAstTree toks = .ok (some t) s := by
  unfold accepts at h
  split at h
  · rename_i t s ht; exact ⟨t, s, ht⟩
  · simp at h

/-- Whether tokens are refused without a diagnostic. -/
def refusesSilently (toks : List Token) : Bool :=
  match parseAstTree toks with
  | .ok none s => s.diags.isEmpty
  | _ => false

/-- Whether the statement at the beginning of the tokens is accepted. -/
def acceptsFirst (toks : List Token) : Bool :=
  match parseNode 2 0 { ps := { toks := toks } } with
  | .ok _ c => !c.ps.err
  | _ => false

/-! ## C24 Parsing terminates -/

/-- For every token list the parser ends: the fuel of the model, linear in the number of tokens, is never used up. -/
theorem C24_parse_terminates (toks : List Token) : parseAstTree toks ≠ .fuel := parseAstTree_fuel toks

/-- Every expression is at least one token. -/
theorem C24_expression_progress (s s' : PS) (e : Expr) (h : parseExpr s = .ok (some e) s') :
    s'.toks.length < s.toks.length := by
  obtain ⟨_, ex, h1, h2, _⟩ := parseExpr_some h
  have : s.toks = ex ++ s'.toks := by rw [h2]
  rw [this, List.length_append]
  have := exprOf_pos h1
  omega

/-- Every round of the loop over statements ends the list, fails, or consumes at least one token. -/
theorem C24_statement_progress (f lvl : Nat) (c c' : PCtx) (closed : Bool) (he : c.ps.err = false)
    (h : parseNode f lvl c = .ok closed c') :
    closed = true ∨ c'.ps.err = true ∨ ∃ used, used ≠ [] ∧ c.ps.toks = used ++ c'.ps.toks := by
  cases hc : closed with
  | true => exact .inl rfl
  | false =>
    cases hf : c'.ps.err with
    | true => exact .inr (.inl rfl)
    | false =>
      obtain ⟨pre, h1, h2⟩ := ((treeAt f).node lvl c closed c' he h).2.2 hf
      exact .inr (.inr ⟨pre, h2 hc, h1⟩)

example : parseText "x := 1\nif x is 1 {\ny := 2\n}\n" = some "[def x 1][if (x is 1)[def y 2]]" := by decide +kernel
example : parseText "f(a: Int) Int {\n return a + 1\n}\nf(2)\n" = some "[func f[return (a + 1)]][expr f(2,)]" := by decide +kernel

/-! ## C25 Malformed programs are diagnosed, never undefined behaviour -/

/-- The parser's share of C25: whatever the tokens of a source text are, parsing them is defined. -/
def C25_parser_full : Prop :=
  ∀ (src : List Char) (toks toks' : List Token), tokenize false src = some (.ok toks) → classifyTokens toks = some toks' →
    parseAstTree toks' ≠ .ub

/-- It is false: at the end of a file, a declaration without its value reads through a null pointer. -/
theorem C25_parser_false : ¬ C25_parser_full := by
  intro h
  have h1 : ∃ toks toks', tokenize false "x :=".toList = some (.ok toks) ∧ classifyTokens toks = some toks' ∧
      (match parseAstTree toks' with | .ub => true | _ => false) = true := by
    refine ⟨_, _, rfl, rfl, ?_⟩
    decide +kernel
  obtain ⟨toks, toks', h2, h3, h4⟩ := h1
  have := h _ _ _ h2 h3
  split at h4
  · contradiction
  · simp at h4

/-- Other texts the parser reads through a null pointer for; the last one ends in a newline. -/
theorem C25_parser_false_more : parseUb "x =" = true ∧ parseUb "export" = true ∧ parseUb "external" = true ∧
    parseUb "x: Int =" = true ∧ parseUb "x: Int\n" = true := by decide +kernel

/-- The parser performs no undefined operation on tokens that end in two newlines.  (Missing: texts with fewer newlines at their end,
for which it is false; for the semantic check see C25_semantic_partial.) -/
theorem C25_parser_partial (toks : List Token) (a b : Token) (ha : a.ty = .newline) (hb : b.ty = .newline) :
    parseAstTree (toks ++ [a, b]) ≠ .ub := parseAstTree_ub ha hb

/-- Parsing an expression is always defined. -/
theorem C25_expression_defined (s : PS) : parseExpr s ≠ .ub := parseExpr_ub s

example : parseDiags "x :=\n\n" = some [.errAssignMissingExpr] := by decide +kernel
example : parseDiags "x: Int\n\n" = some [.errAssignMissingExpr] := by decide +kernel
example : parseDiags "export\n\n" = some [.errUnexpectedToken] := by decide +kernel

/-! ## C26 Expressions keep their operands and operators in order -/

/-- Whenever an expression is accepted, the tree read from left to right gives the operands and operators of the consumed tokens in
their order. -/
theorem C26_operands_in_order (s s' : PS) (e : Expr) (h : parseExpr s = .ok (some e) s') :
    ∃ used, s.toks = used ++ s'.toks ∧ readExpr e = items used := by
  obtain ⟨_, ex, ⟨_, h2, _⟩, h3, _⟩ := parseExpr_some h
  exact ⟨ex, by rw [h3], h2⟩

/-- The consumed tokens are an expression of the grammar, and the next token is no binary operator: no operand is left behind. -/
theorem C26_whole_expression (s s' : PS) (e : Expr) (h : parseExpr s = .ok (some e) s') :
    (∃ c : Chain, c.WF ∧ s.toks = c.tokens ++ s'.toks) ∧ ∀ t, s'.toks.head? = some t → binLevel t.ty = none := by
  refine ⟨?_, parseExpr_stops h⟩
  obtain ⟨_, ex, ⟨⟨c, h0, h1⟩, _⟩, h3, _⟩ := parseExpr_some h
  exact ⟨c, h0, by rw [h3, h1]⟩

/-- Every expression of the grammar, with an operand after each prefix operator, is accepted whole when no operator and no
parenthesis follows. -/
theorem C26_expressions_accepted (c : Chain) (hw : c.WF) (hf : c.Full) (s : PS) (tail : List Token) (he : s.err = false)
    (hs : s.toks = c.tokens ++ tail) (h1 : ∀ t, tail.head? = some t → t.ty ≠ .parenOpen)
    (h2 : ∀ t, tail.head? = some t → binLevel t.ty = none ∧ unLevel t.ty = none) :
    ∃ e, parseExpr s = .ok (some e) { s with toks := tail } ∧ readExpr e = items c.tokens :=
  ⟨_, parseExpr_complete hw hf he hs h1 h2, read_chain c hw⟩

example : parseText "x := a + f(b, 2 * c) - - d\n" = some "[def x ((a + f(b,(2 * c),)) - (-d))]" := by decide +kernel
example : parseDiags "x := a +\n\n" = some [.errExpectedExpr] := by decide +kernel

/-! ## C27 Operator precedence and associativity are honoured -/

/-- What is wanted: the tree of an accepted expression is one that honours precedence and associativity. -/
def C27_full : Prop :=
  ∀ (s s' : PS) (e : Expr), parseExpr s = .ok (some e) s' →
    ∃ g : G, g.WF ∧ s.toks = g.tokens ++ s'.toks ∧ g.erase = e ∧ g.WellPrec

/-- Tokens for concrete cases. -/
def tk (ty : TokType) : Token := { ty := ty }

private def badTokens : List Token :=
  [tk .identifier, tk .operIs, tk .identifier, tk .operPlus, tk .identifier, tk .operStar, tk .identifier]

private def badTree : Expr :=
  .bin .is (.ident (tk .identifier)) (.bin .mult (.bin .add (.ident (tk .identifier)) (.ident (tk .identifier)))
    (.ident (tk .identifier)))

private theorem badTree_parsed : parseExpr { toks := badTokens } = .ok (some badTree) { toks := [] } := by rfl

/-- Without parentheses a binary operator comes from a binary operator. -/
private theorem erase_bin {g : G} {o : Oper} {l r : Expr} (h : g.erase = .bin o l r) (hp : ∀ t ∈ g.tokens, t.ty ≠ .parenOpen)
    (hw : g.WF) : ∃ t a b, g = .bin t a b ∧ binOf t.ty = o ∧ a.erase = l ∧ b.erase = r := by
  cases g with
  | leaf t => simp only [G.erase] at h; split at h <;> simp at h
  | call n o as c => simp [G.erase] at h
  | group o' c cl =>
    simp only [G.WF] at hw
    exact absurd hw.1 (hp o' (by simp [G.tokens]))
  | bare t => simp [G.erase] at h
  | un t g => simp [G.erase] at h
  | bin t a b => simp [G.erase] at h; exact ⟨t, a, b, rfl, h⟩

private theorem binOf_mult {ty : TokType} (h : binOf ty = .mult) : ty = .operStar := by
  cases ty <;> simp [binOf] at h; rfl

private theorem binOf_add {ty : TokType} (h : binOf ty = .add) : ty = .operPlus := by
  cases ty <;> simp [binOf] at h; rfl

/-- It is false: `a is b + c * d` is read as `a is ((b + c) * d)`. -/
theorem C27_false : ¬ C27_full := by
  intro h
  obtain ⟨g, h1, h2, h3, h4⟩ := h _ _ _ badTree_parsed
  simp only [List.append_nil] at h2
  have hp : ∀ t ∈ g.tokens, t.ty ≠ .parenOpen := by rw [← h2]; decide
  obtain ⟨t, a, b, rfl, _, _, hb⟩ := erase_bin h3 hp h1
  simp only [G.WF] at h1
  simp only [G.WellPrec] at h4
  have hpb : ∀ t ∈ b.tokens, t.ty ≠ .parenOpen := fun t ht => hp t (by simp [G.tokens, ht])
  obtain ⟨t2, a2, b2, rfl, ht2, ha2, _⟩ := erase_bin hb hpb h1.2.2
  simp only [G.WF] at h1
  simp only [G.WellPrec] at h4
  have hpa : ∀ t ∈ a2.tokens, t.ty ≠ .parenOpen := fun t ht => hpb t (by simp [G.tokens, ht])
  obtain ⟨t3, a3, b3, rfl, ht3, _, _⟩ := erase_bin ha2 hpa h1.2.2.2.1
  have := h4.2.1.2.2.1 ((binLevel t3.ty).getD 0) (by simp [G.rightLevels])
  rw [binOf_mult ht2, binOf_add ht3] at this
  exact absurd this (by decide)

/-- Precedence and associativity are honoured in every expression where no operator that is followed by a tighter one has a looser
one before it, no prefix operator but a first one is followed by a tighter operator (`SafePrec`), and no parentheses that come first
contain a looser operator than the one after them (`SafeGroups`, see C28): the expression is accepted and gets the tree with the
parentheses as written.  (Missing: the other expressions, for which it is false.) -/
theorem C27_partial (c : Chain) (hw : c.WF) (hf : c.Full) (hg : c.SafeGroups) (hp : c.SafePrec) (s : PS) (tail : List Token)
    (he : s.err = false) (hs : s.toks = c.tokens ++ tail) (h1 : ∀ t, tail.head? = some t → t.ty ≠ .parenOpen)
    (h2 : ∀ t, tail.head? = some t → binLevel t.ty = none ∧ unLevel t.ty = none) :
    ∃ g : G, g.WF ∧ g.tokens = c.tokens ∧ g.WellPrec ∧ parseExpr s = .ok (some g.erase) { s with toks := tail } := by
  obtain ⟨g, h3, h4, h5, h6⟩ := parseExpr_group hw hf hg
  exact ⟨g, h3, h4, h6 hp, by rw [h5]; exact parseExpr_complete hw hf he hs h1 h2⟩

/-- Two operators with plain operands: the tighter one takes the middle operand, the left one when they are of one level. -/
theorem C27_two_operators (a b c op1 op2 : Token) (l1 l2 : Nat) (tail : List Token) (ha : isName a = true) (hb : isName b = true)
    (hc : isName c = true) (h1 : binLevel op1.ty = some l1) (h2 : binLevel op2.ty = some l2)
    (ht : ∀ t, tail.head? = some t → t.ty ≠ .parenOpen ∧ binLevel t.ty = none ∧ unLevel t.ty = none) :
    parseExpr { toks := a :: op1 :: b :: op2 :: c :: tail } =
      .ok (some (if l2 < l1 then .bin (binOf op1.ty) (.ident a) (.bin (binOf op2.ty) (.ident b) (.ident c))
        else .bin (binOf op2.ty) (.bin (binOf op1.ty) (.ident a) (.ident b)) (.ident c))) { toks := tail } := by
  have hw : (Chain.more (.more (.one (.plain (.leaf a))) op1 (.plain (.leaf b))) op2 (.plain (.leaf c))).WF := by
    simp [Chain.WF, Operand.WF, Atom.WF, ha, hb, hc, h1, h2]
  have hf : (Chain.more (.more (.one (.plain (.leaf a))) op1 (.plain (.leaf b))) op2 (.plain (.leaf c))).Full := by
    simp [Chain.Full, Operand.Full, Atom.Full]
  have hg : (Chain.more (.more (.one (.plain (.leaf a))) op1 (.plain (.leaf b))) op2 (.plain (.leaf c))).SafeGroups := by
    simp [Chain.SafeGroups, Operand.SafeGroups, Atom.SafeGroups, Chain.groupLevel]
  have hr := parseExpr_complete hw hf (s := { toks := a :: op1 :: b :: op2 :: c :: tail }) (tail := tail) rfl
    (by simp [Chain.tokens, Operand.tokens, Atom.tokens]) (fun t h => (ht t h).1) (fun t h => (ht t h).2)
  rw [hr, ← erase_chain _ hw hf hg]
  simp only [gChain, gOperand, gAtom, gAttach, h1, h2, Option.getD_some, gt_iff_lt]
  split <;> simp [G.erase, ha, hb, hc]

example : parseText "x := a * b + c\n" = some "[def x ((a * b) + c)]" := by decide +kernel
example : parseText "x := a + b * c ^ d\n" = some "[def x (a + ((b * c) ^ d))]" := by decide +kernel
example : parseText "x := a - b - c\n" = some "[def x ((a - b) - c)]" := by decide +kernel
example : parseText "x := a is b + c * d\n" = some "[def x (a is ((b + c) * d))]" := by decide +kernel
example : parseText "x := - a ^ b\n" = some "[def x (-(a ^ b))]" := by decide +kernel
example : parseText "x := c * - a ^ b\n" = some "[def x (c * ((-a) ^ b))]" := by decide +kernel

/-! ## C28 Parentheses group -/

/-- What is wanted: the tree of an accepted expression comes from a tree that has every pair of parentheses around one operand. -/
def C28_full : Prop :=
  ∀ (s s' : PS) (e : Expr), parseExpr s = .ok (some e) s' → ∃ g : G, g.WF ∧ s.toks = g.tokens ++ s'.toks ∧ g.erase = e

private def parenTokens : List Token :=
  [tk .parenOpen, tk .intConst, tk .operPlus, tk .intConst, tk .parenClose, tk .operStar, tk .intConst]

private def parenTree : Expr :=
  .bin .add (.const (tk .intConst)) (.bin .mult (.const (tk .intConst)) (.const (tk .intConst)))

private theorem parenTree_parsed : parseExpr { toks := parenTokens } = .ok (some parenTree) { toks := [] } := by rfl

/-- It is false: `(1 + 2) * 3` is read as `1 + (2 * 3)`. -/
theorem C28_false : ¬ C28_full := by
  intro h
  obtain ⟨g, h1, h2, h3⟩ := h _ _ _ parenTree_parsed
  simp only [List.append_nil] at h2
  cases g with
  | leaf t => simp [G.tokens, parenTokens] at h2
  | call n o as c => simp [G.erase, parenTree] at h3
  | group o g c =>
    simp only [G.WF] at h1
    simp only [G.tokens] at h2
    have := congrArg List.getLast? h2
    rw [← List.cons_append, List.getLast?_concat] at this
    simp [parenTokens, tk] at this
    rw [← this] at h1
    simp at h1
  | bare t => simp [G.tokens, parenTokens] at h2
  | un t g => simp [G.erase, parenTree] at h3
  | bin t l r =>
    simp only [G.erase, parenTree, Expr.bin.injEq] at h3
    have ht : t.ty = .operPlus := binOf_add h3.1
    simp only [G.tokens] at h2
    -- the plus is the third token, so the left operand is an opening parenthesis and a number
    have hl : l.tokens = [tk .parenOpen, tk .intConst] := by
      match hl : l.tokens with
      | [] => rw [hl] at h2; simp [parenTokens] at h2; rw [← h2.1] at ht; simp [tk] at ht
      | [x] => rw [hl] at h2; simp [parenTokens] at h2; rw [← h2.2.1] at ht; simp [tk] at ht
      | [x, y] => rw [hl] at h2; simp [parenTokens] at h2; rw [h2.1, h2.2.1]
      | [x, y, z] => rw [hl] at h2; simp [parenTokens] at h2; rw [← h2.2.2.2.1] at ht; simp [tk] at ht
      | [x, y, z, u] => rw [hl] at h2; simp [parenTokens] at h2; rw [← h2.2.2.2.2.1] at ht; simp [tk] at ht
      | [x, y, z, u, v] => rw [hl] at h2; simp [parenTokens] at h2; rw [← h2.2.2.2.2.2.1] at ht; simp [tk] at ht
      | [x, y, z, u, v, w] => rw [hl] at h2; simp [parenTokens] at h2; rw [← h2.2.2.2.2.2.2.1] at ht; simp [tk] at ht
      | x :: y :: z :: u :: v :: w :: a :: more => rw [hl] at h2; simp [parenTokens] at h2
    cases l with
    | leaf t => simp [G.tokens] at hl
    | call n o as c => simp [G.erase] at h3
    | group o g c =>
      simp only [G.WF] at h1
      simp only [G.tokens] at hl
      have := congrArg List.getLast? hl
      rw [← List.cons_append, List.getLast?_concat] at this
      simp [tk] at this
      rw [this] at h1
      simp at h1
    | bare t => simp [G.tokens] at hl
    | un t g => simp [G.erase] at h3
    | bin t a b => simp [G.erase] at h3

/-- Parentheses group in every expression where no parentheses that come first contain a looser operator than the one after them: the
expression is accepted and its tree is that of the written tokens with every pair of parentheses around one operand.  (Missing: the
other expressions, for which it is false.) -/
theorem C28_partial (c : Chain) (hw : c.WF) (hf : c.Full) (hg : c.SafeGroups) (s : PS) (tail : List Token) (he : s.err = false)
    (hs : s.toks = c.tokens ++ tail) (h1 : ∀ t, tail.head? = some t → t.ty ≠ .parenOpen)
    (h2 : ∀ t, tail.head? = some t → binLevel t.ty = none ∧ unLevel t.ty = none) :
    ∃ g : G, g.WF ∧ g.tokens = c.tokens ∧ parseExpr s = .ok (some g.erase) { s with toks := tail } := by
  obtain ⟨g, h3, h4, h5, _⟩ := parseExpr_group hw hf hg
  exact ⟨g, h3, h4, by rw [h5]; exact parseExpr_complete hw hf he hs h1 h2⟩

example : parseText "x := a * (b + c)\n" = some "[def x (a * (b + c))]" := by decide +kernel
example : parseText "x := a - (b - c)\n" = some "[def x (a - (b - c))]" := by decide +kernel
example : parseText "x := (1 + 2) * 3\n" = some "[def x (1 + (2 * 3))]" := by decide +kernel
example : parseText "x := (1 + 2) - 3\n" = some "[def x ((1 + 2) - 3)]" := by decide +kernel

/-! ## C29 Every rejected program gets a diagnostic -/

/-- The parser's share of C29. -/
def C29_parser_full : Prop := ∀ (toks : List Token) (s : PS), parseAstTree toks = .ok none s → s.diags ≠ []

/-- It is false: a file that ends in `if` is refused without a word. -/
theorem C29_parser_false : ¬ C29_parser_full := by
  intro h
  have h1 : refusesSilently [tk .kwIf] = true := by decide +kernel
  unfold refusesSilently at h1
  split at h1
  · rename_i s hs
    exact h _ s hs (by simpa using h1)
  · simp at h1

/-- Whenever the parser refuses tokens it has emitted a diagnostic, unless the very last token is `if`, `elif`, `while` or
`namespace`.  (Missing: such endings, for which it is false.) -/
theorem C29_parser_partial (toks : List Token) (s : PS) (h : parseAstTree toks = .ok none s) :
    s.diags ≠ [] ∨ ∃ t, toks.getLast? = some t ∧ (t.ty = .kwIf ∨ t.ty = .kwElif ∨ t.ty = .kwWhile ∨ t.ty = .kwNamespace) :=
  parseAstTree_rejected h

/-- Accepted tokens are accepted without a diagnostic, to the last token. -/
theorem C29_accepted_is_clean (toks : List Token) (t : Tree) (s : PS) (h : parseAstTree toks = .ok (some t) s) :
    s.diags = [] ∧ s.toks = [] := ⟨(parseAstTree_accepted h).1, (parseAstTree_accepted h).2.2⟩

example : parseDiags "if" = some [] := by decide +kernel
example : parseDiags "if\n" = some [.errInvalidExpr] := by decide +kernel
example : parseDiags "if true {\n" = some [.errEofNoBracket] := by decide +kernel

/-! ## C30 An explicitly typed declaration needs its equals sign -/

/-- What is wanted: wherever a statement begins with a name, a colon and a type, the parser fails or goes on after an equals sign and
an expression. -/
def C30_full : Prop :=
  ∀ (f lvl : Nat) (c c' : PCtx) (closed : Bool) (mark : List Token) (n : Token) (ty rest : List Token) (cst exported : Bool),
    c.ps.err = false → DeclMark mark cst exported → n.ty = .newIdentifier → TypeOf ty → c.ps.toks = mark ++ n :: (ty ++ rest) →
    parseNode f lvl c = .ok closed c' → c'.ps.err = false →
    ∃ eq ex e, rest = eq :: (ex ++ c'.ps.toks) ∧ eq.ty = .operEqual ∧ ExprOf ex e

/-- It is false: any token will do, for example in `x: Int foo 5`. -/
theorem C30_false : ¬ C30_full := by
  intro h
  have h1 : acceptsFirst [tk .newIdentifier, tk .identifier, tk .identifier, tk .intConst] = true := by decide +kernel
  unfold acceptsFirst at h1
  split at h1
  · rename_i b c hc
    obtain ⟨eq, ex, e, h2, h3, _⟩ := h 2 0 _ c b [] (tk .newIdentifier) [tk .identifier] [tk .identifier, tk .intConst] true false
      rfl .none rfl (.name rfl) rfl hc (by simpa using h1)
    simp at h2
    rw [← h2.1] at h3
    simp [tk] at h3
  · simp at h1

/-- Wherever a statement begins with a name, a colon and a type, the parser fails or goes on after exactly one token and an
expression, at a newline or the end.  (Missing: that the token is an equals sign, for which it is false.) -/
theorem C30_partial (f lvl : Nat) (c c' : PCtx) (closed : Bool) (mark : List Token) (n : Token) (ty rest : List Token)
    (cst exported : Bool) (he : c.ps.err = false) (hm : DeclMark mark cst exported) (hn : n.ty = .newIdentifier) (ht : TypeOf ty)
    (hc : c.ps.toks = mark ++ n :: (ty ++ rest)) (h : parseNode f lvl c = .ok closed c') (he' : c'.ps.err = false) :
    ∃ sep ex e, rest = sep :: (ex ++ c'.ps.toks) ∧ ExprOf ex e ∧ ∀ t, c'.ps.toks.head? = some t → t.ty = .newline := by
  obtain ⟨sep, ex, ts, e, h1, h2, h3, h4⟩ := node_typedDecl he hm hn ht hc h he'
  subst h3
  exact ⟨sep, ex, e, h1, h2, h4⟩

example : parseText "x: Int = 5\n" = some "[def x 5]" := by decide +kernel
example : parseText "x: Int foo 5\n" = some "[def x 5]" := by decide +kernel
example : parseText "x: Int\n5\n" = some "[def x 5]" := by decide +kernel
example : parseDiags "x: Int = = 5\n" = some [.errAssignMissingExpr] := by decide +kernel
example : parseDiags "x: Int" = some [.errMissingAssignment] := by decide +kernel

/-! ## C31 Blocks nest as written -/

/-- What is wanted: the tree of accepted tokens is that of statements written one after the other, with every block in braces right
after the statement it belongs to. -/
def C31_full : Prop :=
  ∀ (toks : List Token) (t : Tree) (s : PS), parseAstTree toks = .ok (some t) s →
    ∃ ns, Nests toks ns [] ∧ t = (if ns = [] then .node .unknown toks [] .nil .nil else treeOf ns .nil)

/-- It is false: in `{ noop } if true` the block in front becomes the block of the `if`. -/
theorem C31_false : ¬ C31_full := by
  intro h
  have h0 : accepts [tk .bracketOpen, tk .kwNoop, tk .bracketClose, tk .kwIf, tk .boolConst] = true := by decide +kernel
  obtain ⟨t, s, h0⟩ := accepts_some h0
  obtain ⟨ns, h1, _⟩ := h _ t s h0
  have := (nests_brace h1 _ _ rfl rfl).2
  simp at this

/-- The braces of accepted tokens need not even be balanced: `namespace` takes any token for its name. -/
theorem C31_false_balance :
    ∃ t s, parseAstTree [tk .kwNamespace, tk .bracketOpen, tk .newline, tk .kwNoop] = .ok (some t) s :=
  accepts_some (by decide +kernel)

/-- When no list of statements begins with a block, the tree of accepted tokens is that of the statements as written, with every
block in braces right after the statement it belongs to, and exactly the statements between the braces inside it.  (Missing: tokens
where a list of statements begins with a block, for which it is false.) -/
theorem C31_partial (toks : List Token) (t : Tree) (s : PS) (hl : leadFree true toks = true)
    (h : parseAstTree toks = .ok (some t) s) :
    ∃ ns, Nests toks ns [] ∧ t = (if ns = [] then .node .unknown toks [] .nil .nil else treeOf ns .nil) :=
  parseAstTree_nests hl h

example : parseText "{ noop }\nif true\nnoop\n" = some "[if true[noop]][noop]" := by decide +kernel
example : parseText "if true {\nnoop\nwhile false {\nbreak\n}\n}\nelse {\nnoop\n}\n" =
    some "[if true[noop][while false[break]]][else[noop]]" := by decide +kernel
example : parseDiags "if true { noop } { noop }\n" = some [.errUnexpectedCodeBlock] := by decide +kernel
example : parseDiags "noop\n}\n" = some [.errMissingOpenBrak] := by decide +kernel

end Skull
