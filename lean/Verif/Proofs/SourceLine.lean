import Verif.Proofs.ParserMain
import Verif.Spec.Source
/-
The parser reads every statement that may be written.
-/
namespace Skull.SrcParse
open Spec Spec.Src

/-- What may follow an expression. -/
def Stops (tail : List Token) : Prop :=
  ∀ t, tail.head? = some t → t.ty = .newline ∨ t.ty = .bracketClose ∨ t.ty = .comment ∨ t.ty = .bracketOpen

theorem stops_of_line {tail : List Token} (h : LineEnds tail) : Stops tail := fun t ht => by
  rcases h t ht with h | h | h <;> simp [h]

theorem readAs_chain {c : Chain} (h : Value c) : ReadAs c (buildChain c) :=
  ⟨read_chain c h.1, nums_chain c, leaves_chain c h.1, opers_chain c h.1, fun hg => parseExpr_group h.1 h.2 hg⟩

theorem value_parse {c : Chain} (h : Value c) {s : PS} {tail : List Token} (he : s.err = false) (hs : s.toks = c.tokens ++ tail)
    (ht : Stops tail) : parseExpr s = .ok (some (buildChain c)) { s with toks := tail } := by
  refine parseExpr_complete h.1 h.2 he hs ?_ ?_
  · intro t h1 h2
    have := ht t h1
    rw [h2] at this
    simp at this
  · intro t h1
    rcases ht t h1 with h2 | h2 | h2 | h2 <;> rw [h2] <;> exact ⟨rfl, rfl⟩

/-- The statement was pushed. -/
def after (c : PCtx) (st : Stmt) (te toks : List Token) : PCtx :=
  { c.push st c.ps.toks te with ps := { c.ps with toks := toks } }

theorem value_ne {c : Chain} (h : Value c) : ∃ t ts, c.tokens = t :: ts ∧ StartOk t := chain_start c h.1

theorem ret_parse {c : PCtx} {t : Token} {rest : List Token} (he : c.ps.err = false) (hs : c.ps.toks = t :: rest)
    (ht : LineEnds rest) : parseReturn c = .ok false (after c (.ret .missing) c.ps.toks rest) := by
  have h1 : parseExpr { c.ps with toks := c.ps.toks.tail } = .ok none { c.ps with toks := rest } := by
    rw [hs, List.tail_cons]
    cases rest with
    | nil => rfl
    | cons u us =>
      have hu := ht u rfl
      have h1 : unaryOper u.ty = .unknown := by rcases hu with h | h | h <;> rw [h] <;> rfl
      have h2 : isIdentLike u = false := by rcases hu with h | h | h <;> simp [isIdentLike, h]
      have h3 : isSingleTokenExpr u.ty = false := by rcases hu with h | h | h <;> rw [h] <;> rfl
      have h4 : u.ty ≠ .parenOpen := by rcases hu with h | h | h <;> rw [h] <;> simp
      simp [parseExpr, exprFuel, parseExpression, parseSingle, parseRoot, h1, h2, h3, h4, he]
  simp only [parseReturn, h1]
  rfl

theorem retVal_parse {c : PCtx} {t : Token} {rest : List Token} {v : Chain} (hv : Value v) (he : c.ps.err = false)
    (hs : c.ps.toks = t :: (v.tokens ++ rest)) (ht : Stops rest) :
    parseReturn c = .ok false (after c (.ret (buildChain v)) c.ps.toks rest) := by
  have h1 := value_parse (s := { c.ps with toks := c.ps.toks.tail }) hv he (by simp [hs]) ht
  simp only [parseReturn, h1]
  rfl

theorem cond_parse {c : PCtx} {t : Token} {rest : List Token} {v : Chain} {mk : Expr → Stmt} (hv : Value v) (he : c.ps.err = false)
    (hs : c.ps.toks = t :: (v.tokens ++ rest)) (ht : Stops rest) :
    parseCondition c mk = .ok false (after c (mk (buildChain v)) c.ps.toks rest) := by
  obtain ⟨u, us, hu, _⟩ := value_ne hv
  have h1 := value_parse (s := { c.ps with toks := v.tokens ++ rest }) hv he rfl ht
  rw [hu] at hs h1
  simp only [List.cons_append] at hs h1
  simp only [parseCondition, hs, h1]
  rw [if_neg (by simp [he])]
  simp [after, hs]

/- ### Expressions at the beginning of a statement -/

theorem chain_split : ∀ c : Chain, c.WF → ∃ (o : Operand) (more : List Token), o.WF ∧ c.tokens = o.tokens ++ more ∧
    (∀ t, more.head? = some t → (binLevel t.ty).isSome = true)
  | .one o, h => ⟨o, [], h, by simp [Chain.tokens], by simp⟩
  | .more c t o, h => by
    simp only [Chain.WF] at h
    obtain ⟨o', more, h1, h2, h3⟩ := chain_split c h.1
    refine ⟨o', more ++ t :: o.tokens, h1, by simp [Chain.tokens, h2], ?_⟩
    cases more with
    | nil => intro u hu; simp at hu; rw [← hu]; exact h.2.1
    | cons m ms => intro u hu; exact h3 u (by simpa using hu)

/-- What may follow an operand: an operator, or what may follow an expression. -/
theorem next_type {more tail : List Token} {t : Token} (hm : ∀ t, more.head? = some t → (binLevel t.ty).isSome = true)
    (ht : LineEnds tail) (h : (more ++ tail).head? = some t) :
    (binLevel t.ty).isSome = true ∨ t.ty = .newline ∨ t.ty = .bracketClose ∨ t.ty = .comment := by
  cases more with
  | nil => exact .inr (ht t (by simpa using h))
  | cons m ms => exact .inl (hm t (by simpa using h))

theorem seq_start (q : Seq) (h : q.WF) (close : Token) (more : List Token) :
    (q = .nil) ∨ ∃ t ts, q.tokens ++ close :: more = t :: ts ∧ StartOk t := by
  cases q with
  | nil => exact .inl rfl
  | last c =>
    simp only [Seq.WF] at h
    obtain ⟨t, ts, h1, h2⟩ := chain_start c h
    exact .inr ⟨t, ts ++ close :: more, by simp [Seq.tokens, h1], h2⟩
  | cons c k r =>
    simp only [Seq.WF] at h
    obtain ⟨t, ts, h1, h2⟩ := chain_start c h.1
    exact .inr ⟨t, ts ++ k :: (r.tokens ++ close :: more), by simp [Seq.tokens, h1], h2⟩

theorem startOk_types {t : Token} (h : StartOk t) : t.ty ≠ .newIdentifier ∧ t.ty ≠ .parenClose ∧ t.ty ≠ .kwMut ∧ t.ty ≠ .kwExport ∧
    t.ty ≠ .kwExternal := by
  unfold StartOk at h
  refine ⟨?_, ?_, ?_, ?_, ?_⟩ <;>
  · intro he
    simp [isName, isLiteral, he, unLevel] at h

theorem not_explicit {t : Token} {ts : List Token} (h : t.ty ≠ .newIdentifier) : isExplicitType (t :: ts) = none := by
  cases ts with
  | nil => rfl
  | cons u us => simp [isExplicitType, h]

theorem params_none {f : Nat} {toks : List Token} {acc : List Param} (h : isExplicitType toks = none) :
    parseParams (f + 1) toks acc = some (acc, toks) := by
  simp only [parseParams, h]

/-- The second token of an expression, after a name. -/
theorem second {c : Chain} (hv : Value c) {tail : List Token} (ht : LineEnds tail) {t : Token} {ts : List Token}
    (h : c.tokens ++ tail = t :: ts) (hn : isName t = true) : 
    (∃ o more, more ++ tail = ts ∧ c.tokens = t :: more ∧ o = t ∧ ∀ u, more.head? = some u → (binLevel u.ty).isSome = true) ∨
    (∃ (opn : Token) (as : Seq) (close : Token) (more : List Token), opn.ty = .parenOpen ∧ as.WF ∧ close.ty = .parenClose ∧ ts = opn :: (as.tokens ++ close :: (more ++ tail)) ∧
      ∀ u, more.head? = some u → (binLevel u.ty).isSome = true) := by
  obtain ⟨o, more, h1, h2, h3⟩ := chain_split c hv.1
  rw [h2] at h
  cases o with
  | plain a =>
    cases a with
    | leaf u =>
      simp [Operand.tokens, Atom.tokens] at h h2
      obtain ⟨rfl, rfl⟩ := h
      exact .inl ⟨u, more, rfl, h2, rfl, h3⟩
    | call n opn as close =>
      simp only [Operand.WF, Atom.WF] at h1
      simp [Operand.tokens, Atom.tokens] at h
      obtain ⟨rfl, rfl⟩ := h
      exact .inr ⟨opn, as, close, more, h1.2.1, h1.2.2.1, h1.2.2.2, rfl, h3⟩
    | group opn g close =>
      simp only [Operand.WF, Atom.WF] at h1
      simp [Operand.tokens, Atom.tokens] at h
      obtain ⟨rfl, _⟩ := h
      simp [isName, h1.1] at hn
  | pre u a =>
    simp only [Operand.WF] at h1
    simp [Operand.tokens] at h
    obtain ⟨rfl, _⟩ := h
    have := h1.1
    simp [isName] at hn
    rcases hn with hn | hn <;> rw [hn] at this <;> simp [unLevel] at this
  | bare u =>
    simp only [Operand.WF] at h1
    simp [Operand.tokens] at h
    obtain ⟨rfl, _⟩ := h
    simp [isName] at hn
    rcases hn with hn | hn <;> rw [hn] at h1 <;> simp [unLevel] at h1

theorem binLevel_types {ty : TokType} (h : (binLevel ty).isSome = true) : ty ≠ .identifier ∧ ty ≠ .dotIdentifier ∧ ty ≠ .operRef ∧
    ty ≠ .bracketOpen ∧ ty ≠ .operEqual ∧ ty ≠ .operAutoEqual ∧ ty ≠ .parenOpen := by
  cases ty <;> simp [binLevel] at h ⊢

theorem no_type {more tail : List Token} (hm : ∀ t, more.head? = some t → (binLevel t.ty).isSome = true) (ht : LineEnds tail) :
    isPotentialType (more ++ tail) = none ∧ ((more ++ tail).head?.map (·.ty)) ≠ some .bracketOpen := by
  cases h : more ++ tail with
  | nil => simp [isPotentialType]
  | cons t ts =>
    have := next_type (t := t) hm ht (by simp [h])
    have h1 : t.ty ≠ .identifier ∧ t.ty ≠ .dotIdentifier ∧ t.ty ≠ .operRef ∧ t.ty ≠ .bracketOpen := by
      rcases this with h | h | h | h
      · have := binLevel_types h; exact ⟨this.1, this.2.1, this.2.2.1, this.2.2.2.1⟩
      all_goals rw [h]; simp
    simp [isPotentialType, isIdentLike, h1]

/-- `parse_function_proto` leaves expressions alone. -/
theorem expr_no_proto {c : PCtx} {v : Chain} {tail : List Token} (hv : Value v) (ht : LineEnds tail)
    (hs : c.ps.toks = v.tokens ++ tail) : parseFunctionProto c = .ignore := by
  obtain ⟨t, ts, h1, h2⟩ := value_ne hv
  obtain ⟨n1, n2, n3, n4, n5⟩ := startOk_types h2
  have hs' : c.ps.toks = t :: (ts ++ tail) := by rw [hs, h1]; rfl
  unfold parseFunctionProto
  rw [hs']
  simp only [n4, n5, decide_false, Bool.or_self, Bool.false_eq_true, if_false]
  by_cases hc : t.ty = .identifier ∧ ((ts ++ tail).head?.map (·.ty)) = some .parenOpen
  · have hn : isName t = true := by simp [isName, hc.1]
    rcases second hv ht (t := t) (ts := ts ++ tail) (by rw [h1]; rfl) hn with ⟨_, more, h3, _, _, h5⟩ |
      ⟨opn, as, close, more, h3, h4, h5, h6, h7⟩
    · exfalso
      rw [← h3] at hc
      obtain ⟨u, hu, hu2⟩ := Option.map_eq_some_iff.1 hc.2
      rcases next_type h5 ht hu with h | h | h | h
      · exact (binLevel_types h).2.2.2.2.2.2 hu2
      all_goals rw [hu2] at h; simp at h
    · rw [h6]
      simp only [tokenCmp2, hc.1, List.head?_cons, Option.map_some, h3, decide_true, Bool.and_self, List.tail_cons]
      have hno := no_type h7 ht
      rcases seq_start as h4 close (more ++ tail) with rfl | ⟨u, us, h8, h9⟩
      · simp only [Seq.tokens, List.nil_append]
        have hx : isExplicitType (close :: (more ++ tail)) = none := not_explicit (by rw [h5]; simp)
        simp only [finishProto, params_none hx]
        rw [if_pos h5, hno.1]
        simp only
        rw [if_neg (fun h => hno.2 (by simpa using h.2))]
        simp
      · rw [h8]
        obtain ⟨m1, m2, _⟩ := startOk_types h9
        have hx : isExplicitType (u :: us) = none := not_explicit m1
        simp only [finishProto, params_none hx]
        simp [m2]
  · simp only [tokenCmp2]
    have : (decide (t.ty = .identifier) && decide ((ts ++ tail).head?.map (·.ty) = some .parenOpen)) = false := by
      simpa using hc
    simp [this]

theorem expr_no_equals {v : Chain} {tail : List Token} (hv : Value v) (ht : LineEnds tail) {t : Token} {ts : List Token}
    (h : v.tokens ++ tail = t :: ts) (hn : isName t = true) :
    (ts.head?.map (·.ty)) ≠ some .operEqual ∧ (ts.head?.map (·.ty)) ≠ some .operAutoEqual := by
  rcases second hv ht h hn with ⟨_, more, h3, _, _, h5⟩ | ⟨opn, as, close, more, h3, h4, h5, h6, h7⟩
  · rw [← h3]
    cases hm : more ++ tail with
    | nil => simp
    | cons u us =>
      rcases next_type (t := u) h5 ht (by simp [hm]) with h | h | h | h
      · have := binLevel_types h; simp [this]
      all_goals simp [h]
  · rw [h6]; simp [h3]

/-- `parse_var_def` leaves expressions alone. -/
theorem expr_no_def {c : PCtx} {v : Chain} {tail : List Token} (hv : Value v) (ht : LineEnds tail)
    (hs : c.ps.toks = v.tokens ++ tail) : parseVarDef c = .ignore := by
  obtain ⟨t, ts, h1, h2⟩ := value_ne hv
  obtain ⟨n1, n2, n3, n4, n5⟩ := startOk_types h2
  have hs' : c.ps.toks = t :: (ts ++ tail) := by rw [hs, h1]; rfl
  unfold parseVarDef
  rw [hs']
  simp only [n3, n4, decide_false, Bool.or_self, Bool.false_eq_true, if_false, not_explicit n1]
  have : (decide (t.ty = .identifier) && decide ((ts ++ tail).head?.map (·.ty) = some .operAutoEqual)) = false := by
    by_cases hi : t.ty = .identifier
    · have := (expr_no_equals hv ht (t := t) (ts := ts ++ tail) (by rw [h1]; rfl) (by simp [isName, hi])).2
      rw [decide_eq_false this, Bool.and_false]
    · simp [hi]
  simp only [tokenCmp2, this]

/-- `parse_var_assign` leaves expressions alone. -/
theorem expr_no_assign {c : PCtx} {v : Chain} {tail : List Token} (hv : Value v) (ht : LineEnds tail)
    (hs : c.ps.toks = v.tokens ++ tail) : parseVarAssign c = .ignore := by
  obtain ⟨t, ts, h1, h2⟩ := value_ne hv
  have hs' : c.ps.toks = t :: (ts ++ tail) := by rw [hs, h1]; rfl
  unfold parseVarAssign
  rw [hs']
  have : (isIdentLike t && decide ((ts ++ tail).head?.map (·.ty) = some .operEqual)) = false := by
    by_cases hi : isName t = true
    · have := (expr_no_equals hv ht (t := t) (ts := ts ++ tail) (by rw [h1]; rfl) hi).1
      rw [decide_eq_false this, Bool.and_false]
    · rw [isName_eq] at hi; simp [hi]
  simp [this]

theorem expr_parse {c : PCtx} {v : Chain} {tail : List Token} (hv : Value v) (ht : LineEnds tail) (he : c.ps.err = false)
    (hs : c.ps.toks = v.tokens ++ tail) : parseDefault c = .ok false (after c (.expr (buildChain v)) tail tail) := by
  have h1 := value_parse hv he hs (stops_of_line ht)
  simp only [parseDefault, expr_no_proto hv ht hs, expr_no_def hv ht hs, expr_no_assign hv ht hs, parseExprStmt, h1, after]

theorem assign_parse {c : PCtx} {n q : Token} {v : Chain} {tail : List Token} (hn : isName n = true) (hq : q.ty = .operEqual)
    (hv : Value v) (ht : Stops tail) (he : c.ps.err = false) (hs : c.ps.toks = n :: q :: (v.tokens ++ tail)) :
    ∃ te, parseDefault c = .ok false (after c (.varAssign (buildChain v)) te tail) := by
  have hn2 : isIdentLike n = true := by rw [← isName_eq]; exact hn
  have hty : n.ty ≠ .kwExternal ∧ n.ty ≠ .kwExport ∧ n.ty ≠ .kwMut ∧ n.ty ≠ .newIdentifier := by
    simp [isName] at hn
    rcases hn with h | h <;> rw [h] <;> simp
  have h1 : parseFunctionProto c = .ignore := by
    simp [parseFunctionProto, hs, hty, tokenCmp2, hq]
  have h2 : parseVarDef c = .ignore := by
    simp [parseVarDef, hs, hty, isExplicitType, tokenCmp2, hq]
  have h3 := value_parse (s := { c.ps with toks := v.tokens ++ tail }) hv he rfl ht
  refine ⟨q :: (v.tokens ++ tail), ?_⟩
  simp only [parseDefault, h1, h2, parseVarAssign, hs, hn2, List.head?_cons, Option.map_some, hq, decide_true, Bool.and_self,
    Bool.not_true, Bool.false_eq_true, if_false, List.tail_cons, h3]
  simp [after, hs]

/- ### Definitions -/

theorem finishDef_parse {c : PCtx} {first name : List Token} {q : Token} {v : Chain} {tail : List Token} {k i x : Bool} (hv : Value v)
    (ht : ∀ t, tail.head? = some t → t.ty = .newline) (he : c.ps.err = false) (hf : c.ps.toks = first) :
    finishVarDef c first name (q :: (v.tokens ++ tail)) k i x =
      .ok (after c (.varDef name k i x (buildChain v)) (q :: (v.tokens ++ tail)) tail) := by
  have h3 := value_parse (s := { c.ps with toks := v.tokens ++ tail }) hv he rfl (fun t h => .inl (ht t h))
  simp only [finishVarDef, h3]
  rw [if_neg (by simp [he])]
  cases tail with
  | nil => simp [after, hf]
  | cons t ts => simp [after, hf, ht t rfl]

theorem define_parse {c : PCtx} {mark : List Token} {n q : Token} {v : Chain} {tail : List Token} {k x : Bool}
    (hm : DeclMark mark k x) (hn : n.ty = .identifier) (hq : q.ty = .operAutoEqual) (hv : Value v)
    (ht : ∀ t, tail.head? = some t → t.ty = .newline) (he : c.ps.err = false)
    (hs : c.ps.toks = mark ++ n :: q :: (v.tokens ++ tail)) :
    parseDefault c = .ok false (after c (.varDef (n :: q :: (v.tokens ++ tail)) k true x (buildChain v))
      (q :: (v.tokens ++ tail)) tail) := by
  have h1 : parseFunctionProto c = .ignore := by
    cases hm with
    | none => simp at hs; simp [parseFunctionProto, hs, tokenCmp2, hn, hq]
    | «mut» hk => simp at hs; simp [parseFunctionProto, hs, tokenCmp2, hk]
    | «export» hk => simp at hs; simp [parseFunctionProto, hs, tokenCmp2, hk, hn, hq]
  have h2 : parseVarDef c = finishVarDef c c.ps.toks (n :: q :: (v.tokens ++ tail)) (q :: (v.tokens ++ tail)) k true x := by
    have hx : isExplicitType (n :: q :: (v.tokens ++ tail)) = none := not_explicit (by rw [hn]; simp)
    cases hm with
    | none => simp at hs; simp [parseVarDef, hs, hx, tokenCmp2, hn, hq]
    | «mut» hk => simp at hs; simp [parseVarDef, hs, hx, tokenCmp2, hk, hn, hq]
    | «export» hk => simp at hs; simp [parseVarDef, hs, hx, tokenCmp2, hk, hn, hq]
  simp only [parseDefault, h1, h2, finishDef_parse hv ht he rfl]

theorem defineAs_parse {c : PCtx} {mark ty : List Token} {n q : Token} {v : Chain} {tail : List Token} {k x : Bool}
    (hm : DeclMark mark k x) (hn : n.ty = .newIdentifier) (hty : TypeOf ty) (hv : Value v)
    (ht : ∀ t, tail.head? = some t → t.ty = .newline) (he : c.ps.err = false)
    (hs : c.ps.toks = mark ++ n :: (ty ++ q :: (v.tokens ++ tail))) :
    parseDefault c = .ok false (after c (.varDef (n :: (ty ++ q :: (v.tokens ++ tail))) k false x (buildChain v))
      (q :: (v.tokens ++ tail)) tail) := by
  have h1 : parseFunctionProto c = .ignore := proto_ignores hm hn hs
  have h2 : parseVarDef c = finishVarDef c c.ps.toks (n :: (ty ++ q :: (v.tokens ++ tail))) (q :: (v.tokens ++ tail)) k false x := by
    have hx := explicitType_of (rest := q :: (v.tokens ++ tail)) hn hty
    unfold parseVarDef
    rw [hs]
    cases hm with
    | none => simp [hn, hx]
    | «mut» hk => simp [hk, hx]
    | «export» hk => simp [hk, hx]
  simp only [parseDefault, h1, h2, finishDef_parse hv ht he rfl]

/- ### Functions -/

theorem pars_parse : ∀ (p : Pars) (f : Nat) (acc : List Param) (cl : Token) (rest : List Token), p.WF → cl.ty = .parenClose →
    p.tokens.length < f →
    parseParams f (p.tokens ++ cl :: rest) acc = some ((p.list (cl :: rest)).reverse ++ acc, cl :: rest)
  | _, 0, _, _, _, _, _, hf => by omega
  | .nil, f + 1, acc, cl, rest, _, hcl, _ => by
    simp only [Pars.tokens, List.nil_append, Pars.list, List.reverse_nil]
    exact params_none (not_explicit (by rw [hcl]; simp))
  | .last n ty, f + 1, acc, cl, rest, hw, hcl, _ => by
    simp only [Pars.WF] at hw
    have hx := explicitType_of (rest := cl :: rest) hw.1 hw.2
    simp [Pars.tokens, parseParams, hx, hcl, Pars.list]
  | .cons n ty c r, f + 1, acc, cl, rest, hw, hcl, hf => by
    simp only [Pars.WF] at hw
    have hx := explicitType_of (rest := c :: (r.tokens ++ cl :: rest)) hw.1 hw.2.1
    have ih := pars_parse r f (⟨n, ty ++ c :: (r.tokens ++ cl :: rest)⟩ :: acc) cl rest hw.2.2.2 hcl
      (by simp [Pars.tokens] at hf; omega)
    simp [Pars.tokens, parseParams, hx, hw.2.2.1, Pars.list, ih]

theorem pars_count : ∀ (p : Pars) (a : List Token), (p.list a).length = p.count
  | .nil, _ => rfl
  | .last .., _ => rfl
  | .cons _ _ _ r, a => by simp [Pars.list, Pars.count, pars_count r a]

theorem type_potential {rest : List Token} : ∀ {ty : List Token}, TypeOf ty → ∃ t, isPotentialType (ty ++ rest) = some (t :: rest) := by
  intro ty ht
  induction ht with
  | @name t h => rw [isName_eq] at h; exact ⟨t, by simp [isPotentialType, h]⟩
  | @ref t ts h _ ih =>
    obtain ⟨u, ih⟩ := ih
    have : isIdentLike t = false := by simp [isIdentLike, h]
    exact ⟨u, by simp [isPotentialType, h, this, ih]⟩

theorem proto_finish {c : PCtx} {mark : List Token} {n opn : Token} {start : List Token} {ext exp : Bool} (hn : n.ty = .identifier)
    (ho : opn.ty = .parenOpen) (hm : FuncMark mark ext exp) (hs : c.ps.toks = mark ++ n :: opn :: start) :
    parseFunctionProto c = finishProto c c.ps.toks (n :: opn :: start) start ext exp := by
  unfold parseFunctionProto
  cases hm with
  | none =>
    simp only [List.nil_append] at hs
    simp [hs, hn, ho, tokenCmp2]
  | external hk =>
    simp only [List.cons_append, List.nil_append] at hs
    simp [hs, hk, hn, ho, tokenCmp2]
  | «export» hk =>
    simp only [List.cons_append, List.nil_append] at hs
    simp [hs, hk, hn, ho, tokenCmp2]

theorem func_parse {c : PCtx} {f : Func} {tail : List Token} {ext exp : Bool} {b : Token} (hw : f.WF)
    (hm : FuncMark f.mark ext exp) (hs : c.ps.toks = f.tokens ++ tail) (hb : tail.head? = some b)
    (hbt : b.ty = if ext then .newline else .bracketOpen) :
    ∃ st te, f.Is tail st ∧ ValueAt st te ∧ parseDefault c = .ok false (after c st te tail) := by
  obtain ⟨mark, n, opn, params, close, ret⟩ := f
  obtain ⟨h1, h2, h3, h4, h5, h6⟩ := hw
  simp only at h1 h2 h3 h4 h5 h6 hm
  have hs' : c.ps.toks = mark ++ n :: opn :: (params.tokens ++ close :: (ret.getD [] ++ tail)) := by
    rw [hs]; simp [Func.tokens]
  have hp := proto_finish h1 h2 hm hs'
  have hpar := pars_parse params ((params.tokens ++ close :: (ret.getD [] ++ tail)).length + 1) [] close (ret.getD [] ++ tail) h3 h5
    (by simp; omega)
  rw [List.append_nil] at hpar
  have hcount := pars_count params (close :: (ret.getD [] ++ tail))
  have hmod : params.count % 65536 = params.count := Nat.mod_eq_of_lt h4
  have htake : (params.list (close :: (ret.getD [] ++ tail))).take params.count = params.list (close :: (ret.getD [] ++ tail)) := by
    rw [List.take_of_length_le]; omega
  have hnext : tail.head?.map (·.ty) = some (if ext = true then TokType.newline else .bracketOpen) := by simp [hb, hbt]
  cases ret with
  | none =>
    simp only [Option.getD_none, List.nil_append] at hpar hp hcount htake hs'
    have hno : isPotentialType tail = none := by
      cases tail with
      | nil => rfl
      | cons u us =>
        simp at hb
        subst hb
        have : u.ty ≠ .identifier ∧ u.ty ≠ .dotIdentifier ∧ u.ty ≠ .operRef := by
          rw [hbt]; cases ext <;> simp
        simp [isPotentialType, isIdentLike, this]
    refine ⟨.funcProto ⟨n, none, ext, exp, params.list (close :: tail), params.count⟩, close :: tail, ⟨ext, exp, hm, rfl⟩, trivial, ?_⟩
    have hfin : finishProto c c.ps.toks (n :: opn :: (params.tokens ++ close :: tail)) (params.tokens ++ close :: tail) ext exp =
        .ok (after c (.funcProto ⟨n, none, ext, exp, params.list (close :: tail), params.count⟩) (close :: tail) tail) := by
      simp only [finishProto, hpar, List.reverse_reverse]
      rw [if_pos h5, hno]
      simp only
      rw [if_pos ⟨h5, hnext⟩]
      simp [pushProto, hcount, hmod, htake, after, PCtx.push]
    simp only [parseDefault, hp, hfin]
  | some ty =>
    have hty := h6 ty rfl
    simp only [Option.getD_some] at hpar hp hcount htake hs'
    obtain ⟨u, hu⟩ := type_potential (rest := tail) hty
    refine ⟨.funcProto ⟨n, some (ty ++ tail), ext, exp, params.list (close :: (ty ++ tail)), params.count⟩, u :: tail,
      ⟨ext, exp, hm, rfl⟩, trivial, ?_⟩
    have hfin : finishProto c c.ps.toks (n :: opn :: (params.tokens ++ close :: (ty ++ tail)))
        (params.tokens ++ close :: (ty ++ tail)) ext exp =
        .ok (after c (.funcProto ⟨n, some (ty ++ tail), ext, exp, params.list (close :: (ty ++ tail)), params.count⟩) (u :: tail)
          tail) := by
      simp only [finishProto, hpar, List.reverse_reverse]
      rw [if_pos h5, hu]
      simp only
      rw [if_pos hnext]
      simp [pushProto, hcount, hmod, htake, after, PCtx.push]
    simp only [parseDefault, hp, hfin]

/- ### Statements -/

theorem node_default {f lvl : Nat} {c : PCtx} {t : Token} {rest : List Token} (hs : c.ps.toks = t :: rest)
    (h : t.ty = .newIdentifier ∨ t.ty = .kwMut ∨ t.ty = .kwExport ∨ t.ty = .kwExternal ∨ StartOk t) :
    parseNode (f + 1) lvl c = parseDefault c := by
  simp only [parseNode, hs]
  cases hty : t.ty <;> simp [StartOk, isName, isLiteral, hty, unLevel] at h ⊢

theorem declMark_start {mark : List Token} {k x : Bool} (hm : DeclMark mark k x) {n : Token} {rest : List Token}
    (hn : n.ty = .identifier ∨ n.ty = .newIdentifier) :
    ∃ t ts, mark ++ n :: rest = t :: ts ∧ (t.ty = .newIdentifier ∨ t.ty = .kwMut ∨ t.ty = .kwExport ∨ t.ty = .kwExternal ∨ StartOk t) := by
  cases hm with
  | none =>
    refine ⟨n, rest, rfl, ?_⟩
    rcases hn with h | h
    · exact .inr (.inr (.inr (.inr (.inr (.inl (by simp [isName, h]))))))
    · exact .inl h
  | @«mut» t h => exact ⟨t, n :: rest, rfl, .inr (.inl h)⟩
  | @«export» t h => exact ⟨t, n :: rest, rfl, .inr (.inr (.inl h))⟩

theorem funcMark_start {mark : List Token} {k x : Bool} (hm : FuncMark mark k x) {n : Token} {rest : List Token}
    (hn : n.ty = .identifier) :
    ∃ t ts, mark ++ n :: rest = t :: ts ∧ (t.ty = .newIdentifier ∨ t.ty = .kwMut ∨ t.ty = .kwExport ∨ t.ty = .kwExternal ∨ StartOk t) := by
  cases hm with
  | none => exact ⟨n, rest, rfl, .inr (.inr (.inr (.inr (.inr (.inl (by simp [isName, hn]))))))⟩
  | @external t h => exact ⟨t, n :: rest, rfl, .inr (.inr (.inr (.inl h)))⟩
  | @«export» t h => exact ⟨t, n :: rest, rfl, .inr (.inr (.inl h))⟩

theorem func_node {f lvl : Nat} {c : PCtx} {g : Func} {tail : List Token} {ext exp : Bool} {b : Token} (hw : g.WF)
    (hm : FuncMark g.mark ext exp) (hs : c.ps.toks = g.tokens ++ tail) (hb : tail.head? = some b)
    (hbt : b.ty = if ext then .newline else .bracketOpen) :
    ∃ st te, g.Is tail st ∧ ValueAt st te ∧ parseNode (f + 1) lvl c = .ok false (after c st te tail) := by
  obtain ⟨st, te, h1, h2, h3⟩ := func_parse hw hm hs hb hbt
  obtain ⟨t, ts, h4, h5⟩ := funcMark_start (rest := g.opn :: (g.params.tokens ++ g.close :: g.ret.getD []) ++ tail) hm hw.1
  refine ⟨st, te, h1, h2, ?_⟩
  rw [node_default (t := t) (rest := ts) (by rw [hs, ← h4]; simp [Func.tokens]) h5, h3]

/-- A statement without a block. -/
theorem line_node {f lvl : Nat} {c : PCtx} {s : Line} {tail : List Token} (hw : s.WF) (ht : LineEnds tail) (hn : s.Newline tail)
    (he : c.ps.err = false) (hs : c.ps.toks = s.tokens ++ tail) :
    ∃ st te, s.Is tail st ∧ ValueAt st te ∧ parseNode (f + 1) lvl c = .ok false (after c st te tail) := by
  cases s with
  | word t =>
    simp only [Line.tokens, List.cons_append, List.nil_append] at hs
    simp only [Line.WF] at hw
    refine ⟨wordIs t.ty, c.ps.toks, rfl, ?_, ?_⟩
    · rcases hw with h | h | h | h | h <;> rw [h] <;> exact trivial
    · rcases hw with h | h | h | h | h <;> simp [parseNode, hs, h, pushToken, after, wordIs]
  | ret t =>
    simp only [Line.tokens, List.cons_append, List.nil_append] at hs
    simp only [Line.WF] at hw
    refine ⟨_, c.ps.toks, rfl, trivial, ?_⟩
    rw [← ret_parse he hs ht]
    simp only [parseNode, hs, hw]
  | retVal t v =>
    simp only [Line.tokens, List.cons_append] at hs
    simp only [Line.WF] at hw
    refine ⟨_, c.ps.toks, ⟨_, readAs_chain hw.2, rfl⟩, trivial, ?_⟩
    rw [← retVal_parse hw.2 he hs (stops_of_line ht)]
    simp only [parseNode, hs, hw.1]
  | «import» t n =>
    simp only [Line.tokens, List.cons_append, List.nil_append] at hs
    simp only [Line.WF] at hw
    refine ⟨.imports, c.ps.toks, rfl, trivial, ?_⟩
    simp [parseNode, hs, hw.1, hw.2, parseImport, after]
  | define m n q v =>
    simp only [Line.tokens, List.append_assoc, List.cons_append] at hs
    simp only [Line.WF] at hw
    obtain ⟨⟨k, x, hm⟩, h1, h2, h3⟩ := hw
    refine ⟨.varDef (n :: q :: (v.tokens ++ tail)) k true x (buildChain v), q :: (v.tokens ++ tail),
      ⟨k, x, _, hm, readAs_chain h3, rfl⟩, ⟨n, [], rfl, fun _ => rfl, nofun⟩, ?_⟩
    obtain ⟨t, ts, h4, h5⟩ := declMark_start (rest := q :: (v.tokens ++ tail)) hm (.inl h1)
    rw [node_default (t := t) (rest := ts) (by rw [hs, h4]) h5, define_parse hm h1 h2 h3 hn he hs]
  | defineAs m n ty q v =>
    simp only [Line.tokens, List.append_assoc, List.cons_append] at hs
    simp only [Line.WF] at hw
    obtain ⟨⟨k, x, hm⟩, h1, h2, _, h3⟩ := hw
    refine ⟨.varDef (n :: (ty ++ q :: (v.tokens ++ tail))) k false x (buildChain v), q :: (v.tokens ++ tail),
      ⟨k, x, _, hm, readAs_chain h3, rfl⟩, ⟨n, ty, rfl, nofun, fun _ => h2⟩, ?_⟩
    obtain ⟨t, ts, h4, h5⟩ := declMark_start (rest := ty ++ q :: (v.tokens ++ tail)) hm (.inr h1)
    rw [node_default (t := t) (rest := ts) (by rw [hs, h4]) h5, defineAs_parse hm h1 h2 h3 hn he hs]
  | assign n q v =>
    simp only [Line.tokens, List.cons_append] at hs
    simp only [Line.WF] at hw
    obtain ⟨te, h1⟩ := assign_parse hw.1 hw.2.1 hw.2.2 (stops_of_line ht) he hs
    refine ⟨_, te, ⟨_, readAs_chain hw.2.2, rfl⟩, trivial, ?_⟩
    rw [node_default hs (.inr (.inr (.inr (.inr (.inr (.inl hw.1)))))), h1]
  | expr v =>
    simp only [Line.tokens] at hs
    simp only [Line.WF] at hw
    obtain ⟨t, ts, h1, h2⟩ := value_ne hw
    refine ⟨_, tail, ⟨_, readAs_chain hw, rfl⟩, trivial, ?_⟩
    rw [node_default (t := t) (rest := ts ++ tail) (by rw [hs, h1]; rfl) (.inr (.inr (.inr (.inr h2)))), expr_parse hw ht he hs]
  | external g =>
    simp only [Line.tokens] at hs
    simp only [Line.WF] at hw
    obtain ⟨b, hb, hbt⟩ := hn
    exact func_node hw.1 hw.2 hs hb hbt

/-- What stands before a block. -/
theorem head_node {f lvl : Nat} {c : PCtx} {h : Head} {tail : List Token} {b : Token} (hw : h.WF) (hb : tail.head? = some b)
    (hbt : b.ty = .newline ∨ b.ty = .bracketOpen) (hf : ∀ g, h = .func g → b.ty = .bracketOpen)
    (he : c.ps.err = false) (hs : c.ps.toks = h.tokens ++ tail) :
    ∃ st te, h.Is tail st ∧ ValueAt st te ∧ parseNode (f + 1) lvl c = .ok false (after c st te tail) := by
  have hst : Stops tail := by
    intro t ht
    rw [hb] at ht
    simp at ht
    subst ht
    rcases hbt with h | h <;> simp [h]
  cases h with
  | cond t v =>
    simp only [Head.tokens, List.cons_append] at hs
    simp only [Head.WF] at hw
    refine ⟨_, c.ps.toks, ⟨_, readAs_chain hw.2, rfl⟩, ?_, ?_⟩
    · (repeat' split) <;> exact trivial
    · rcases hw.1 with h | h | h
      · simp only [parseNode, hs, h, if_true]
        rw [← hs]
        exact cond_parse hw.2 he hs hst
      · simp only [parseNode, hs, h, reduceCtorEq, if_true, if_false]
        rw [← hs]
        exact cond_parse hw.2 he hs hst
      · simp only [parseNode, hs, h, reduceCtorEq, if_false]
        rw [← hs]
        exact cond_parse hw.2 he hs hst
  | «else» t =>
    simp only [Head.tokens, List.cons_append, List.nil_append] at hs
    simp only [Head.WF] at hw
    refine ⟨_, c.ps.toks, rfl, trivial, ?_⟩
    simp [parseNode, hs, hw, pushToken, after]
  | «namespace» t n =>
    simp only [Head.tokens, List.cons_append, List.nil_append] at hs
    simp only [Head.WF] at hw
    refine ⟨_, tail, rfl, trivial, ?_⟩
    simp [parseNode, hs, hw.1, parseNamespace, after]
  | func g =>
    simp only [Head.tokens] at hs
    simp only [Head.WF] at hw
    obtain ⟨h1, x, h2⟩ := hw
    exact func_node h1 h2 hs hb (hf g rfl)

end Skull.SrcParse
