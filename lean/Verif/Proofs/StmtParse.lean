import Verif.Proofs.ExprTree
import Verif.Proofs.ExprComplete
import Verif.Spec.Statements
/-
What the statement functions of the parser do.
-/
namespace Skull
open Spec

/- ### Expressions inside statements -/

theorem loop_some_err : ∀ (f : Nat) (c : Expr) (s : PS) (e : Expr) (s' : PS), s.err = false →
    parseRhsLoop f c s = .ok (some e) s' → s'.err = false
  | 0, _, _, _, _, _, h => by simp [parseRhsLoop] at h
  | f + 1, c, s, e, s', he, h => by
    simp only [parseRhsLoop] at h
    split at h
    · simp at h; rw [← h.2]; exact he
    · split at h
      · simp at h; rw [← h.2]; exact he
      · split at h
        · simp at h
        · split at h
          · simp at h
          · split at h
            · simp at h
            · rename_i hne
              exact loop_some_err f _ _ _ _ (by simpa using hne) h
          · simp at h
          · simp at h

theorem expr_some_err {f : Nat} {s : PS} {e : Expr} {s' : PS} (h : parseExpression f s = .ok (some e) s') :
    s'.err = false := by
  cases f with
  | zero => simp [parseExpression] at h
  | succ f =>
    simp only [parseExpression] at h
    split at h
    · simp at h
    · split at h
      · split at h
        · simp at h
        · rename_i hne
          split at h
          · simp at h
          · exact loop_some_err _ _ _ _ _ (by simpa using hne) h
      · simp at h
      · simp at h

theorem exprOf_chain {c : Chain} (h : c.WF) : ExprOf c.tokens (buildChain c) :=
  ⟨⟨c, h, rfl⟩, read_chain c h, nums_chain c, leaves_chain c h, opers_chain c h⟩

theorem exprOf_ne {ex : List Token} {e : Expr} (h : ExprOf ex e) : ex ≠ [] := by
  obtain ⟨⟨c, _, rfl⟩, _⟩ := h
  exact chain_tokens_ne c

theorem parseExpr_some {s : PS} {e : Expr} {s' : PS} (h : parseExpr s = .ok (some e) s') :
    s'.err = false ∧ ∃ ex, ExprOf ex e ∧ s = { s' with toks := ex ++ s'.toks } ∧ ∀ t ∈ ex, t.ty ≠ .newline := by
  have he := expr_some_err h
  refine ⟨he, ?_⟩
  obtain ⟨c, hw, rfl, hs⟩ := (sound _).expr _ _ _ h he
  refine ⟨c.tokens, exprOf_chain hw, hs, ?_⟩
  obtain ⟨pre, hp, hn⟩ := ((stepAt _).expr _ _ _ h).toks
  have : pre = c.tokens := by
    have h2 : s.toks = c.tokens ++ s'.toks := by rw [hs]
    rw [h2] at hp
    exact (List.append_cancel_right hp).symm
  rw [← this]; exact hn

theorem parseExpr_step {s : PS} {e : Option Expr} {s' : PS} (h : parseExpr s = .ok e s') : Step s s' :=
  (stepAt _).expr _ _ _ h

theorem parseExpr_none_eq {s : PS} {s' : PS} (h : parseExpr s = .ok none s') (he : s'.err = false) : s' = s :=
  (sound _).exprNone _ _ h he

/- ### Types -/

theorem potentialType_some : ∀ {toks r : List Token}, isPotentialType toks = some r →
    ∃ ty t rest, r = t :: rest ∧ toks = ty ++ rest ∧ TypeOf ty ∧ ∀ t ∈ ty, t.ty ≠ .newline
  | [], r, h => by simp [isPotentialType] at h
  | t :: rest, r, h => by
    simp only [isPotentialType] at h
    split at h
    · rename_i ht
      simp at h
      refine ⟨[t], t, rest, h.symm, rfl, .name (by rw [isName_eq]; exact ht), ?_⟩
      intro x hx hn
      simp at hx
      subst hx
      simp [isIdentLike, hn] at ht
    · split at h
      · rename_i href
        obtain ⟨ty, t', rest', h1, h2, h3, h4⟩ := potentialType_some h
        refine ⟨t :: ty, t', rest', h1, by simp [h2], .ref href h3, ?_⟩
        intro x hx
        simp at hx
        rcases hx with rfl | hx
        · rw [href]; decide
        · exact h4 x hx
      · simp at h

theorem explicitType_some {toks cur : List Token} (h : isExplicitType toks = some cur) :
    ∃ n ty, toks = n :: (ty ++ cur) ∧ n.ty = .newIdentifier ∧ TypeOf ty ∧ ∀ t ∈ ty, t.ty ≠ .newline := by
  match toks, h with
  | t :: t2 :: rest, h =>
    simp only [isExplicitType] at h
    split at h
    · simp at h
    · rename_i hty
      obtain ⟨r, hr, h2⟩ := Option.map_eq_some_iff.1 h
      obtain ⟨ty, u, more, h3, h4, h5, h6⟩ := potentialType_some hr
      refine ⟨t, ty, ?_, by simpa using hty, h5, h6⟩
      rw [h4, ← h2, h3]; rfl
  | [], h => simp [isExplicitType] at h
  | [_], h => simp [isExplicitType] at h

theorem typeOf_ne {ty : List Token} (h : TypeOf ty) : ty ≠ [] := by cases h <;> simp

theorem params_sound : ∀ (f : Nat) (toks : List Token) (acc ps : List Param) (after : List Token),
    parseParams f toks acc = some (ps, after) → after ≠ [] →
    ∃ new, ParamsOf toks after new ∧ ps = new.reverse ++ acc ∧ (toks.length = after.length → new = [])
  | 0, _, _, _, _, h, _ => by simp [parseParams] at h
  | f + 1, toks, acc, ps, after, h, ha => by
    simp only [parseParams] at h
    split at h
    · simp at h
      obtain ⟨rfl, rfl⟩ := h
      exact ⟨[], .none, by simp, by simp⟩
    · simp at h; exact absurd h.2 (by simpa using ha.symm)
    · rename_i last rest name type hx
      obtain ⟨n, ty, h1, h2, h3, _⟩ := explicitType_some hx
      simp at h1
      obtain ⟨rfl, rfl⟩ := h1
      split at h
      · simp at h
        obtain ⟨rfl, rfl⟩ := h
        refine ⟨[⟨name, ty ++ last :: rest⟩], .last h2 h3, by simp, ?_⟩
        intro hl; simp at hl; omega
      · rename_i hc
        obtain ⟨new, h4, h5, _⟩ := params_sound f rest _ ps after h ha
        have hlen : ∀ {a b ps}, ParamsOf a b ps → b.length ≤ a.length := by
          intro a b ps hp
          induction hp with
          | none => exact Nat.le_refl _
          | last => simp; omega
          | more _ _ _ _ ih => simp; omega
        refine ⟨⟨name, ty ++ last :: rest⟩ :: new, .more h2 h3 (by simpa using hc) h4, by simp [h5], ?_⟩
        intro hl
        have := hlen h4
        simp at hl; omega
    · rename_i hx
      simp [isExplicitType] at hx

theorem params_fuel : ∀ (f : Nat) (toks : List Token) (acc : List Param), toks.length < f → parseParams f toks acc ≠ none
  | 0, _, _, h => by omega
  | f + 1, toks, acc, h => by
    simp only [parseParams]
    split
    · simp
    · simp
    · rename_i last rest name type hx
      obtain ⟨n, ty, h1, _, _, _⟩ := explicitType_some hx
      simp at h1
      split
      · simp
      · apply params_fuel
        rw [h1.2] at h
        simp at h; omega
    · simp

theorem paramsOf_len {a b : List Token} {ps : List Param} (h : ParamsOf a b ps) : b.length ≤ a.length := by
  induction h with
  | none => exact Nat.le_refl _
  | last => simp; omega
  | more _ _ _ _ ih => simp; omega

/- ### Statements -/

/-- One statement was pushed. -/
def Pushed (c c' : PCtx) : Prop :=
  ∃ st te, Written c.ps.toks c'.ps.toks st ∧ ValueAt st te ∧ c' = { c.push st c.ps.toks te with ps := { c.ps with toks := c'.ps.toks } }

/-- The keywords whose statement fails without a diagnostic when nothing follows. -/
def silentKw (ty : TokType) : Prop := ty = .kwIf ∨ ty = .kwElif ∨ ty = .kwWhile ∨ ty = .kwNamespace

/-- The tokens end in such a keyword. -/
def Silent (toks : List Token) : Prop := ∃ t, toks.getLast? = some t ∧ silentKw t.ty

/-- What a statement function leaves: diagnostics when it failed, one more statement when it did not. -/
structure Post (c c' : PCtx) : Prop where
  diags : ∃ d, c'.ps.diags = d ++ c.ps.diags ∧ (c'.ps.err = true → d ≠ [] ∨ Silent c.ps.toks)
  ok : c'.ps.err = false → Pushed c c'

theorem Post.failed {c c' : PCtx} {s : PS} {code : Code} {t : Option Token} (h : c'.ps = s.fail code t)
    (hd : ∃ d, s.diags = d ++ c.ps.diags) : Post c c' := by
  obtain ⟨d, hd⟩ := hd
  refine ⟨⟨⟨code, t⟩ :: d, by simp [h, PS.fail, hd], fun _ => .inl (by simp)⟩, ?_⟩
  intro he; simp [h, PS.fail] at he

theorem Post.erred {c c' : PCtx} {s : PS} (h : c'.ps = s) (he : s.err = true) (hc : c.ps.err = false)
    {toks : List Token} (hs : Step { c.ps with toks := toks } s) : Post c c' := by
  obtain ⟨d, hd, hd2⟩ := hs.diags
  refine ⟨⟨d, by simp [h, hd], fun h1 => ?_⟩, ?_⟩
  · rw [h] at h1
    rcases hd2 h1 with h2 | h2
    · simp [hc] at h2
    · exact .inl h2
  · intro h1; rw [h, he] at h1; simp at h1

theorem Post.pushed {c c' : PCtx} {st : Stmt} {te : List Token} {toks : List Token} (hc : c.ps.err = false)
    (h : c' = { c.push st c.ps.toks te with ps := { c.ps with toks := toks } }) (hw : Written c.ps.toks toks st)
    (hv : ValueAt st te) : Post c c' := by
  subst h
  refine ⟨⟨[], by simp, fun h1 => ?_⟩, fun _ => ⟨st, te, hw, hv, rfl⟩⟩
  simp [hc] at h1

/-- What a parser function with a `ParserResult` guarantees. -/
def PResOk (c : PCtx) (r : PRes) : Prop :=
  (∀ c', r = .ok c' → Post c c') ∧ (∀ c', r = .error c' → Post c c' ∧ c'.ps.err = true)

theorem PResOk.ub (c : PCtx) : PResOk c .ub := by constructor <;> simp

theorem PResOk.fuel (c : PCtx) : PResOk c .fuel := by constructor <;> simp

theorem PResOk.ignore (c : PCtx) : PResOk c .ignore := by constructor <;> simp

theorem PResOk.ok {c c' : PCtx} (h : Post c c') : PResOk c (.ok c') := by
  constructor
  · intro c'' h2; simp at h2; exact h2 ▸ h
  · simp

theorem PResOk.error {c c' : PCtx} (h : Post c c') (he : c'.ps.err = true) : PResOk c (.error c') := by
  constructor
  · simp
  · intro c'' h2; simp at h2; exact h2 ▸ ⟨h, he⟩

theorem PResOk.failed {c : PCtx} {d : List Node} {hc : Tree} {toks : List Token} {code : Code} {t : Option Token} :
    PResOk c (.error { ps := { c.ps with toks := toks }.fail code t, done := d, headChild := hc }) :=
  .error (Post.failed (s := { c.ps with toks := toks }) rfl ⟨[], by simp⟩) rfl

theorem pushProto_ok {c : PCtx} {first name last ts mark ps rt : List Token} {n opn close : Token} {params : List Param}
    {ret : Option (List Token)} {ext exp : Bool} (hc : c.ps.err = false) (hf : c.ps.toks = first)
    (hfirst : first = mark ++ name) (hname : name = n :: opn :: ps) (hm : FuncMark mark ext exp) (hn : n.ty = .identifier)
    (ho : opn.ty = .parenOpen) (hp : ParamsOf ps (close :: rt) params) (hcl : close.ty = .parenClose) (hr : RetOf rt ts ret)
    (hl : last.tail = ts) (hb : ts.head?.map (·.ty) = some (if ext then .newline else .bracketOpen)) :
    PResOk c (pushProto c first name last params ret ext exp) := by
  subst hname
  simp only [pushProto]
  refine .ok (Post.pushed (st := .funcProto ⟨n, ret, ext, exp, params.take (params.length % 65536), params.length % 65536⟩)
    (te := last) (toks := ts) hc ?_ ?_ trivial)
  · simp [PCtx.push, hf, hl]
  · rw [hf, hfirst]
    obtain ⟨b, hb1, hb2⟩ := Option.map_eq_some_iff.1 hb
    exact .func hm hn ho hp hcl hr ⟨b, hb1, hb2⟩

theorem finishProto_ok {c : PCtx} {first name mark start : List Token} {n opn : Token} {ext exp : Bool} (hc : c.ps.err = false)
    (hf : c.ps.toks = first) (hfirst : first = mark ++ name) (hname : name = n :: opn :: start) (hm : FuncMark mark ext exp)
    (hn : n.ty = .identifier) (ho : opn.ty = .parenOpen) : PResOk c (finishProto c first name start ext exp) := by
  unfold finishProto
  split
  · exact .fuel _
  · exact .failed
  · rename_i rparams cur after hpar
    obtain ⟨new, hparams, hrev, _⟩ := params_sound _ _ _ _ _ hpar (by simp)
    have hrev' : rparams.reverse = new := by simp [hrev]
    simp only [hrev']
    generalize htt : (if ext = true then TokType.newline else .bracketOpen) = tt
    split
    · exact .ub _
    · rename_i ty more hpt
      split at hpt
      · rename_i hcl
        obtain ⟨tyl, u, rest2, h1, h2, h3, _⟩ := potentialType_some hpt
        simp at h1
        obtain ⟨rfl, rfl⟩ := h1
        split
        · rename_i hb
          exact pushProto_ok hc hf hfirst hname hm hn ho hparams hcl (by rw [h2]; exact .some h3) rfl (htt ▸ hb)
        · exact .failed
      · simp at hpt
    · split
      · rename_i hb
        exact pushProto_ok hc hf hfirst hname hm hn ho hparams hb.1 .none rfl (htt ▸ hb.2)
      · split
        · exact .failed
        · split
          · exact .failed
          · exact .ignore _

theorem tokenCmp2_true {toks : List Token} {a b : TokType} (h : tokenCmp2 toks a b = some true) :
    ∃ t u rest, toks = t :: u :: rest ∧ t.ty = a ∧ u.ty = b := by
  match toks, h with
  | t :: u :: rest, h => simp [tokenCmp2] at h; exact ⟨t, u, rest, rfl, h.1, h.2⟩
  | [t], h => simp [tokenCmp2] at h
  | [], h => simp [tokenCmp2] at h

theorem proto_ok {c : PCtx} (hc : c.ps.err = false) : PResOk c (parseFunctionProto c) := by
  unfold parseFunctionProto
  split
  · exact .ub _
  · rename_i t rest htoks
    simp only
    split
    · exact .ub _
    · exact .ignore _
    · rename_i hcmp
      obtain ⟨n, o, start, hname, hn, ho⟩ := tokenCmp2_true hcmp
      rw [hname]
      simp only [List.tail_cons]
      by_cases h1 : t.ty = .kwExternal
      · simp [h1] at hname
        refine finishProto_ok (mark := [t]) hc htoks (by simp [hname]) rfl ?_ hn ho
        simp [h1]
        exact .external h1
      · by_cases h2 : t.ty = .kwExport
        · simp [h2] at hname
          refine finishProto_ok (mark := [t]) hc htoks (by simp [hname]) rfl ?_ hn ho
          simp [h2]
          exact .export h2
        · simp [h1, h2] at hname
          refine finishProto_ok (mark := []) hc htoks (by simp [hname]) rfl ?_ hn ho
          simp [h1, h2]
          exact .none

theorem finishVarDef_ok {c : PCtx} {first name cur : List Token} {cst imp exported : Bool} (hc : c.ps.err = false)
    (hf : c.ps.toks = first)
    (hw : ∀ sep ex ts e, cur = sep :: (ex ++ ts) → ExprOf ex e → Written first ts (.varDef name cst imp exported e))
    (hv : ∀ e, ValueAt (.varDef name cst imp exported e) cur) :
    PResOk c (finishVarDef c first name cur cst imp exported) := by
  unfold finishVarDef
  split
  · exact .ub _
  · rename_i sep rest
    split
    · exact .ub _
    · exact .fuel _
    · rename_i e s h
      split
      · rename_i he
        exact .error (Post.erred (s := s) rfl he hc (parseExpr_step h)) he
      · rename_i he
        simp at he
        split
        · split
          · exact .ub _
          · rename_i t _ _
            have := parseExpr_none_eq h he
            exact .error (Post.failed (s := s) rfl ⟨[], by simp [this]⟩) rfl
        · rename_i e
          obtain ⟨_, ex, h2, h3, _⟩ := parseExpr_some h
          have hs : s = { c.ps with toks := s.toks } := by
            have := congrArg (fun x : PS => { x with toks := s.toks }) h3
            exact this.symm
          have htl : rest = ex ++ s.toks := congrArg PS.toks h3
          have hpush : Post c { c.push (.varDef name cst imp exported e) first (sep :: rest) with ps := s } := by
            refine Post.pushed (st := .varDef name cst imp exported e) (te := sep :: rest) (toks := s.toks) hc ?_ ?_ (hv e)
            · rw [hf, ← hs]
            · rw [hf]; exact hw sep ex s.toks e (by rw [htl]) h2
          simp only
          split
          · exact .ok hpush
          · split
            · refine .error (Post.failed (s := s) rfl ⟨[], ?_⟩) rfl
              rw [hs]; simp
            · exact .ok hpush

theorem varDef_ok {c : PCtx} (hc : c.ps.err = false) : PResOk c (parseVarDef c) := by
  unfold parseVarDef
  simp only
  split
  · exact .ub _
  · rename_i t rest htoks
    have hmark : ∃ mark, DeclMark mark (!decide (t.ty = .kwMut)) (decide (t.ty = .kwExport)) ∧
        t :: rest = mark ++ (if (decide (t.ty = .kwMut) || decide (t.ty = .kwExport)) = true then rest else t :: rest) := by
      by_cases h1 : t.ty = .kwMut
      · exact ⟨[t], by simpa [h1] using DeclMark.mut h1, by simp [h1]⟩
      · by_cases h2 : t.ty = .kwExport
        · exact ⟨[t], by simpa [h2] using DeclMark.export h2, by simp [h2]⟩
        · exact ⟨[], by simpa [h1, h2] using DeclMark.none, by simp [h1, h2]⟩
    obtain ⟨mark, hm, hsplit⟩ := hmark
    rw [htoks]
    generalize (if (decide (t.ty = .kwMut) || decide (t.ty = .kwExport)) = true then rest else t :: rest) = name at *
    split
    · exact .ignore _
    · rename_i n more
      split
      · exact .failed
      · rename_i cur _ hx
        obtain ⟨n', ty, h1, h2, h3, _⟩ := explicitType_some hx
        refine finishVarDef_ok hc htoks ?_ fun e => ⟨n', ty, h1, nofun, fun _ => h3⟩
        intro sep ex ts e hcur hex
        rw [hsplit, h1, hcur]
        exact .explicit hm h2 h3 hex
      · split
        · exact .ub _
        · rename_i hcmp
          obtain ⟨n', q, rest', h1, h2, h3⟩ := tokenCmp2_true hcmp
          refine finishVarDef_ok hc htoks ?_ fun e => ⟨n', [], by rw [h1]; rfl, fun _ => rfl, nofun⟩
          intro sep ex ts e hcur hex
          rw [hsplit, h1]
          rw [h1] at hcur
          simp at hcur
          obtain ⟨_, rfl⟩ := hcur
          exact .implicit hm h2 h3 hex
        · exact .ignore _

theorem varAssign_ok {c : PCtx} (hc : c.ps.err = false) : PResOk c (parseVarAssign c) := by
  unfold parseVarAssign
  split
  · exact .ub _
  · rename_i t rest htoks
    split
    · exact .ignore _
    · rename_i hn
      split
      · exact .ub _
      · exact .fuel _
      · rename_i s h
        split
        · exact .ub _
        · obtain ⟨d, hd, _⟩ := (parseExpr_step h).diags
          exact .error (Post.failed (s := s) rfl ⟨d, hd⟩) rfl
      · rename_i e s h
        obtain ⟨_, ex, h2, h3, _⟩ := parseExpr_some h
        have hs : s = { c.ps with toks := s.toks } := by
          have := congrArg (fun x : PS => { x with toks := s.toks }) h3
          exact this.symm
        have htl : rest.tail = ex ++ s.toks := congrArg PS.toks h3
        simp at hn
        obtain ⟨hn1, q, hq, hq2⟩ := hn
        refine .ok (Post.pushed (st := .varAssign e) (te := rest) (toks := s.toks) hc ?_ ?_ trivial)
        · rw [← hs]
        · rw [htoks]
          match rest, hq with
          | q' :: more, hq =>
            simp at hq
            subst hq
            simp at htl
            rw [htl]
            exact .assign (by rw [isName_eq]; exact hn1) hq2 h2

/-- What a function with an `NRes` that always pushes guarantees. -/
def NResOk (c : PCtx) (r : NRes) : Prop := ∀ b c', r = .ok b c' → b = false ∧ Post c c'

theorem NResOk.ub (c : PCtx) : NResOk c .ub := by intro b c' h; simp at h

theorem NResOk.fuel (c : PCtx) : NResOk c .fuel := by intro b c' h; simp at h

theorem NResOk.ok {c c' : PCtx} (h : Post c c') : NResOk c (.ok false c') := by
  intro b c'' h2; simp at h2; exact ⟨h2.1, h2.2 ▸ h⟩

theorem exprStmt_ok {c : PCtx} (hc : c.ps.err = false) : NResOk c (parseExprStmt c) := by
  unfold parseExprStmt
  split
  · exact .ub _
  · exact .fuel _
  · rename_i e s h
    obtain ⟨_, ex, h2, h3, _⟩ := parseExpr_some h
    have hs : s = { c.ps with toks := s.toks } := by
      have := congrArg (fun x : PS => { x with toks := s.toks }) h3
      exact this.symm
    refine .ok (Post.pushed (st := .expr e) (te := s.toks) (toks := s.toks) hc ?_ ?_ trivial)
    · rw [← hs]
    · rw [congrArg PS.toks h3]
      exact .expr h2
  · rename_i s h
    have hst := parseExpr_step h
    split
    · rename_i he
      exact .ok (Post.erred (s := s) (toks := c.ps.toks) rfl he hc hst)
    · obtain ⟨d, hd, _⟩ := hst.diags
      exact .ok (Post.failed (s := s) rfl ⟨d, hd⟩)

theorem default_ok {c : PCtx} (hc : c.ps.err = false) : NResOk c (parseDefault c) := by
  unfold parseDefault
  split
  · rename_i c' h; exact .ok ((proto_ok hc).1 c' h)
  · rename_i c' h; exact .ok ((proto_ok hc).2 c' h).1
  · exact .ub _
  · exact .fuel _
  · split
    · rename_i c' h; exact .ok ((varDef_ok hc).1 c' h)
    · rename_i c' h; exact .ok ((varDef_ok hc).2 c' h).1
    · exact .ub _
    · exact .fuel _
    · split
      · rename_i c' h; exact .ok ((varAssign_ok hc).1 c' h)
      · rename_i c' h; exact .ok ((varAssign_ok hc).2 c' h).1
      · exact .ub _
      · exact .fuel _
      · exact exprStmt_ok hc

theorem pushToken_ok {c : PCtx} {st : Stmt} (hc : c.ps.err = false) (hw : Written c.ps.toks c.ps.toks.tail st)
    (hv : ValueAt st c.ps.toks) :
    NResOk c (pushToken c st) :=
  .ok (Post.pushed (te := c.ps.toks) hc rfl hw hv)

theorem return_ok {c : PCtx} {t : Token} {rest : List Token} (hc : c.ps.err = false) (ht : c.ps.toks = t :: rest)
    (hty : t.ty = .kwReturn) : NResOk c (parseReturn c) := by
  unfold parseReturn
  split
  · exact .ub _
  · exact .fuel _
  · rename_i e s h
    match e, h with
    | none, h =>
      by_cases he : s.err = true
      · exact .ok (Post.erred (s := s) rfl he hc (parseExpr_step h))
      · have hs := parseExpr_none_eq h (by simpa using he)
        refine .ok (Post.pushed (te := c.ps.toks) (toks := c.ps.toks.tail) hc (st := .ret .missing) ?_ ?_ trivial)
        · rw [hs]; rfl
        · rw [ht]; exact .return hty
    | some e, h =>
      obtain ⟨_, ex, h2, h3, _⟩ := parseExpr_some h
      have hs : s = { c.ps with toks := s.toks } := by
        have := congrArg (fun x : PS => { x with toks := s.toks }) h3
        exact this.symm
      have htl : c.ps.toks.tail = ex ++ s.toks := congrArg PS.toks h3
      refine .ok (Post.pushed (te := c.ps.toks) (toks := s.toks) hc (st := .ret e) ?_ ?_ trivial)
      · rw [← hs]; rfl
      · rw [ht] at htl ⊢
        simp at htl
        rw [htl]
        exact .returnExpr hty h2

theorem silent_post {c : PCtx} {t : Token} (hc : c.ps.toks = [t]) (ht : silentKw t.ty) :
    Post c { c with ps := { c.ps with err := true } } :=
  ⟨⟨[], by simp, fun _ => .inr ⟨t, by simp [hc], ht⟩⟩, by simp⟩

theorem condition_ok {c : PCtx} {t : Token} {rest : List Token} {mk : Expr → Stmt} (hc : c.ps.err = false)
    (ht : c.ps.toks = t :: rest) (hk : silentKw t.ty)
    (hw : ∀ ex ts e, ExprOf ex e → Written (t :: (ex ++ ts)) ts (mk e))
    (hv : ∀ e te, ValueAt (mk e) te) : NResOk c (parseCondition c mk) := by
  unfold parseCondition
  split
  · rename_i t' t2 more htoks
    split
    · exact .ub _
    · exact .fuel _
    · rename_i s h
      obtain ⟨d, hd, _⟩ := (parseExpr_step h).diags
      exact .ok (Post.failed (s := s) rfl ⟨d, hd⟩)
    · rename_i e s h
      obtain ⟨he, ex, h2, h3, _⟩ := parseExpr_some h
      have hs : s = { c.ps with toks := s.toks } := by
        have := congrArg (fun x : PS => { x with toks := s.toks }) h3
        exact this.symm
      have htl : t2 :: more = ex ++ s.toks := congrArg PS.toks h3
      rw [if_neg (by simp [he])]
      refine .ok (Post.pushed (te := c.ps.toks) (toks := s.toks) hc (st := mk e) ?_ ?_ (hv _ _))
      · rw [← hs, htoks]
      · rw [htoks, htl]
        rw [ht] at htoks
        simp at htoks
        rw [← htoks.1]
        exact hw ex s.toks e h2
  · rename_i hne
    cases rest with
    | nil => exact .ok (silent_post ht hk)
    | cons u more => exact absurd ht (hne t u more)

theorem namespace_ok {c : PCtx} {t : Token} {rest : List Token} (hc : c.ps.err = false) (ht : c.ps.toks = t :: rest)
    (hk : t.ty = .kwNamespace) : NResOk c (parseNamespace c) := by
  unfold parseNamespace
  split
  · rename_i t' t2 more htoks
    refine .ok (Post.pushed (te := more) (toks := more) hc (st := .namespaces) ?_ ?_ trivial)
    · rw [htoks]
    · rw [htoks]
      rw [ht] at htoks
      simp at htoks
      exact .namespace (htoks.1 ▸ hk)
  · rename_i hne
    cases rest with
    | nil => exact .ok (silent_post ht (.inr (.inr (.inr hk))))
    | cons u more => exact absurd ht (hne t u more)

theorem import_ok {c : PCtx} {t : Token} {rest : List Token} (hc : c.ps.err = false) (ht : c.ps.toks = t :: rest)
    (hk : t.ty = .kwImport) : NResOk c (parseImport c) := by
  unfold parseImport
  split
  · exact .ub _
  · exact .ok (Post.failed (s := c.ps) rfl ⟨[], by simp⟩)
  · rename_i t' t2 more htoks
    split
    · rename_i hid
      refine .ok (Post.pushed (te := c.ps.toks) (toks := more) hc (st := .imports) ?_ ?_ trivial)
      · rw [htoks]
      · rw [htoks]
        rw [ht] at htoks
        simp at htoks
        exact .import (htoks.1 ▸ hk) hid
    · exact .ok (Post.failed (s := c.ps) rfl ⟨[], by simp⟩)

end Skull
