import Verif.Proofs.TreeNests
import Verif.Proofs.ExprPrec
/-
Facts about whole expressions and whole token lists used by the property theorems.
-/
namespace Skull
open Spec

/-- Expressions followed by something that is no operator and no parenthesis are accepted. -/
theorem parseExpr_complete {c : Chain} (hw : c.WF) (hf : c.Full) {s : PS} {tail : List Token} (he : s.err = false)
    (hs : s.toks = c.tokens ++ tail) (h1 : ∀ t, tail.head? = some t → t.ty ≠ .parenOpen)
    (h2 : ∀ t, tail.head? = some t → binLevel t.ty = none ∧ unLevel t.ty = none) :
    parseExpr s = .ok (some (buildChain c)) { s with toks := tail } := by
  have ht : TailOk tail := by
    intro h
    obtain ⟨t, h3, h4⟩ := Option.map_eq_some_iff.1 h
    exact h1 t h3 h4
  obtain ⟨f', hf', h⟩ := complete_chain c hw hf (exprFuel s.toks) s tail he ht hs (by unfold exprFuel; omega)
  unfold parseExpr
  rw [h]
  obtain ⟨f', rfl⟩ : ∃ g, f' = g + 1 := ⟨f' - 1, by omega⟩
  cases tail with
  | nil => simp only [parseRhsLoop]
  | cons t rest =>
    refine loop_stop (t := t) (rest := rest) rfl ?_
    have := h2 t rfl
    revert this
    generalize t.ty = ty
    cases ty <;> simp [binLevel, unLevel, binaryOper]

theorem loop_stops : ∀ (f : Nat) (c : Expr) (s : PS) (e : Expr) (s' : PS), parseRhsLoop f c s = .ok (some e) s' →
    ∀ t, s'.toks.head? = some t → binaryOper t.ty = .unknown
  | 0, _, _, _, _, h => by simp [parseRhsLoop] at h
  | f + 1, c, s, e, s', h => by
    simp only [parseRhsLoop] at h
    intro t ht
    split at h
    · rename_i hnil
      simp at h
      rw [← h.2, hnil] at ht
      simp at ht
    · rename_i u rest hcons
      split at h
      · rename_i hu
        simp at h
        rw [← h.2, hcons] at ht
        simp at ht
        rw [← ht]; exact hu
      · split at h
        · simp at h
        · split at h
          · simp at h
          · split at h
            · simp at h
            · exact loop_stops f _ _ _ _ h t ht
          · simp at h
          · simp at h

theorem parseExpr_stops {s : PS} {e : Expr} {s' : PS} (h : parseExpr s = .ok (some e) s') :
    ∀ t, s'.toks.head? = some t → binLevel t.ty = none := by
  have key : ∀ t, s'.toks.head? = some t → binaryOper t.ty = .unknown := by
    unfold parseExpr exprFuel at h
    simp only [parseExpression] at h
    split at h
    · simp at h
    · split at h
      · split at h
        · simp at h
        · split at h
          · simp at h
          · exact loop_stops _ _ _ _ _ h
      · simp at h
      · simp at h
  intro t ht
  have h1 := key t ht
  have h2 := binOper_iff t.ty
  cases hb : binLevel t.ty with
  | none => rfl
  | some l => rw [hb] at h2; simp at h2; exact absurd h1 h2.1

/-- What the parser makes of an expression, with its parentheses. -/
theorem parseExpr_group {c : Chain} (hw : c.WF) (hf : c.Full) (hg : c.SafeGroups) :
    ∃ g : G, g.WF ∧ g.tokens = c.tokens ∧ g.erase = buildChain c ∧ (c.SafePrec → g.WellPrec) :=
  ⟨gChain c, gChain_wf c hw, gChain_tokens c, erase_chain c hw hf hg, fun hp => wellPrec_chain c hw hf hp⟩

theorem explicitType_of {n : Token} {ty rest : List Token} (hn : n.ty = .newIdentifier) (ht : TypeOf ty) :
    isExplicitType (n :: (ty ++ rest)) = some rest := by
  have hp : ∀ {ty : List Token}, TypeOf ty → ∃ t, isPotentialType (ty ++ rest) = some (t :: rest) := by
    intro ty ht
    induction ht with
    | @name t h => rw [isName_eq] at h; exact ⟨t, by simp [isPotentialType, h]⟩
    | @ref t ts h _ ih =>
      obtain ⟨u, ih⟩ := ih
      have : isIdentLike t = false := by simp [isIdentLike, h]
      exact ⟨u, by simp [isPotentialType, h, this, ih]⟩
  obtain ⟨t, h⟩ := hp ht
  have hne := typeOf_ne ht
  match ty, hne with
  | u :: us, _ =>
    simp only [List.cons_append] at h ⊢
    simp [isExplicitType, hn, h]

/-- `parse_function_proto` leaves declarations alone. -/
theorem proto_ignores {c : PCtx} {mark : List Token} {n : Token} {rest : List Token} {cst exported : Bool}
    (hm : DeclMark mark cst exported) (hn : n.ty = .newIdentifier) (hc : c.ps.toks = mark ++ n :: rest) :
    parseFunctionProto c = .ignore := by
  unfold parseFunctionProto
  cases hm with
  | none => simp at hc; simp [hc, hn, tokenCmp2]
  | «mut» hk => simp at hc; simp [hc, hk, tokenCmp2]
  | «export» hk => simp at hc; simp [hc, hk, hn, tokenCmp2]

theorem finishVarDef_some {c c' : PCtx} {a b cur : List Token} {x y z : Bool} (h : finishVarDef c a b cur x y z = .ok c') :
    ∃ sep ex ts e, cur = sep :: (ex ++ ts) ∧ ExprOf ex e ∧ c'.ps.toks = ts ∧ ∀ t, ts.head? = some t → t.ty = .newline := by
  unfold finishVarDef at h
  split at h
  · simp at h
  · rename_i sep rest
    split at h
    · simp at h
    · simp at h
    · rename_i e s hs
      split at h
      · simp at h
      · split at h
        · split at h <;> simp at h
        · rename_i e
          obtain ⟨_, ex, h2, h3, _⟩ := parseExpr_some hs
          have htl : rest = ex ++ s.toks := congrArg PS.toks h3
          simp only at h
          split at h
          · rename_i hnil
            simp at h
            exact ⟨sep, ex, s.toks, e, by rw [htl], h2, by rw [← h], by simp [hnil]⟩
          · rename_i t more hcons
            split at h
            · simp at h
            · rename_i hnl
              simp at h
              refine ⟨sep, ex, s.toks, e, by rw [htl], h2, by rw [← h], ?_⟩
              intro t' ht'
              rw [hcons] at ht'
              simp at ht'
              rw [← ht']; simpa using hnl

/-- Where a typed declaration begins and the parser does not fail, exactly one token stands before the value. -/
theorem node_typedDecl {f lvl : Nat} {c c' : PCtx} {b : Bool} {mark : List Token} {n : Token} {ty rest : List Token}
    {cst exported : Bool} (he : c.ps.err = false) (hm : DeclMark mark cst exported) (hn : n.ty = .newIdentifier)
    (hty : TypeOf ty) (hc : c.ps.toks = mark ++ n :: (ty ++ rest)) (h : parseNode f lvl c = .ok b c')
    (he' : c'.ps.err = false) :
    ∃ sep ex ts e, rest = sep :: (ex ++ ts) ∧ ExprOf ex e ∧ c'.ps.toks = ts ∧ ∀ t, ts.head? = some t → t.ty = .newline := by
  cases f with
  | zero => simp [parseNode] at h
  | succ f =>
    have hd : parseNode (f + 1) lvl c = parseDefault c := by
      simp only [parseNode]
      rw [hc]
      cases hm with
      | none => simp [hn]
      | «mut» hk => simp [hk]
      | «export» hk => simp [hk]
    rw [hd] at h
    have hv : parseVarDef c = finishVarDef c c.ps.toks (n :: (ty ++ rest)) rest cst false exported ∨
        (rest = [] ∧ ∃ c'', parseVarDef c = .error c'' ∧ c''.ps.err = true) := by
      have hx := explicitType_of (rest := rest) hn hty
      cases rest with
      | nil =>
        refine .inr ⟨rfl, ?_⟩
        simp only [List.append_nil] at hx hc
        unfold parseVarDef
        rw [hc]
        cases hm with
        | none => simp [hn, hx, PS.fail]
        | «mut» hk => simp [hk, hx, PS.fail]
        | «export» hk => simp [hk, hx, PS.fail]
      | cons r rs =>
        refine .inl ?_
        unfold parseVarDef
        rw [hc]
        cases hm with
        | none => simp [hn, hx]
        | «mut» hk => simp [hk, hx]
        | «export» hk => simp [hk, hx]
    unfold parseDefault at h
    rw [proto_ignores hm hn hc] at h
    simp only at h
    rcases hv with hv | ⟨_, c'', hv, herr⟩
    · rw [hv] at h
      split at h
      · rename_i c1 hf
        simp at h
        rw [← h.2]
        exact finishVarDef_some hf
      · rename_i c1 hf
        simp at h
        have := (finishVarDef_ok (c := c) (first := c.ps.toks) (name := n :: (ty ++ rest)) (cur := rest) (imp := false) he rfl
          (fun sep ex ts e h1 h2 => by rw [hc, h1]; exact .explicit hm hn hty h2)
          fun e => ⟨n, ty, rfl, (fun h => by cases h), fun _ => hty⟩).2 c1 hf
        rw [h.2, he'] at this
        simp at this
      · simp at h
      · simp at h
      · rename_i hf
        unfold finishVarDef at hf
        split at hf
        · simp at hf
        · split at hf
          · simp at hf
          · simp at hf
          · split at hf
            · simp at hf
            · split at hf
              · split at hf <;> simp at hf
              · simp only at hf
                split at hf
                · simp at hf
                · split at hf <;> simp at hf
    · rw [hv] at h
      simp at h
      rw [h.2, he'] at herr
      simp at herr

theorem parseAstTree_rejected {toks : List Token} {s : PS} (h : parseAstTree toks = .ok none s) : s.diags ≠ [] ∨ Silent toks := by
  unfold parseAstTree at h
  split at h
  · simp at h
  · simp at h
  · rename_i s1 ht
    simp at h
    subst h
    obtain ⟨⟨d, h1, h2⟩, h3, _⟩ := (treeAt _).tree _ _ _ _ rfl ht
    rcases h2 (h3 rfl) with h4 | h4
    · exact .inl (by simpa [h1] using h4)
    · exact .inr h4
  · rename_i t s1 ht
    obtain ⟨_, _, h3⟩ := (treeAt _).tree _ _ _ _ rfl ht
    rw [if_neg (by simp [(h3 (by simp)).1])] at h
    simp at h

theorem parseAstTree_accepted {toks : List Token} {T : Tree} {s : PS} (h : parseAstTree toks = .ok (some T) s) :
    s.diags = [] ∧ s.err = false ∧ s.toks = [] := by
  unfold parseAstTree at h
  split at h
  · simp at h
  · simp at h
  · simp at h
  · rename_i t s1 ht
    obtain ⟨_, _, h3⟩ := (treeAt _).tree _ _ _ _ rfl ht
    obtain ⟨h4, _, h5⟩ := h3 (by simp)
    rw [if_neg (by simp [h4])] at h
    simp at h
    rw [← h.2]
    exact ⟨by simpa using (treeCleanAt _).1.tree _ _ _ _ rfl ht h4, h4, by simpa using h5⟩

end Skull
