import Verif.Proofs.StmtParse
/-
What the parser does with lists of statements and blocks.
-/
namespace Skull
open Spec

/- ### Lengths -/

theorem exprOf_pos {ex : List Token} {e : Expr} (h : ExprOf ex e) : 0 < ex.length :=
  List.length_pos_iff.2 (exprOf_ne h)

theorem typeOf_pos {ty : List Token} (h : TypeOf ty) : 0 < ty.length := List.length_pos_iff.2 (typeOf_ne h)

theorem paramsOf_suffix {a b : List Token} {ps : List Param} (h : ParamsOf a b ps) : ∃ pre, a = pre ++ b := by
  induction h with
  | none => exact ⟨[], rfl⟩
  | @last n ty ts _ _ => exact ⟨n :: ty, by simp⟩
  | @more n c ty ts rest ps _ _ _ _ ih =>
    obtain ⟨pre, ih⟩ := ih
    exact ⟨n :: (ty ++ c :: pre), by simp [ih]⟩

theorem retOf_suffix {a b : List Token} {r : Option (List Token)} (h : RetOf a b r) : ∃ pre, a = pre ++ b := by
  cases h with
  | none => exact ⟨[], rfl⟩
  | @some ty _ _ => exact ⟨ty, rfl⟩

/-- A statement is at least one token. -/
theorem written_suffix {a b : List Token} {st : Stmt} (h : Written a b st) : ∃ pre, pre ≠ [] ∧ a = pre ++ b := by
  cases h with
  | @«return» t _ _ => exact ⟨[t], by simp, rfl⟩
  | @returnExpr t ex _ _ _ _ => exact ⟨t :: ex, by simp, by simp⟩
  | @«if» t ex _ _ _ _ => exact ⟨t :: ex, by simp, by simp⟩
  | @elif t ex _ _ _ _ => exact ⟨t :: ex, by simp, by simp⟩
  | @«while» t ex _ _ _ _ => exact ⟨t :: ex, by simp, by simp⟩
  | @«else» t _ _ => exact ⟨[t], by simp, rfl⟩
  | @unreachable t _ _ => exact ⟨[t], by simp, rfl⟩
  | @comment t _ _ => exact ⟨[t], by simp, rfl⟩
  | @noop t _ _ => exact ⟨[t], by simp, rfl⟩
  | @«break» t _ _ => exact ⟨[t], by simp, rfl⟩
  | @«continue» t _ _ => exact ⟨[t], by simp, rfl⟩
  | @«namespace» t n _ _ => exact ⟨[t, n], by simp, rfl⟩
  | @«import» t n _ _ _ => exact ⟨[t, n], by simp, rfl⟩
  | @implicit mark n q ex _ _ _ _ _ _ _ _ => exact ⟨mark ++ n :: q :: ex, by simp, by simp⟩
  | @explicit mark n sep ty ex _ _ _ _ _ _ _ _ => exact ⟨mark ++ n :: (ty ++ sep :: ex), by simp, by simp⟩
  | @assign n q ex _ _ _ _ _ => exact ⟨n :: q :: ex, by simp, by simp⟩
  | @expr ex _ _ h => exact ⟨ex, exprOf_ne h, rfl⟩
  | @func mark n opn close ps _ rt _ _ _ _ _ _ _ hp _ hr _ =>
    obtain ⟨p1, h1⟩ := paramsOf_suffix hp
    obtain ⟨p2, h2⟩ := retOf_suffix hr
    exact ⟨mark ++ n :: opn :: (p1 ++ close :: p2), by simp, by simp [h1, h2]⟩

theorem Silent.suffix {pre toks : List Token} (h : Silent toks) : Silent (pre ++ toks) := by
  obtain ⟨t, h1, h2⟩ := h
  refine ⟨t, ?_, h2⟩
  rw [List.getLast?_append, h1]; rfl

/-- Diagnostics are only added, and a new failure has one unless the tokens end in one of the silent keywords. -/
def Grows (s s' : PS) : Prop := ∃ d, s'.diags = d ++ s.diags ∧ (s'.err = true → d ≠ [] ∨ Silent s.toks)

theorem Grows.refl {s : PS} (h : s.err = false) : Grows s s := ⟨[], by simp, by simp [h]⟩

theorem Grows.trans {a b c : PS} {pre : List Token} (h1 : Grows a b) (h2 : Grows b c) (h : a.toks = pre ++ b.toks) :
    Grows a c := by
  obtain ⟨d1, h3, h4⟩ := h1
  obtain ⟨d2, h5, h6⟩ := h2
  refine ⟨d2 ++ d1, by simp [h5, h3], fun h7 => ?_⟩
  rcases h6 h7 with h8 | h8
  · exact .inl (by simp [h8])
  · exact .inr (h ▸ h8.suffix)

theorem Grows.fail {s s' : PS} {code : Code} {t : Option Token} (h : Grows s s') : Grows s (s'.fail code t) := by
  obtain ⟨d, h1, h2⟩ := h
  exact ⟨⟨code, t⟩ :: d, by simp [PS.fail, h1], fun _ => .inl (by simp)⟩

/-- One round of the parser's loop that did not fail. -/
inductive Moved (f lvl : Nat) (c : PCtx) : Bool → PCtx → Prop
  | closed {t : Token} {rest : List Token} : c.ps.toks = t :: rest → t.ty = .bracketClose → lvl ≠ 0 → Moved f lvl c true c
  | skip {t : Token} {rest : List Token} : c.ps.toks = t :: rest → t.ty = .newline ∨ t.ty = .comma →
      Moved f lvl c false { c with ps := { c.ps with toks := rest } }
  | push {c' : PCtx} : Pushed c c' → Moved f lvl c false c'
  | block {opn close : Token} {inner rest : List Token} {child : Tree} {s : PS} : c.ps.toks = opn :: inner →
      opn.ty = .bracketOpen → c.lastHasChild = false →
      parseTree f (lvl + 1) { c.ps with toks := inner, err := false } = .ok (some child) s → s.err = false →
      child.hasToken = true → s.toks = close :: rest →
      Moved f lvl c false { c.setChild child with ps := { s with toks := rest, err := c.ps.err } }

structure TreeAt (f : Nat) : Prop where
  tree : ∀ lvl s r s', s.err = false → parseTree f lvl s = .ok r s' →
    Grows s s' ∧ (r = none → s'.err = true) ∧
    (r ≠ none → s'.err = false ∧ (∃ pre, s.toks = pre ++ s'.toks) ∧
      if lvl = 0 then s'.toks = [] else ∃ t rest, s'.toks = t :: rest ∧ t.ty = .bracketClose)
  nodes : ∀ lvl c b c', c.ps.err = false → parseNodes f lvl c = .ok b c' →
    Grows c.ps c'.ps ∧
    (c'.ps.err = false → (∃ pre, c.ps.toks = pre ++ c'.ps.toks) ∧
      if b = true then lvl ≠ 0 ∧ ∃ t rest, c'.ps.toks = t :: rest ∧ t.ty = .bracketClose else c'.ps.toks = [])
  node : ∀ lvl c b c', c.ps.err = false → parseNode f lvl c = .ok b c' →
    Grows c.ps c'.ps ∧ (c'.ps.err = false → (∃ f', f = f' + 2 ∧ Moved f' lvl c b c') ∨ ∃ f', Moved f' lvl c b c' ∧ f' = 0) ∧
    (c'.ps.err = false → ∃ pre, c.ps.toks = pre ++ c'.ps.toks ∧ (b = false → pre ≠ []))
  sub : ∀ lvl c b c', c.ps.err = false → (∃ t rest, c.ps.toks = t :: rest ∧ t.ty = .bracketOpen) →
    parseSubTree f lvl c = .ok b c' →
    b = false ∧ Grows c.ps c'.ps ∧ (c'.ps.err = false → ∃ f', f = f' + 1 ∧ Moved f' lvl c b c') ∧
    (c'.ps.err = false → ∃ pre, c.ps.toks = pre ++ c'.ps.toks ∧ pre ≠ [])

theorem post_grows {c c' : PCtx} (h : Post c c') : Grows c.ps c'.ps := h.diags

theorem pushed_suffix {c c' : PCtx} (h : Pushed c c') : ∃ pre, pre ≠ [] ∧ c.ps.toks = pre ++ c'.ps.toks := by
  obtain ⟨st, te, hw, _⟩ := h
  exact written_suffix hw

/-- The statements: everything `parse_ast_node` does without braces and separators. -/
theorem node_stmt {f lvl : Nat} {c : PCtx} {t : Token} {rest : List Token} (hc : c.ps.err = false)
    (ht : c.ps.toks = t :: rest) (h1 : t.ty ≠ .bracketClose) (h2 : t.ty ≠ .bracketOpen) (h3 : t.ty ≠ .newline)
    (h4 : t.ty ≠ .comma) : NResOk c (parseNode (f + 1) lvl c) := by
  simp only [parseNode]
  rw [ht]
  simp only
  split
  · contradiction
  · contradiction
  · contradiction
  · contradiction
  · exact return_ok hc ht (by assumption)
  · rename_i hk
    exact condition_ok hc ht (.inl hk) (fun ex ts e he => .if hk he) fun _ _ => trivial
  · rename_i hk
    exact condition_ok hc ht (.inr (.inl hk)) (fun ex ts e he => .elif hk he) fun _ _ => trivial
  · rename_i hk
    exact pushToken_ok hc (by rw [ht]; exact .else hk) trivial
  · rename_i hk
    exact condition_ok hc ht (.inr (.inr (.inl hk))) (fun ex ts e he => .while hk he) fun _ _ => trivial
  · exact namespace_ok hc ht (by assumption)
  · rename_i hk
    exact pushToken_ok hc (by rw [ht]; exact .unreachable hk) trivial
  · rename_i hk
    exact pushToken_ok hc (by rw [ht]; exact .comment hk) trivial
  · rename_i hk
    exact pushToken_ok hc (by rw [ht]; exact .noop hk) trivial
  · rename_i hk
    exact pushToken_ok hc (by rw [ht]; exact .break hk) trivial
  · rename_i hk
    exact pushToken_ok hc (by rw [ht]; exact .continue hk) trivial
  · exact import_ok hc ht (by assumption)
  · exact default_ok hc

/-- The four ways `parse_ast_node` goes. -/
theorem node_cases {f lvl : Nat} {c : PCtx} {t : Token} {rest : List Token} (ht : c.ps.toks = t :: rest) :
    (t.ty = .bracketClose ∧ parseNode (f + 1) lvl c =
      if lvl = 0 then .ok true { c with ps := c.ps.fail .errMissingOpenBrak t } else .ok true c) ∨
    (t.ty = .bracketOpen ∧ parseNode (f + 1) lvl c = parseSubTree f lvl c) ∨
    ((t.ty = .newline ∨ t.ty = .comma) ∧ parseNode (f + 1) lvl c = .ok false { c with ps := { c.ps with toks := rest } }) ∨
    (t.ty ≠ .bracketClose ∧ t.ty ≠ .bracketOpen ∧ t.ty ≠ .newline ∧ t.ty ≠ .comma) := by
  by_cases h1 : t.ty = .bracketClose
  · exact .inl ⟨h1, by simp [parseNode, ht, h1]⟩
  · by_cases h2 : t.ty = .bracketOpen
    · exact .inr (.inl ⟨h2, by simp [parseNode, ht, h2]⟩)
    · by_cases h3 : t.ty = .newline
      · exact .inr (.inr (.inl ⟨.inl h3, by simp [parseNode, ht, h3]⟩))
      · by_cases h4 : t.ty = .comma
        · exact .inr (.inr (.inl ⟨.inr h4, by simp [parseNode, ht, h4]⟩))
        · exact .inr (.inr (.inr ⟨h1, h2, h3, h4⟩))

theorem setChild_ps (c : PCtx) (t : Tree) : (c.setChild t).ps = c.ps := by
  unfold PCtx.setChild; split <;> rfl

theorem treeAt : ∀ f, TreeAt f
  | 0 => by constructor <;> intros <;> simp_all [parseTree, parseNodes, parseNode, parseSubTree]
  | f + 1 => by
    have ih := treeAt f
    constructor
    · intro lvl s r s' he h
      simp only [parseTree] at h
      split at h
      · simp at h
      · simp at h
      · rename_i b c hn
        obtain ⟨hg, hok⟩ := ih.nodes lvl { ps := s } b c he hn
        split at h
        · rename_i hce
          simp at h
          obtain ⟨rfl, rfl⟩ := h
          exact ⟨hg, fun _ => hce, by simp⟩
        · rename_i hce
          obtain ⟨hs, hend⟩ := hok (by simpa using hce)
          split at h
          · simp at h
            obtain ⟨rfl, rfl⟩ := h
            exact ⟨hg.fail, fun _ => rfl, by simp⟩
          · rename_i hne
            simp at h
            obtain ⟨rfl, rfl⟩ := h
            refine ⟨hg, by simp, fun _ => ⟨by simpa using hce, hs, ?_⟩⟩
            cases b with
            | true =>
              simp at hend
              rw [if_neg hend.1]
              obtain ⟨t, ⟨rest, hr⟩, hb⟩ := hend.2
              exact ⟨t, rest, hr, hb⟩
            | false =>
              simp at hend
              simp [hend] at hne
              rw [if_pos hne]; exact hend
    · intro lvl c b c' he h
      simp only [parseNodes] at h
      split at h
      · rename_i hnil
        simp at h
        obtain ⟨rfl, rfl⟩ := h
        exact ⟨.refl he, fun _ => ⟨⟨[], rfl⟩, by simp [hnil]⟩⟩
      · rename_i t rest ht
        split at h
        · simp at h
        · simp at h
        · rename_i d c1 hn
          obtain ⟨hg, hm, hs⟩ := ih.node lvl c d c1 he hn
          split at h
          · rename_i hd
            simp at h
            obtain ⟨rfl, rfl⟩ := h
            refine ⟨hg, fun he1 => ?_⟩
            simp [he1] at hd
            subst hd
            obtain ⟨pre, hp, _⟩ := hs he1
            refine ⟨⟨pre, hp⟩, ?_⟩
            have : ∃ f', Moved f' lvl c true c1 := by
              rcases hm he1 with ⟨f', _, h1⟩ | ⟨f', h1, _⟩ <;> exact ⟨f', h1⟩
            obtain ⟨f', h1⟩ := this
            cases h1 with
            | closed h1 h2 h3 => simp only [if_true]; exact ⟨h3, _, _, h1, h2⟩
          · rename_i hd
            simp at hd
            obtain ⟨pre, hp, _⟩ := hs hd.2
            obtain ⟨hg2, hok2⟩ := ih.nodes lvl c1 b c' hd.2 h
            refine ⟨hg.trans hg2 hp, fun he2 => ?_⟩
            obtain ⟨⟨pre2, hp2⟩, h3⟩ := hok2 he2
            exact ⟨⟨pre ++ pre2, by simp [hp, hp2]⟩, h3⟩
    · intro lvl c b c' he h
      match ht : c.ps.toks with
      | [] => simp [parseNode, ht] at h
      | t :: rest =>
      rcases node_cases (f := f) (lvl := lvl) ht with ⟨h1, h2⟩ | ⟨h1, h2⟩ | ⟨h1, h2⟩ | ⟨h1, h2, h3, h4⟩
      · rw [h2] at h
        split at h
        · simp at h
          obtain ⟨rfl, rfl⟩ := h
          exact ⟨(Grows.refl he).fail, by simp [PS.fail], by simp [PS.fail]⟩
        · rename_i hl
          simp at h
          obtain ⟨rfl, rfl⟩ := h
          exact ⟨.refl he, fun _ => .inr ⟨0, .closed ht h1 hl, rfl⟩, fun _ => ⟨[], by simp [ht], by simp⟩⟩
      · rw [h2] at h
        obtain ⟨hb, hg, hm, hs⟩ := ih.sub lvl c b c' he ⟨t, rest, ht, h1⟩ h
        subst hb
        refine ⟨hg, fun he1 => ?_, fun he1 => ?_⟩
        · obtain ⟨f', hf, h5⟩ := hm he1
          exact .inl ⟨f', by omega, h5⟩
        · obtain ⟨pre, hp, hne⟩ := hs he1
          exact ⟨pre, by rw [← ht]; exact hp, fun _ => hne⟩
      · rw [h2] at h
        simp at h
        obtain ⟨rfl, rfl⟩ := h
        exact ⟨⟨[], by simp, by simp [he]⟩, fun _ => .inr ⟨0, .skip ht h1, rfl⟩, fun _ => ⟨[t], by simp, by simp⟩⟩
      · obtain ⟨rfl, hp⟩ := node_stmt (f := f) (lvl := lvl) he ht h1 h2 h3 h4 b c' h
        refine ⟨hp.diags, fun he1 => .inr ⟨0, .push (hp.ok he1), rfl⟩, fun he1 => ?_⟩
        obtain ⟨pre, hne, hp⟩ := pushed_suffix (hp.ok he1)
        exact ⟨pre, by rw [← ht]; exact hp, fun _ => hne⟩
    · intro lvl c b c' he ⟨t, rest, ht, hty⟩ h
      simp only [parseSubTree, ht] at h
      split at h
      · simp at h
        obtain ⟨rfl, rfl⟩ := h
        exact ⟨rfl, (Grows.refl he).fail, by simp [PS.fail], by simp [PS.fail]⟩
      · rename_i hlc
        have lift : ∀ {s : PS}, Grows { c.ps with toks := rest, err := false } s → Grows c.ps s := by
          intro s hg
          obtain ⟨d, h1, h2⟩ := hg
          refine ⟨d, h1, fun h3 => ?_⟩
          rcases h2 h3 with h4 | h4
          · exact .inl h4
          · rw [ht]; exact .inr (h4.suffix (pre := [t]))
        split at h
        · simp at h
        · simp at h
        · rename_i s htree
          obtain ⟨hg, hn, _⟩ := ih.tree _ _ _ _ rfl htree
          simp at h
          obtain ⟨rfl, rfl⟩ := h
          refine ⟨rfl, ?_, by simp, by simp⟩
          obtain ⟨d, h1, h2⟩ := lift hg
          exact ⟨d, h1, fun _ => h2 (hn rfl)⟩
        · rename_i child s htree
          obtain ⟨hg, _, hsome⟩ := ih.tree _ _ _ _ rfl htree
          obtain ⟨hse, ⟨pre, hp⟩, hend⟩ := hsome (by simp)
          rw [if_neg (by omega)] at hend
          obtain ⟨cl, rest', hcl, hclty⟩ := hend
          rw [if_neg (by simp [hse])] at h
          have hg' := lift hg
          obtain ⟨d, hd1, hd2⟩ := hg'
          split at h
          · rw [hcl] at h
            simp at h
            obtain ⟨rfl, rfl⟩ := h
            refine ⟨rfl, ⟨⟨.errEmptyBlock, cl⟩ :: d, by simp [PS.fail, hd1], by simp⟩, by simp [PS.fail], by simp [PS.fail]⟩
          · rename_i htok
            rw [hcl] at h
            simp at h
            obtain ⟨rfl, rfl⟩ := h
            refine ⟨rfl, ⟨d, hd1, by simp [he]⟩, fun _ => ⟨f, rfl, ?_⟩, fun _ => ⟨t :: (pre ++ [cl]), ?_, by simp⟩⟩
            · exact .block ht hty (by simpa using hlc) htree hse (by simpa using htok) hcl
            · simp at hp; simp [ht, hp, hcl]

end Skull
