import Verif.Proofs.TreeParse
/-
The parser always finishes, when it cannot go wrong, and how blocks nest.
-/
namespace Skull
open Spec

/- ### The statement functions never run out of fuel -/

theorem finishProto_fuel (c : PCtx) (a b start : List Token) (x y : Bool) : finishProto c a b start x y ≠ .fuel := by
  have hp : ∀ l p r, pushProto c a b l p r x y ≠ .fuel := by
    intro l p r
    unfold pushProto
    split <;> simp
  unfold finishProto
  split
  · rename_i h; exact absurd h (params_fuel _ _ _ (by omega))
  · simp
  · simp only
    generalize (if x = true then TokType.newline else .bracketOpen) = tt
    split
    · simp
    · split
      · exact hp _ _ _
      · simp
    · split
      · exact hp _ _ _
      · split
        · simp
        · split <;> simp

theorem proto_fuel (c : PCtx) : parseFunctionProto c ≠ .fuel := by
  unfold parseFunctionProto
  split
  · simp
  · simp only
    split
    · simp
    · simp
    · exact finishProto_fuel _ _ _ _ _ _

theorem finishVarDef_fuel (c : PCtx) (a b cur : List Token) (x y z : Bool) : finishVarDef c a b cur x y z ≠ .fuel := by
  unfold finishVarDef
  split
  · simp
  · split
    · simp
    · rename_i h; exact absurd h (parseExpr_fuel _)
    · split
      · simp
      · split
        · split <;> simp
        · simp only
          split
          · simp
          · split <;> simp

theorem varDef_fuel (c : PCtx) : parseVarDef c ≠ .fuel := by
  unfold parseVarDef
  simp only
  split
  · simp
  · split
    · simp
    · split
      · simp
      · exact finishVarDef_fuel _ _ _ _ _ _ _
      · split
        · simp
        · exact finishVarDef_fuel _ _ _ _ _ _ _
        · simp

theorem varAssign_fuel (c : PCtx) : parseVarAssign c ≠ .fuel := by
  unfold parseVarAssign
  split
  · simp
  · split
    · simp
    · split
      · simp
      · rename_i h; exact absurd h (parseExpr_fuel _)
      · split <;> simp
      · simp

theorem default_fuel (c : PCtx) : parseDefault c ≠ .fuel := by
  unfold parseDefault
  split
  · simp
  · simp
  · simp
  · rename_i h; exact absurd h (proto_fuel _)
  · split
    · simp
    · simp
    · simp
    · rename_i h; exact absurd h (varDef_fuel _)
    · split
      · simp
      · simp
      · simp
      · rename_i h; exact absurd h (varAssign_fuel _)
      · unfold parseExprStmt
        split
        · simp
        · rename_i h; exact absurd h (parseExpr_fuel _)
        · simp
        · split <;> simp

theorem condition_fuel (c : PCtx) (mk : Expr → Stmt) : parseCondition c mk ≠ .fuel := by
  unfold parseCondition
  split
  · split
    · simp
    · rename_i h; exact absurd h (parseExpr_fuel _)
    · simp
    · split <;> simp
  · simp

theorem return_fuel (c : PCtx) : parseReturn c ≠ .fuel := by
  unfold parseReturn
  split
  · simp
  · rename_i h; exact absurd h (parseExpr_fuel _)
  · simp

theorem node_stmt_fuel {f lvl : Nat} {c : PCtx} {t : Token} {rest : List Token} (ht : c.ps.toks = t :: rest)
    (h2 : t.ty ≠ .bracketOpen) : parseNode (f + 1) lvl c ≠ .fuel := by
  simp only [parseNode]
  rw [ht]
  simp only
  split
  · split <;> simp
  · contradiction
  · simp
  · simp
  · exact return_fuel _
  · exact condition_fuel _ _
  · exact condition_fuel _ _
  · simp [pushToken]
  · exact condition_fuel _ _
  · unfold parseNamespace; split <;> simp
  · simp [pushToken]
  · simp [pushToken]
  · simp [pushToken]
  · simp [pushToken]
  · simp [pushToken]
  · unfold parseImport
    split
    · simp
    · simp
    · split <;> simp
  · exact default_fuel _

structure TreeFuel (f : Nat) : Prop where
  tree : ∀ lvl s, s.err = false → 4 * s.toks.length + 4 ≤ f → parseTree f lvl s ≠ .fuel
  nodes : ∀ lvl c, c.ps.err = false → 4 * c.ps.toks.length + 3 ≤ f → parseNodes f lvl c ≠ .fuel
  node : ∀ lvl c, c.ps.err = false → 4 * c.ps.toks.length + 2 ≤ f → parseNode f lvl c ≠ .fuel
  sub : ∀ lvl c, c.ps.err = false → 4 * c.ps.toks.length + 1 ≤ f → parseSubTree f lvl c ≠ .fuel

theorem treeFuelAt : ∀ f, TreeFuel f
  | 0 => by constructor <;> intros <;> omega
  | f + 1 => by
    have ih := treeFuelAt f
    have ta := treeAt f
    constructor
    · intro lvl s he hf
      simp only [parseTree]
      split
      · simp
      · rename_i h; exact absurd h (ih.nodes lvl { ps := s } he (by show 4 * s.toks.length + 3 ≤ f; omega))
      · split
        · simp
        · split <;> simp
    · intro lvl c he hf
      simp only [parseNodes]
      split
      · simp
      · rename_i t rest ht
        split
        · simp
        · rename_i h; exact absurd h (ih.node lvl c he (by omega))
        · rename_i d c1 h
          split
          · simp
          · rename_i hd
            simp at hd
            obtain ⟨pre, hp, hne⟩ := (ta.node lvl c d c1 he h).2.2 hd.2
            have := List.length_pos_iff.2 (hne hd.1)
            have hl : c.ps.toks.length = pre.length + c1.ps.toks.length := by rw [hp]; simp
            exact ih.nodes lvl c1 hd.2 (by omega)
    · intro lvl c he hf
      match ht : c.ps.toks with
      | [] => simp [parseNode, ht]
      | t :: rest =>
        by_cases h2 : t.ty = .bracketOpen
        · have : parseNode (f + 1) lvl c = parseSubTree f lvl c := by simp [parseNode, ht, h2]
          rw [this]
          exact ih.sub lvl c he (by omega)
        · exact node_stmt_fuel ht h2
    · intro lvl c he hf
      simp only [parseSubTree]
      split
      · simp
      · rename_i t rest ht
        split
        · simp
        · split
          · simp
          · rename_i h
            rw [ht] at hf
            simp at hf
            exact absurd h (ih.tree _ _ rfl (by show 4 * rest.length + 4 ≤ f; omega))
          · simp
          · split
            · simp
            · split
              · split <;> simp
              · split <;> simp

theorem parseTree_fuel (toks : List Token) : parseTree (treeFuel toks) 0 { toks := toks } ≠ .fuel :=
  (treeFuelAt _).tree _ _ rfl (Nat.le_refl _)

theorem parseAstTree_fuel (toks : List Token) : parseAstTree toks ≠ .fuel := by
  unfold parseAstTree
  split
  · simp
  · rename_i h; exact absurd h (parseTree_fuel toks)
  · simp
  · split <;> simp

/- ### No undefined operation when two newlines end the tokens -/

def nls (ts : List Token) : Nat := (ts.filter (fun t => t.ty = .newline)).length

theorem nls_append (a b : List Token) : nls (a ++ b) = nls a + nls b := by simp [nls]

theorem nls_cons_le (t : Token) (ts : List Token) : nls (t :: ts) ≤ nls ts + 1 := by
  unfold nls
  rw [List.filter_cons]
  split <;> simp

theorem nls_cons_not {t : Token} {ts : List Token} (h : t.ty ≠ .newline) : nls (t :: ts) = nls ts := by
  simp [nls, h]

theorem nls_free {ts : List Token} (h : ∀ t ∈ ts, t.ty ≠ .newline) : nls ts = 0 := by
  unfold nls
  rw [List.length_eq_zero_iff, List.filter_eq_nil_iff]
  intro a ha; simpa using h a ha

theorem step_nls {s s' : PS} (h : Step s s') : nls s'.toks = nls s.toks := by
  obtain ⟨pre, h1, h2⟩ := h.toks
  rw [h1, nls_append, nls_free h2]; omega

theorem step_ne {s s' : PS} (h : Step s s') (hn : 1 ≤ nls s.toks) : s'.toks ≠ [] := by
  intro h2
  have := step_nls h
  rw [h2] at this
  have h0 : nls ([] : List Token) = 0 := rfl
  omega

theorem finishVarDef_ub {c : PCtx} {a b cur : List Token} {x y z : Bool} (h : 2 ≤ nls cur) : finishVarDef c a b cur x y z ≠ .ub := by
  unfold finishVarDef
  split
  · have h0 : nls ([] : List Token) = 0 := rfl
    omega
  · rename_i sep rest
    have := nls_cons_le sep rest
    split
    · rename_i h2; exact absurd h2 (parseExpr_ub _)
    · simp
    · rename_i e s hs
      split
      · simp
      · split
        · split
          · rename_i hnil; exact absurd hnil (step_ne (parseExpr_step hs) (by show 1 ≤ nls rest; omega))
          · simp
        · simp only
          split
          · simp
          · split <;> simp

theorem tokenCmp2_ub {toks : List Token} {a b : TokType} (h : tokenCmp2 toks a b = none) : toks = [] := by
  match toks, h with
  | [], _ => rfl
  | t :: rest, h => simp [tokenCmp2] at h

theorem varDef_ub {c : PCtx} {t : Token} {rest : List Token} (ht : c.ps.toks = t :: rest) (hty : t.ty ≠ .newline)
    (h : 2 ≤ nls c.ps.toks) : parseVarDef c ≠ .ub := by
  unfold parseVarDef
  simp only [ht]
  have hname : 2 ≤ nls (if (decide (t.ty = .kwMut) || decide (t.ty = .kwExport)) = true then rest else t :: rest) := by
    rw [ht] at h
    split
    · rw [nls_cons_not hty] at h; exact h
    · exact h
  generalize (if (decide (t.ty = .kwMut) || decide (t.ty = .kwExport)) = true then rest else t :: rest) = name at *
  split
  · simp
  · rename_i n more
    split
    · simp
    · rename_i cur _ hx
      obtain ⟨n', ty, h1, h2, _, h4⟩ := explicitType_some hx
      apply finishVarDef_ub
      rw [h1, nls_cons_not (by rw [h2]; decide), nls_append, nls_free h4] at hname
      omega
    · split
      · rename_i h2; exact absurd (tokenCmp2_ub h2) (by simp)
      · rename_i h2
        obtain ⟨n', q, rest', h3, h4, h5⟩ := tokenCmp2_true h2
        apply finishVarDef_ub
        rw [h3] at hname ⊢
        rw [nls_cons_not (by rw [h4]; decide)] at hname
        exact hname
      · simp

theorem varAssign_ub {c : PCtx} {t : Token} {rest : List Token} (ht : c.ps.toks = t :: rest) (hty : t.ty ≠ .newline)
    (h : 2 ≤ nls c.ps.toks) : parseVarAssign c ≠ .ub := by
  unfold parseVarAssign
  simp only [ht]
  split
  · simp
  · rename_i hq
    have h1 : 1 ≤ nls rest.tail := by
      rw [ht, nls_cons_not hty] at h
      cases rest with
      | nil => exact absurd h (by decide)
      | cons u more => have := nls_cons_le u more; simp; omega
    split
    · rename_i h2; exact absurd h2 (parseExpr_ub _)
    · simp
    · rename_i s hs
      split
      · rename_i hnil; exact absurd hnil (step_ne (parseExpr_step hs) h1)
      · simp
    · simp

theorem finishProto_ub {c : PCtx} {a name start : List Token} {x y : Bool} (h : name ≠ []) :
    finishProto c a name start x y ≠ .ub := by
  unfold finishProto
  split
  · simp
  · simp
  · simp only
    have hp : ∀ l p r, pushProto c a name l p r x y ≠ .ub := by
      intro l p r
      unfold pushProto
      split
      · contradiction
      · simp
    generalize (if x = true then TokType.newline else .bracketOpen) = tt
    split
    · rename_i h2
      split at h2
      · obtain ⟨_, _, _, h3, _⟩ := potentialType_some h2
        simp at h3
      · simp at h2
    · split
      · exact hp _ _ _
      · simp
    · split
      · exact hp _ _ _
      · split
        · simp
        · split <;> simp

theorem proto_ub {c : PCtx} {t : Token} {rest : List Token} (ht : c.ps.toks = t :: rest) (hr : rest ≠ []) :
    parseFunctionProto c ≠ .ub := by
  unfold parseFunctionProto
  simp only [ht]
  have hname : (if (decide (t.ty = .kwExternal) || decide (t.ty = .kwExport)) = true then rest else t :: rest) ≠ [] := by
    split
    · exact hr
    · simp
  split
  · rename_i h; exact absurd (tokenCmp2_ub h) hname
  · simp
  · exact finishProto_ub hname

theorem default_ub {c : PCtx} {t : Token} {rest : List Token} (ht : c.ps.toks = t :: rest) (hty : t.ty ≠ .newline)
    (h : 2 ≤ nls c.ps.toks) : parseDefault c ≠ .ub := by
  have hr : rest ≠ [] := by
    rintro rfl
    rw [ht, nls_cons_not hty] at h
    exact absurd h (by decide)
  unfold parseDefault
  split
  · simp
  · simp
  · rename_i h2; exact absurd h2 (proto_ub ht hr)
  · simp
  · split
    · simp
    · simp
    · rename_i h2; exact absurd h2 (varDef_ub ht hty h)
    · simp
    · split
      · simp
      · simp
      · rename_i h2; exact absurd h2 (varAssign_ub ht hty h)
      · simp
      · unfold parseExprStmt
        split
        · rename_i h2; exact absurd h2 (parseExpr_ub _)
        · simp
        · simp
        · split <;> simp

theorem condition_ub (c : PCtx) (mk : Expr → Stmt) : parseCondition c mk ≠ .ub := by
  unfold parseCondition
  split
  · split
    · rename_i h; exact absurd h (parseExpr_ub _)
    · simp
    · simp
    · split <;> simp
  · simp

/-- What is left of tokens that end in two newlines. -/
def NlEnd (ts : List Token) : Prop := ts = [] ∨ (∃ n, ts = [n] ∧ n.ty = .newline) ∨ 2 ≤ nls ts

theorem nlEnd_suffix {pre ts : List Token} {base : List Token} {a b : Token} (ha : a.ty = .newline) (hb : b.ty = .newline)
    (h : base ++ [a, b] = pre ++ ts) : NlEnd ts := by
  match h3 : ts.reverse with
  | [] => simp at h3; exact .inl h3
  | [x] =>
    have : ts = [x] := by have := congrArg List.reverse h3; simpa using this
    subst this
    have h4 := congrArg List.reverse h
    simp at h4
    exact .inr (.inl ⟨x, rfl, by rw [← h4.1]; exact hb⟩)
  | x :: y :: more =>
    have h5 : ts = more.reverse ++ [y, x] := by have := congrArg List.reverse h3; simpa using this
    have h4 := congrArg List.reverse h
    rw [h5] at h4
    simp at h4
    refine .inr (.inr ?_)
    rw [h5, nls_append]
    have : nls [y, x] = 2 := by simp [nls, ← h4.1, ← h4.2.1, ha, hb]
    omega

structure TreeUb (base : List Token) (f : Nat) : Prop where
  tree : ∀ lvl s, s.err = false → (∃ pre, base = pre ++ s.toks) → parseTree f lvl s ≠ .ub
  nodes : ∀ lvl c, c.ps.err = false → (∃ pre, base = pre ++ c.ps.toks) → parseNodes f lvl c ≠ .ub
  node : ∀ lvl c, c.ps.err = false → c.ps.toks ≠ [] → (∃ pre, base = pre ++ c.ps.toks) → parseNode f lvl c ≠ .ub
  sub : ∀ lvl c, c.ps.err = false → c.ps.toks ≠ [] → (∃ pre, base = pre ++ c.ps.toks) → parseSubTree f lvl c ≠ .ub

theorem node_stmt_ub {f lvl : Nat} {c : PCtx} {t : Token} {rest : List Token} (ht : c.ps.toks = t :: rest)
    (h2 : t.ty ≠ .bracketOpen) (h : t.ty ≠ .newline → 2 ≤ nls c.ps.toks) : parseNode (f + 1) lvl c ≠ .ub := by
  simp only [parseNode]
  rw [ht]
  simp only
  split
  · split <;> simp
  · contradiction
  · simp
  · simp
  · unfold parseReturn
    split
    · rename_i h; exact absurd h (parseExpr_ub _)
    · simp
    · simp
  · exact condition_ub _ _
  · exact condition_ub _ _
  · simp [pushToken]
  · exact condition_ub _ _
  · unfold parseNamespace; split <;> simp
  · simp [pushToken]
  · simp [pushToken]
  · simp [pushToken]
  · simp [pushToken]
  · simp [pushToken]
  · unfold parseImport
    split
    · simp_all
    · simp
    · split <;> simp
  · rename_i hty _ _ _ _ _ _ _ _ _ _ _ _ _
    exact default_ub ht (by assumption) (h (by assumption))

theorem treeUbAt {base : List Token} (hb : ∀ pre ts, base = pre ++ ts → NlEnd ts) : ∀ f, TreeUb base f
  | 0 => by constructor <;> intros <;> simp [parseTree, parseNodes, parseNode, parseSubTree]
  | f + 1 => by
    have ih := treeUbAt hb f
    have ta := treeAt f
    constructor
    · intro lvl s he hs
      simp only [parseTree]
      split
      · rename_i h; exact absurd h (ih.nodes lvl { ps := s } he hs)
      · simp
      · split
        · simp
        · split <;> simp
    · intro lvl c he hs
      simp only [parseNodes]
      split
      · simp
      · rename_i t rest ht
        split
        · rename_i h; exact absurd h (ih.node lvl c he (by simp [ht]) hs)
        · simp
        · rename_i d c1 h
          split
          · simp
          · rename_i hd
            simp at hd
            obtain ⟨pre, hp, hne⟩ := (ta.node lvl c d c1 he h).2.2 hd.2
            obtain ⟨pre0, h0⟩ := hs
            exact ih.nodes lvl c1 hd.2 ⟨pre0 ++ pre, by rw [h0, hp]; simp⟩
    · intro lvl c he hne hs
      match ht : c.ps.toks with
      | [] => exact absurd ht hne
      | t :: rest =>
        by_cases h2 : t.ty = .bracketOpen
        · have : parseNode (f + 1) lvl c = parseSubTree f lvl c := by simp [parseNode, ht, h2]
          rw [this]
          exact ih.sub lvl c he hne hs
        · refine node_stmt_ub ht h2 ?_
          intro hty
          obtain ⟨pre, hp⟩ := hs
          rcases hb pre c.ps.toks hp with h3 | ⟨n, h3, h4⟩ | h3
          · contradiction
          · rw [ht] at h3
            simp at h3
            rw [h3.1] at hty
            contradiction
          · exact h3
    · intro lvl c he hne hs
      simp only [parseSubTree]
      split
      · contradiction
      · rename_i t rest ht
        split
        · simp
        · obtain ⟨pre0, h0⟩ := hs
          split
          · rename_i h
            exact absurd h (ih.tree _ _ rfl ⟨pre0 ++ [t], by rw [h0, ht]; simp⟩)
          · simp
          · simp
          · rename_i child s htree
            obtain ⟨_, _, hsome⟩ := ta.tree _ _ _ _ rfl htree
            obtain ⟨hse, _, hend⟩ := hsome (by simp)
            rw [if_neg (by omega)] at hend
            obtain ⟨cl, rest', hcl, _⟩ := hend
            rw [if_neg (by simp [hse]), hcl]
            simp only
            split <;> simp

theorem parseAstTree_ub {base : List Token} {a b : Token} (ha : a.ty = .newline) (hb : b.ty = .newline) :
    parseAstTree (base ++ [a, b]) ≠ .ub := by
  unfold parseAstTree
  split
  · rename_i h
    exact absurd h ((treeUbAt (base := base ++ [a, b]) (fun pre ts h => nlEnd_suffix ha hb h) _).tree _ _ rfl ⟨[], rfl⟩)
  · simp
  · simp
  · split <;> simp

/- ### Blocks -/

def Node.entry (n : Node) : Entry := ⟨n.stmt, n.tok, n.tokEnd, n.child⟩

theorem linkNodes_eq : ∀ (ns : List Node) (acc : Tree), linkNodes ns acc = treeOf (ns.map Node.entry) acc
  | [], _ => rfl
  | n :: ns, acc => linkNodes_eq ns _

theorem leadFree_mono : ∀ ts, leadFree true ts = true → leadFree false ts = true
  | [], _ => rfl
  | t :: ts, h => by
    simp only [leadFree] at h ⊢
    split
    · rename_i h2; simp [h2] at h
    · rename_i h2
      rw [if_neg h2] at h
      split
      · rename_i h3; rw [if_pos h3] at h; exact leadFree_mono ts h
      · rename_i h3; rw [if_neg h3] at h; exact h

theorem leadFree_false {b : Bool} {ts : List Token} (h : leadFree b ts = true) : leadFree false ts = true := by
  cases b with
  | true => exact leadFree_mono ts h
  | false => exact h

theorem leadFree_drop : ∀ (pre : List Token) (ts : List Token) (b : Bool), leadFree b (pre ++ ts) = true → leadFree false ts = true
  | [], ts, b, h => leadFree_false h
  | t :: pre, ts, b, h => by
    simp only [List.cons_append, leadFree] at h
    split at h
    · simp at h; exact leadFree_drop pre ts true h.2
    · split at h
      · exact leadFree_drop pre ts b h
      · exact leadFree_drop pre ts false h

/-- What holds of the nodes made so far when no list of statements begins with a block. -/
structure Good (start : List Token) (c : PCtx) : Prop where
  nests : Nests start (c.done.map Node.entry) c.ps.toks
  head : c.headChild = .nil
  lead : leadFree c.done.isEmpty c.ps.toks = true

structure TreeNests (f : Nat) : Prop where
  tree : ∀ lvl s T s', s.err = false → leadFree true s.toks = true → parseTree f lvl s = .ok (some T) s' →
    ∃ ns, Nests s.toks ns s'.toks ∧ leadFree ns.isEmpty s'.toks = true ∧
      T = (if ns = [] then .node .unknown [] [] .nil .nil else treeOf ns .nil)
  nodes : ∀ lvl c b c' start, c.ps.err = false → Good start c → parseNodes f lvl c = .ok b c' → c'.ps.err = false → Good start c'

theorem treeOf_node : ∀ (ns : List Entry) (st : Stmt) (tok te : List Token) (ch nx : Tree),
    ∃ a b c d e, treeOf ns (.node st tok te ch nx) = .node a b c d e
  | [], st, tok, te, ch, nx => ⟨_, _, _, _, _, rfl⟩
  | n :: ns, st, tok, te, ch, nx => treeOf_node ns _ _ _ _ _

theorem treeNestsAt : ∀ f, TreeNests f ∧ ∀ g < f, TreeNests g
  | 0 => by
    refine ⟨?_, by intro g hg; omega⟩
    constructor <;> intros <;> simp_all [parseTree, parseNodes]
  | f + 1 => by
    have ih := treeNestsAt f
    have ta := treeAt f
    refine ⟨?_, ?_⟩
    · constructor
      · intro lvl s T s' he hl h
        simp only [parseTree] at h
        split at h
        · simp at h
        · simp at h
        · rename_i b c hn
          split at h
          · simp at h
          · rename_i hce
            split at h
            · simp at h
            · simp at h
              obtain ⟨rfl, rfl⟩ := h
              have hg := ih.1.nodes lvl { ps := s } b c s.toks he ⟨.start, rfl, hl⟩ hn (by simpa using hce)
              refine ⟨c.done.map Node.entry, hg.nests, by simpa using hg.lead, ?_⟩
              unfold PCtx.tree
              split
              · rename_i h0; simp [h0, hg.head]
              · rename_i h0
                rw [linkNodes_eq, if_neg]
                simpa using h0
      · intro lvl c b c' start he hg h he'
        simp only [parseNodes] at h
        split at h
        · simp at h
          rw [← h.2]; exact hg
        · rename_i t rest ht
          split at h
          · simp at h
          · simp at h
          · rename_i d c1 hn
            obtain ⟨_, hm, _⟩ := ta.node lvl c d c1 he hn
            -- one round keeps the invariant
            have key : c1.ps.err = false → Good start c1 := by
              intro he1
              have : ∃ f', f' < f + 1 ∧ Moved f' lvl c d c1 := by
                rcases hm he1 with ⟨f', hf, h1⟩ | ⟨f', h1, hf⟩
                · exact ⟨f', by omega, h1⟩
                · exact ⟨f', by omega, h1⟩
              obtain ⟨f', hf', h1⟩ := this
              cases h1 with
              | closed _ _ _ => exact hg
              | @skip t' rest' h2 h3 =>
                refine ⟨.skip (by rw [← h2]; exact hg.nests) h3, hg.head, ?_⟩
                have := hg.lead
                rw [h2] at this
                simp only [leadFree] at this
                rw [if_neg (by rcases h3 with h | h <;> rw [h] <;> decide), if_pos h3] at this
                exact this
              | push h2 =>
                obtain ⟨st, te, hw, hv, hc1⟩ := h2
                obtain ⟨pre, _, hp⟩ := written_suffix hw
                have hl := hg.lead
                rw [hp] at hl
                have hl2 := leadFree_drop _ _ _ hl
                rw [hc1]
                refine ⟨?_, rfl, hl2⟩
                simp only [PCtx.push, List.map_cons, Node.entry, hg.head]
                exact .stmt hg.nests hw hv
              | @block opn close inner rest' child s h2 h3 h4 h5 h6 h7 h8 =>
                have hl := hg.lead
                rw [h2] at hl
                simp only [leadFree] at hl
                rw [if_pos h3] at hl
                simp at hl
                -- the block hangs on the last node
                have ihf : TreeNests f' := by
                  by_cases hff : f' = f
                  · rw [hff]; exact ih.1
                  · exact ih.2 f' (by omega)
                obtain ⟨bs, hb1, hb2, hb3⟩ := ihf.tree _ _ _ _ rfl hl.2 h5
                have hbs : bs ≠ [] := by
                  rintro rfl
                  simp at hb3
                  rw [hb3] at h7
                  simp [Tree.hasToken] at h7
                rw [if_neg hbs] at hb3
                obtain ⟨_, _, hsome⟩ := (treeAt f').tree _ _ _ _ rfl h5
                obtain ⟨_, _, hend⟩ := hsome (by simp)
                rw [if_neg (by omega)] at hend
                obtain ⟨cl, rest2, hcl, hclty⟩ := hend
                rw [h8] at hcl
                simp at hcl
                obtain ⟨rfl, rfl⟩ := hcl
                have hl3 : leadFree false rest' = true := by
                  rw [h8] at hb2
                  exact leadFree_drop [close] _ _ hb2
                match hdone : c.done, hl with
                | n :: ns, _ =>
                  have hnil : n.child = .nil := by
                    unfold PCtx.lastHasChild at h4
                    rw [hdone] at h4
                    match hn' : n.child with
                    | .nil => rfl
                    | .node .. =>
                      obtain ⟨_, _, _, ch⟩ := n
                      simp at hn'
                      subst hn'
                      simp at h4
                  have hnest := hg.nests
                  rw [hdone, h2] at hnest
                  simp only [List.map_cons, Node.entry, hnil] at hnest
                  refine ⟨?_, ?_, ?_⟩
                  · simp only [PCtx.setChild, hdone, List.map_cons, Node.entry, hb3]
                    exact .block hnest h3 (by rw [h8] at hb1; exact hb1) hclty hbs
                  · simp only [PCtx.setChild, hdone]; exact hg.head
                  · simp only [PCtx.setChild, hdone]; exact hl3
            split at h
            · simp at h
              obtain ⟨rfl, rfl⟩ := h
              exact key he'
            · rename_i hd
              simp at hd
              exact ih.1.nodes lvl c1 b c' start hd.2 (key hd.2) h he'
    · intro g hg
      by_cases hgf : g = f
      · rw [hgf]; exact ih.1
      · exact ih.2 g (by omega)

/- ### Accepted tokens get no diagnostic -/

structure TreeClean (f : Nat) : Prop where
  tree : ∀ lvl s r s', s.err = false → parseTree f lvl s = .ok r s' → s'.err = false → s'.diags = s.diags
  nodes : ∀ lvl c b c', c.ps.err = false → parseNodes f lvl c = .ok b c' → c'.ps.err = false → c'.ps.diags = c.ps.diags

theorem treeCleanAt : ∀ f, TreeClean f ∧ ∀ g < f, TreeClean g
  | 0 => by
    refine ⟨?_, by intro g hg; omega⟩
    constructor <;> intros <;> simp_all [parseTree, parseNodes]
  | f + 1 => by
    have ih := treeCleanAt f
    have ta := treeAt f
    refine ⟨?_, ?_⟩
    · constructor
      · intro lvl s r s' he h he'
        simp only [parseTree] at h
        split at h
        · simp at h
        · simp at h
        · rename_i b c hn
          split at h
          · rename_i hce
            simp at h
            rw [← h.2, hce] at he'
            simp at he'
          · split at h
            · simp at h
              rw [← h.2] at he'
              simp [PS.fail] at he'
            · rename_i hce _
              simp at h
              rw [← h.2]
              exact ih.1.nodes lvl { ps := s } b c he hn (by simpa using hce)
      · intro lvl c b c' he h he'
        simp only [parseNodes] at h
        split at h
        · simp at h
          rw [h.2]
        · rename_i t rest ht
          split at h
          · simp at h
          · simp at h
          · rename_i d c1 hn
            obtain ⟨_, hm, _⟩ := ta.node lvl c d c1 he hn
            have key : c1.ps.err = false → c1.ps.diags = c.ps.diags := by
              intro he1
              have : ∃ f', f' < f + 1 ∧ Moved f' lvl c d c1 := by
                rcases hm he1 with ⟨f', hf, h1⟩ | ⟨f', h1, hf⟩
                · exact ⟨f', by omega, h1⟩
                · exact ⟨f', by omega, h1⟩
              obtain ⟨f', hf', h1⟩ := this
              cases h1 with
              | closed _ _ _ => rfl
              | skip h2 h3 => rfl
              | push h2 =>
                obtain ⟨st, te, hw, hv, hc1⟩ := h2
                rw [hc1]
              | @block opn close inner rest' child s h2 h3 h4 h5 h6 h7 h8 =>
                have ihf : TreeClean f' := by
                  by_cases hff : f' = f
                  · rw [hff]; exact ih.1
                  · exact ih.2 f' (by omega)
                have := ihf.tree _ _ _ _ rfl h5 h6
                exact this
            split at h
            · simp at h
              obtain ⟨rfl, rfl⟩ := h
              exact key he'
            · rename_i hd
              simp at hd
              rw [ih.1.nodes lvl c1 b c' hd.2 h he', key hd.2]
    · intro g hg
      by_cases hgf : g = f
      · rw [hgf]; exact ih.1
      · exact ih.2 g (by omega)

/- ### A list of statements cannot begin with a block -/

theorem exprOf_start {ex ts : List Token} {e : Expr} {t : Token} {rest : List Token} (h : ExprOf ex e) (h2 : ex ++ ts = t :: rest) :
    StartOk t := by
  obtain ⟨⟨c, hw, rfl⟩, _⟩ := h
  obtain ⟨u, us, h3, h4⟩ := chain_start c hw
  rw [h3] at h2
  simp at h2
  rw [← h2.1]; exact h4

theorem written_start {a b : List Token} {st : Stmt} (h : Written a b st) : ∀ t rest, a = t :: rest → t.ty ≠ .bracketOpen := by
  intro t rest ha
  cases h with
  | «return» hk => simp at ha; rw [← ha.1, hk]; decide
  | returnExpr hk => simp at ha; rw [← ha.1, hk]; decide
  | «if» hk => simp at ha; rw [← ha.1, hk]; decide
  | elif hk => simp at ha; rw [← ha.1, hk]; decide
  | «while» hk => simp at ha; rw [← ha.1, hk]; decide
  | «else» hk => simp at ha; rw [← ha.1, hk]; decide
  | unreachable hk => simp at ha; rw [← ha.1, hk]; decide
  | comment hk => simp at ha; rw [← ha.1, hk]; decide
  | noop hk => simp at ha; rw [← ha.1, hk]; decide
  | «break» hk => simp at ha; rw [← ha.1, hk]; decide
  | «continue» hk => simp at ha; rw [← ha.1, hk]; decide
  | «namespace» hk => simp at ha; rw [← ha.1, hk]; decide
  | «import» hk => simp at ha; rw [← ha.1, hk]; decide
  | implicit hm hn =>
    cases hm with
    | none => simp at ha; rw [← ha.1, hn]; decide
    | «mut» hk => simp at ha; rw [← ha.1, hk]; decide
    | «export» hk => simp at ha; rw [← ha.1, hk]; decide
  | explicit hm hn =>
    cases hm with
    | none => simp at ha; rw [← ha.1, hn]; decide
    | «mut» hk => simp at ha; rw [← ha.1, hk]; decide
    | «export» hk => simp at ha; rw [← ha.1, hk]; decide
  | assign hn =>
    simp at ha
    rw [← ha.1]
    intro h
    simp [isName, h] at hn
  | expr he =>
    intro h
    have hs := exprOf_start he ha
    unfold StartOk at hs
    simp [isName, isLiteral, h, unLevel] at hs
  | func hm hn =>
    cases hm with
    | none => simp at ha; rw [← ha.1, hn]; decide
    | external hk => simp at ha; rw [← ha.1, hk]; decide
    | «export» hk => simp at ha; rw [← ha.1, hk]; decide

/-- Nothing is written from a brace on. -/
theorem nests_brace {start : List Token} {ns : List Entry} {pos : List Token} (h : Nests start ns pos) :
    ∀ t rest, start = t :: rest → t.ty = .bracketOpen → ns = [] ∧ pos = start := by
  induction h with
  | start => intro t rest _ _; exact ⟨rfl, rfl⟩
  | skip _ h3 ih =>
    intro t rest hs ht
    obtain ⟨_, h5⟩ := ih t rest hs ht
    rw [hs] at h5
    simp at h5
    rw [h5.1, ht] at h3
    exact absurd h3 (by decide)
  | stmt _ hw _ ih =>
    intro t rest hs ht
    obtain ⟨_, h5⟩ := ih t rest hs ht
    exact absurd ht (written_start hw t rest (by rw [h5, hs]))
  | block _ _ _ _ _ ih _ =>
    intro t rest hs ht
    exact absurd (ih t rest hs ht).1 (by simp)

/-- The first statement of a tree has a token. -/
theorem nests_tok {start : List Token} {ns : List Entry} {pos : List Token} (h : Nests start ns pos) : ∀ n ∈ ns, n.tok ≠ [] := by
  induction h with
  | start => simp
  | skip _ _ ih => exact ih
  | @stmt start ns pos ts te st _ hw _ ih =>
    intro n hn
    simp at hn
    rcases hn with rfl | hn
    · obtain ⟨pre, h1, h2⟩ := written_suffix hw
      show pos ≠ []
      rw [h2]
      simp [h1]
    · exact ih n hn
  | @block start ns st tok te opn close inner ts bs _ _ _ _ _ ih _ =>
    intro n hn
    simp at hn
    rcases hn with rfl | hn
    · exact ih ⟨st, tok, te, .nil⟩ (by simp)
    · exact ih n (by simp [hn])

theorem treeOf_setHead (toks : List Token) : ∀ (ns : List Entry) (acc : Tree), (∀ n ∈ ns, n.tok ≠ []) → acc.setHead toks = acc →
    (treeOf ns acc).setHead toks = treeOf ns acc
  | [], acc, _, h => h
  | n :: ns, acc, hn, h => by
    refine treeOf_setHead toks ns _ (fun m hm => hn m (by simp [hm])) ?_
    simp [Tree.setHead, hn n (by simp)]

/-- How an accepted list of tokens without leading blocks is laid out. -/
theorem parseAstTree_nests {toks : List Token} {T : Tree} {s : PS} (hl : leadFree true toks = true)
    (h : parseAstTree toks = .ok (some T) s) :
    ∃ ns, Nests toks ns [] ∧ T = (if ns = [] then .node .unknown toks [] .nil .nil else treeOf ns .nil) := by
  unfold parseAstTree at h
  split at h
  · simp at h
  · simp at h
  · simp at h
  · rename_i t s1 ht
    split at h
    · simp at h
    · simp at h
      obtain ⟨rfl, rfl⟩ := h
      obtain ⟨ns, h1, _, h3⟩ := (treeNestsAt _).1.tree _ _ _ _ rfl hl ht
      obtain ⟨_, _, hsome⟩ := (treeAt _).tree _ _ _ _ rfl ht
      obtain ⟨_, _, hend⟩ := hsome (by simp)
      simp at hend
      rw [hend] at h1
      refine ⟨ns, h1, ?_⟩
      split at h3
      · rw [h3]; rename_i hns; rw [if_pos hns]; simp [Tree.setHead]
      · rename_i hns
        rw [h3, if_neg hns]
        exact treeOf_setHead toks ns .nil (nests_tok h1) rfl

end Skull
