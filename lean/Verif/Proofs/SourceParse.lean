import Verif.Proofs.SourceLine
/-
The parser reads every program that may be written.
-/
namespace Skull.SrcParse
open Spec Spec.Src

theorem linkNodes_append : ∀ (ns ms : List Node) (acc : Tree), linkNodes (ns ++ ms) acc = linkNodes ms (linkNodes ns acc)
  | [], _, _ => rfl
  | n :: ns, ms, acc => by simp only [List.cons_append, linkNodes]; exact linkNodes_append ns ms _

/-- Where a list of statements ends. -/
def Closes (lvl : Nat) (a : List Token) : Prop := if lvl = 0 then a = [] else ∃ c ts, a = c :: ts ∧ c.ty = .bracketClose

theorem nodes_step {f lvl : Nat} {c c' : PCtx} {t : Token} {rest : List Token} (hs : c.ps.toks = t :: rest)
    (h : parseNode f lvl c = .ok false c') (he : c'.ps.err = false) : parseNodes (f + 1) lvl c = parseNodes f lvl c' := by
  simp [parseNodes, hs, h, he]

theorem newline_step {f lvl : Nat} {c : PCtx} {t : Token} {rest : List Token} (hs : c.ps.toks = t :: rest) (ht : t.ty = .newline)
    (he : c.ps.err = false) : parseNodes (f + 2) lvl c = parseNodes (f + 1) lvl { c with ps := { c.ps with toks := rest } } :=
  nodes_step hs (by simp [parseNode, hs, ht]) he

theorem skip_gap : ∀ (gap : List Token) (f lvl : Nat) (c : PCtx) (rest : List Token), (∀ t ∈ gap, t.ty = .newline) →
    c.ps.err = false → c.ps.toks = gap ++ rest → 4 * (gap ++ rest).length + 3 ≤ f →
    ∃ f', 4 * rest.length + 3 ≤ f' ∧ parseNodes f lvl c = parseNodes f' lvl { c with ps := { c.ps with toks := rest } }
  | [], f, lvl, c, rest, _, _, hs, hf => ⟨f, hf, by
      simp only [List.nil_append] at hs
      rw [← hs]⟩
  | g :: gap, f, lvl, c, rest, hg, he, hs, hf => by
    obtain ⟨f, rfl⟩ : ∃ k, f = k + 2 := ⟨f - 2, by simp at hf; omega⟩
    obtain ⟨f', h1, h2⟩ := skip_gap gap (f + 1) lvl { c with ps := { c.ps with toks := gap ++ rest } } rest
      (fun t ht => hg t (by simp [ht])) he rfl (by simp at hf ⊢; omega)
    refine ⟨f', h1, ?_⟩
    rw [newline_step (rest := gap ++ rest) hs (hg g (by simp)) he]
    exact h2

theorem line_tokens_ne {s : Line} (h : s.WF) : ∃ t ts, s.tokens = t :: ts := by
  cases s with
  | word t => exact ⟨t, _, rfl⟩
  | ret t => exact ⟨t, _, rfl⟩
  | retVal t v => exact ⟨t, _, rfl⟩
  | «import» t n => exact ⟨t, _, rfl⟩
  | define m n q v => exact List.exists_cons_of_ne_nil (by simp [Line.tokens])
  | defineAs m n ty q v => exact List.exists_cons_of_ne_nil (by simp [Line.tokens])
  | assign n q v => exact ⟨n, _, rfl⟩
  | expr v => obtain ⟨t, ts, h1, _⟩ := value_ne h; exact ⟨t, ts, h1⟩
  | external g => exact List.exists_cons_of_ne_nil (by simp [Line.tokens, Func.tokens])

theorem head_tokens_ne (h : Head) : ∃ t ts, h.tokens = t :: ts := by
  cases h with
  | cond t v => exact ⟨t, _, rfl⟩
  | «else» t => exact ⟨t, _, rfl⟩
  | «namespace» t n => exact ⟨t, _, rfl⟩
  | func g => exact List.exists_cons_of_ne_nil (by simp [Head.tokens, Func.tokens])

theorem is_hasToken : ∀ (p : Prog) (a : List Token) (t : Tree), p.WF a → p.Is a t → p.some = true → t.hasToken = true ∧ t ≠ .nil
  | .nil, _, _, _, _, h => by simp [Prog.some] at h
  | .newline _ r, a, t, hw, hi, h => is_hasToken r a t hw.2 hi h
  | .line s r, a, t, hw, hi, _ => by
    obtain ⟨st, te, nx, _, _, _, rfl⟩ := hi
    obtain ⟨u, us, hu⟩ := line_tokens_ne hw.1
    simp [Tree.hasToken, hu]
  | .block h gap o b c r, a, t, _, hi, _ => by
    obtain ⟨st, te, ch, nx, _, _, _, _, rfl⟩ := hi
    obtain ⟨u, us, hu⟩ := head_tokens_ne h
    simp [Tree.hasToken, hu]

theorem is_none : ∀ (p : Prog) (a : List Token) (t : Tree), p.Is a t → p.some = false → t = .nil
  | .nil, _, _, hi, _ => hi
  | .newline _ r, a, t, hi, h => is_none r a t hi h
  | .line s r, a, t, _, h => by simp [Prog.some] at h
  | .block _ gap o b c r, a, t, _, h => by simp [Prog.some] at h

theorem linkNodes_nil : ∀ (ns : List Node) (acc : Tree), linkNodes ns acc = .nil → ns = []
  | [], _, _ => rfl
  | n :: ns, acc, h => by
    simp only [linkNodes] at h
    have := linkNodes_nil ns _ h
    subst this
    simp [linkNodes] at h

/-- The list of statements `p` was read. -/
def Reads (p : Prog) (a : List Token) (f lvl : Nat) (c : PCtx) : Prop :=
  ∃ b ns, p.Is a (linkNodes ns .nil) ∧
    parseNodes f lvl c = .ok b { ps := { c.ps with toks := a }, done := ns ++ c.done, headChild := .nil }

theorem prog_nodes : ∀ (p : Prog) (a : List Token) (f lvl : Nat) (c : PCtx), p.WF a → p.Newlines a → Closes lvl a →
    c.ps.err = false → c.headChild = .nil → c.ps.toks = p.tokens ++ a → 4 * (p.tokens ++ a).length + 3 ≤ f → Reads p a f lvl c
  | .nil, a, f, lvl, c, _, _, hcl, he, hh, hs, hf => by
    obtain ⟨f, rfl⟩ : ∃ k, f = k + 2 := ⟨f - 2, by omega⟩
    simp only [Prog.tokens, List.nil_append] at hs
    unfold Closes at hcl
    have hc : c = { ps := { c.ps with toks := a }, done := c.done, headChild := .nil } := by rw [← hs, ← hh]
    by_cases hl : lvl = 0
    · rw [if_pos hl] at hcl
      subst hcl
      exact ⟨false, [], rfl, by rw [List.nil_append, ← hc]; simp only [parseNodes, hs]⟩
    · rw [if_neg hl] at hcl
      obtain ⟨cl, ts, rfl, hcl⟩ := hcl
      refine ⟨true, [], rfl, ?_⟩
      rw [List.nil_append, ← hc]
      simp [parseNodes, hs, parseNode, hcl, hl]
  | .newline t r, a, f, lvl, c, hw, hn, hcl, he, hh, hs, hf => by
    obtain ⟨f, rfl⟩ : ∃ k, f = k + 2 := ⟨f - 2, by omega⟩
    simp only [Prog.tokens, List.cons_append] at hs hf
    simp only [Prog.WF] at hw
    simp only [Prog.Newlines] at hn
    obtain ⟨b, ns, h1, h2⟩ := prog_nodes r a (f + 1) lvl { c with ps := { c.ps with toks := r.tokens ++ a } } hw.2 hn hcl he hh rfl
      (by simp at hf ⊢; omega)
    exact ⟨b, ns, h1, by rw [newline_step hs hw.1 he, h2]⟩
  | .line s r, a, f, lvl, c, hw, hn, hcl, he, hh, hs, hf => by
    obtain ⟨f, rfl⟩ : ∃ k, f = k + 2 := ⟨f - 2, by omega⟩
    simp only [Prog.tokens, List.append_assoc] at hs hf
    simp only [Prog.WF] at hw
    simp only [Prog.Newlines] at hn
    obtain ⟨t, ts, hts⟩ := line_tokens_ne hw.1
    obtain ⟨st, te, h1, h2, h3⟩ := line_node (f := f) (lvl := lvl) hw.1 hw.2.1 hn.1 he hs
    obtain ⟨b, ns, h4, h5⟩ := prog_nodes r a (f + 1) lvl (after c st te (r.tokens ++ a)) hw.2.2 hn.2 hcl he rfl rfl
      (by rw [hts] at hf; simp at hf ⊢; omega)
    refine ⟨b, ns ++ [⟨st, c.ps.toks, te, .nil⟩], ?_, ?_⟩
    · rw [linkNodes_append]
      exact ⟨st, te, _, h1, h2, h4, by rw [hs]; rfl⟩
    · rw [nodes_step (t := t) (rest := ts ++ (r.tokens ++ a)) (by rw [hs, hts]; rfl) h3 (by exact he), h5]
      simp [after, PCtx.push, hh]
  | .block h gap o body cl r, a, f, lvl, c, hw, hn, hcl, he, hh, hs, hf => by
    obtain ⟨f, rfl⟩ : ∃ k, f = k + 2 := ⟨f - 2, by omega⟩
    simp only [Prog.tokens, List.append_assoc, List.cons_append] at hs hf
    simp only [Prog.WF] at hw
    obtain ⟨w1, w2, w3, w4, w5, w6, w7, w8⟩ := hw
    simp only [Prog.Newlines] at hn
    obtain ⟨t, ts, hts⟩ := head_tokens_ne h
    -- the head
    have hb : ∃ b, (gap ++ o :: (body.tokens ++ cl :: (r.tokens ++ a))).head? = some b ∧ (b.ty = .newline ∨ b.ty = .bracketOpen) ∧
        ∀ g, h = .func g → b.ty = .bracketOpen := by
      cases gap with
      | nil => exact ⟨o, rfl, .inr w4, fun _ _ => w4⟩
      | cons u us => exact ⟨u, rfl, .inl (w2 u (by simp)), fun g hg => absurd (w3 g hg) (by simp)⟩
    obtain ⟨b, hb1, hb2, hb3⟩ := hb
    obtain ⟨st, te, h1, h2, h3⟩ := head_node (f := f) (lvl := lvl) w1 hb1 hb2 hb3 he hs
    have e1 := nodes_step (t := t) (rest := ts ++ (gap ++ o :: (body.tokens ++ cl :: (r.tokens ++ a)))) (by rw [hs, hts]; rfl) h3
      (by exact he)
    -- the newlines
    obtain ⟨f1, hf1, e2⟩ := skip_gap gap (f + 1) lvl (after c st te (gap ++ o :: (body.tokens ++ cl :: (r.tokens ++ a))))
      (o :: (body.tokens ++ cl :: (r.tokens ++ a))) w2 he rfl (by rw [hts] at hf; simp at hf ⊢; omega)
    obtain ⟨f1, rfl⟩ : ∃ k, f1 = k + 4 := ⟨f1 - 4, by simp at hf1; omega⟩
    -- the block
    obtain ⟨b2, ns, h4, h5⟩ := prog_nodes body (cl :: (r.tokens ++ a)) f1 (lvl + 1)
      { ps := { c.ps with toks := body.tokens ++ cl :: (r.tokens ++ a), err := false } } w5 hn.1
      (by unfold Closes; rw [if_neg (by omega)]; exact ⟨cl, _, rfl, w7⟩) rfl rfl rfl (by simp at hf1 ⊢; omega)
    obtain ⟨h6, h7⟩ := is_hasToken _ _ _ w5 h4 w6
    have htree : ∀ c' : PCtx, c'.done = ns → c'.tree = linkNodes ns .nil := by
      intro c' hd
      have hne : ns ≠ [] := by
        intro h0
        rw [h0] at h7
        exact h7 rfl
      cases ns with
      | nil => exact absurd rfl hne
      | cons n ns => simp only [PCtx.tree, hd]
    have h8 : parseTree (f1 + 1) (lvl + 1) { c.ps with toks := body.tokens ++ cl :: (r.tokens ++ a), err := false } =
        .ok (some (linkNodes ns .nil)) { c.ps with toks := cl :: (r.tokens ++ a), err := false } := by
      simp only [parseTree, h5]
      rw [if_neg (by simp), if_neg (by simp), htree _ (by simp)]
    have h9 : parseNode (f1 + 3) lvl (after c st te (o :: (body.tokens ++ cl :: (r.tokens ++ a)))) =
        .ok false { (after c st te (r.tokens ++ a)) with done := ⟨st, c.ps.toks, te, linkNodes ns .nil⟩ :: c.done } := by
      have : parseNode (f1 + 3) lvl (after c st te (o :: (body.tokens ++ cl :: (r.tokens ++ a)))) =
          parseSubTree (f1 + 2) lvl (after c st te (o :: (body.tokens ++ cl :: (r.tokens ++ a)))) := by
        simp only [parseNode, after, w4]
      rw [this]
      simp only [parseSubTree, after, PCtx.push, PCtx.lastHasChild, hh, Bool.false_eq_true, if_false, h8, h6, Bool.not_true,
        PCtx.setChild]
    have e3 := nodes_step (c := after c st te (o :: (body.tokens ++ cl :: (r.tokens ++ a)))) (t := o) rfl h9 (by exact he)
    -- what follows
    obtain ⟨b3, ns2, h10, h11⟩ := prog_nodes r a (f1 + 3) lvl
      { (after c st te (r.tokens ++ a)) with done := ⟨st, c.ps.toks, te, linkNodes ns .nil⟩ :: c.done } w8 hn.2 hcl he rfl rfl
      (by simp at hf1 ⊢; omega)
    refine ⟨b3, ns2 ++ [⟨st, c.ps.toks, te, linkNodes ns .nil⟩], ?_, ?_⟩
    · rw [linkNodes_append]
      exact ⟨st, te, _, _, h1, h2, h4, h10, by rw [hs]; rfl⟩
    · rw [e1, e2]
      refine e3.trans ?_
      rw [h11]
      simp [after]

/-- The tree of a program, or the empty node when there is no statement. -/
theorem prog_parse (p : Prog) (hw : p.WF []) (hn : p.Newlines []) :
    ∃ t, parseAstTree p.tokens = .ok (some t) { toks := [] } ∧
      if p.some then p.Is [] t else t = .node .unknown p.tokens [] .nil .nil := by
  obtain ⟨b, ns, h1, h2⟩ := prog_nodes p [] (4 * p.tokens.length + 3) 0 { ps := { toks := p.tokens } } hw hn rfl rfl rfl (by simp)
    (by simp)
  simp only [List.append_nil] at h2
  have h3 : parseTree (treeFuel p.tokens) 0 { toks := p.tokens } =
      .ok (some (PCtx.tree { ps := { toks := [] }, done := ns, headChild := .nil })) { toks := [] } := by
    simp only [treeFuel, parseTree, h2]
    simp
  refine ⟨(PCtx.tree { ps := { toks := [] }, done := ns, headChild := .nil }).setHead p.tokens, ?_, ?_⟩
  · simp [parseAstTree, h3]
  · cases hp : p.some with
    | true =>
      rw [if_pos rfl]
      obtain ⟨h4, h5⟩ := is_hasToken _ _ _ hw h1 hp
      have : PCtx.tree { ps := { toks := [] }, done := ns, headChild := .nil } = linkNodes ns .nil := by
        cases ns with
        | nil => exact absurd rfl h5
        | cons n ns => rfl
      rw [this]
      cases hl : linkNodes ns .nil with
      | nil => rw [hl] at h5; exact absurd rfl h5
      | node st tok te ch nx =>
        rw [hl] at h4 h1
        simp [Tree.hasToken] at h4
        simpa [Tree.setHead, h4] using h1
    | false =>
      have h4 := linkNodes_nil _ _ (is_none _ _ _ h1 hp)
      subst h4
      simp [PCtx.tree, Tree.setHead]

end Skull.SrcParse
