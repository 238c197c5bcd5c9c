import Verif.Proofs.SemHeapParam
import Verif.Proofs.ParsePlaced
import Verif.Proofs.SemStmt
/-
Tokens of source texts: they have a text, and names are valid.  Every statement of a parsed tree is written at its position, and
that is a position in the source.
-/
namespace Skull.SemDef

open Skull.Spec

/-- What a token of a source is like. -/
structure Real (src : List Char) (t : Token) : Prop where
  text : ∃ x, Text t x
  short : t.len ≤ src.length
  name : t.ty = .identifier ∨ t.ty = .newIdentifier → ∀ x, Text t x → isValidIdentifier x = true

theorem tryWords_name (tab : List (List Char × TokType)) (h : ∀ p ∈ tab, p.2 ≠ .newIdentifier ∧ p.2 ≠ .identifier) (t : Token) (ty : TokType)
    (he : tryWords tab t = some (some ty)) : ty ≠ .newIdentifier ∧ ty ≠ .identifier := by
  induction tab with
  | nil => cases he
  | cons p tab ih =>
    obtain ⟨w, ty'⟩ := p
    simp only [tryWords] at he
    split at he
    · cases he
    · cases he; exact h _ List.mem_cons_self
    · exact ih (fun q hq => h q (List.mem_cons_of_mem _ hq)) he

theorem singleOper_name (c : Char) (ty : TokType) (h : singleOper c = some ty) : ty ≠ .newIdentifier ∧ ty ≠ .identifier := by
  unfold singleOper at h
  repeat' split at h
  all_goals first | (cases h; simp) | cases h

/-- A name with a colon behind it. -/
theorem valid_dropColon {s : List Char} (h : isValidIdentifier (s ++ [':']) = true) (hd : '.' ∉ s) : isValidIdentifier s = true := by
  rw [varName_iff] at h ⊢
  obtain ⟨c, body, hc, hb, h | h⟩ := h
  · exfalso
    obtain ⟨h1, _⟩ := h
    have hm : ':' ∈ c :: body := by rw [← h1]; simp
    rcases List.mem_cons.mp hm with e | e
    · exact (letter_not hc).2.2.2.2.2.1 e.symm
    · rcases hb _ e with k | k | k | k
      · exact (letter_not k).2.2.2.2.2.1 rfl
      · exact absurd k (by unfold Digit; decide)
      · cases k
      · cases k
  · have e : s = c :: body := by
      have : s ++ [':'] = (c :: body) ++ [':'] := by rw [h]; simp
      exact List.append_cancel_right this
    refine ⟨c, body, hc, hb, .inl ⟨e, ?_⟩⟩
    intro hl
    exact hd (by rw [e]; exact List.mem_cons_of_mem _ (List.mem_of_getLast? hl))

theorem classify_len {t t' : Token} (h : classifyToken t = some t') : t'.len ≤ t.len := by
  unfold classifyToken at h
  split at h
  · cases h; exact Nat.le_refl _
  · dsimp only at h
    repeat' split at h
    all_goals first
      | (cases h; exact Nat.le_refl _)
      | (cases h; done)
      | (cases h; unfold classifyIdentifier; dsimp only; (repeat' split) <;> simp)

theorem classify_valid {t t' : Token} (h : classifyToken t = some t') (hty : t.ty ≠ .newIdentifier ∧ t.ty ≠ .identifier)
    (hn : t'.ty = .identifier ∨ t'.ty = .newIdentifier) {b : List Char} (hb : t.begin = some b) (hl : t.len ≤ b.length)
    {x : List Char} (hs : tokenToString t' = some x) : isValidIdentifier x = true := by
  have no : ∀ {ty : TokType}, ty ≠ .newIdentifier ∧ ty ≠ .identifier → (ty = .identifier ∨ ty = .newIdentifier) → False := by
    rintro ty ⟨h1, h2⟩ (h | h)
    · exact h2 h
    · exact h1 h
  unfold classifyToken at h
  split at h
  · cases h; exact (no hty hn).elim
  · dsimp only at h
    split at h
    · cases h
    · rename_i ty hsing
      cases h
      split at hsing
      · split at hsing
        · cases hsing
        · cases hsing
        · simp only [Option.some.injEq] at hsing
          exact (no (singleOper_name _ _ hsing) hn).elim
      · cases hsing
    · split at h
      · rename_i b' str hb' hstr
        rw [hb] at hb'
        cases hb'
        split at h
        · cases h
        · rename_i ty htry
          cases h
          exact (no (tryWords_name _ (by decide) _ _ htry) hn).elim
        · split at h
          · cases h
          · cases h; rcases hn with h | h <;> cases h
          · split at h
            · cases h
            · cases h; rcases hn with h | h <;> cases h
            · split at h
              · cases h; rcases hn with h | h <;> cases h
              · split at h
                · cases h; rcases hn with h | h <;> cases h
                · split at h
                  · cases h; rcases hn with h | h <;> cases h
                  · split at h
                    · rename_i hvalid
                      simp only [Option.some.injEq] at h
                      subst h
                      unfold tokenToString at hstr
                      simp only [hb, Option.some.injEq] at hstr
                      unfold classifyIdentifier at hn hs
                      dsimp only at hn hs
                      split at hn
                      · rename_i hcol
                        rw [if_pos hcol] at hs
                        split at hn
                        · rcases hn with h | h <;> cases h
                        · rename_i hdot
                          rw [if_neg hdot] at hs
                          split at hn
                          · rcases hn with h | h <;> cases h
                          · rename_i hres
                            rw [if_neg hres] at hs
                            unfold tokenToString at hs
                            simp only [hb, Option.some.injEq] at hs
                            have hpos : 0 < t.len := by
                              rcases Nat.eq_zero_or_pos t.len with e | e
                              · rw [← hstr, e] at hvalid; cases hvalid
                              · exact e
                            have hd : '.' ∉ str := by
                              rw [← schr_iff]; exact hdot
                            have e : str = x ++ [':'] := by
                              rw [← hstr, ← hs]
                              have h1 : t.len = t.len - 1 + 1 := by omega
                              rw [h1, List.take_add_one]
                              rw [show t.len - 1 + 1 - 1 = t.len - 1 by omega, hcol]
                              rfl
                            rw [e] at hvalid hd
                            exact valid_dropColon hvalid (fun h => hd (List.mem_append_left _ h))
                      · rename_i hcol
                        rw [if_neg hcol] at hs
                        unfold tokenToString at hs
                        simp only [hb, Option.some.injEq] at hs
                        rw [← hs, hstr]
                        exact hvalid
                    · cases h; exact (no hty hn).elim
      · cases h

theorem bom_length (src : List Char) : (stripBom src).length ≤ src.length := by
  unfold stripBom
  repeat' split
  all_goals simp

/-- The tokens of a source. -/
theorem real_token {w : Bool} {src : List Char} {toks toks' : List Token} (h1 : tokenize w src = some (.ok toks))
    (h2 : classifyTokens toks = some toks') {t' : Token} (ht : t' ∈ toks') : Real src t' := by
  obtain ⟨t, hm, hc⟩ := SemHeap.classify_mem h2 t' ht
  have hbeg : t.begin.isSome := by
    obtain ⟨its, _, _, h6⟩ := tokenizeFrom_sound (tokenize_ok h1)
    rcases h6 with h6 | h6
    · rw [h6] at hm
      simp only [realTokens, List.mem_filter] at hm
      exact hm.2
    · exfalso
      rw [h6, List.mem_singleton] at hm
      subst hm
      revert hc; simp [classifyToken]
  obtain ⟨l, hl⟩ := real_matches h1 t hm hbeg
  obtain ⟨after, hs, hb⟩ := hl.begin
  have hlen : t.len ≤ src.length := by
    have h3 := congrArg List.length hs
    have h4 := bom_length src
    rw [hl.len]
    simp only [List.length_append] at h3
    omega
  have hty : t.ty ≠ .newIdentifier ∧ t.ty ≠ .identifier := by
    rw [hl.ty]
    unfold kindType
    repeat' split
    all_goals simp
  refine ⟨?_, Nat.le_trans (classify_len hc) hlen, fun hn x hx => ?_⟩
  · unfold Text tokenToString
    rw [SemHeap.classify_begin hc, hb]
    exact ⟨_, rfl⟩
  · exact classify_valid hc hty hn hb (by rw [hl.len]; simp) hx

/- ### Positions -/

/-- The statement is written at this position in the tokens. -/
def PlacedIn (toks : List Token) (st : Stmt) (tok te : List Token) : Prop :=
  (∃ pre, toks = pre ++ tok) ∧ (∃ ts, Written tok ts st) ∧ ValueAt st te

theorem PlacedIn.mono {toks toks' pre : List Token} (h : toks = pre ++ toks') {st tok te} : PlacedIn toks' st tok te → PlacedIn toks st tok te
  | ⟨⟨p, h1⟩, h2⟩ => ⟨⟨pre ++ p, by rw [h, h1]; simp⟩, h2⟩

/-- A list of statements is written, or it is the empty node, perhaps with a block. -/
def RootIn (toks hd : List Token) (t : Tree) : Prop :=
  AllNodes (PlacedIn toks) t ∨ ∃ ch, t = .node .unknown hd [] ch .nil ∧ AllNodes (PlacedIn toks) ch

theorem allNodes_mono {P Q : Stmt → List Token → List Token → Prop} (h : ∀ a b c, P a b c → Q a b c) : ∀ {t}, AllNodes P t → AllNodes Q t
  | .nil, _ => trivial
  | .node .., h1 => ⟨h _ _ _ h1.1, allNodes_mono h h1.2.1, allNodes_mono h h1.2.2⟩

/-- Every statement built so far. -/
def DonePlacedIn (toks : List Token) (c : PCtx) : Prop :=
  AllNodes (PlacedIn toks) c.headChild ∧ ∀ n ∈ c.done, PlacedIn toks n.stmt n.tok n.tokEnd ∧ AllNodes (PlacedIn toks) n.child

structure TreesIn (f : Nat) : Prop where
  tree : ∀ lvl s T s', s.err = false → parseTree f lvl s = .ok (some T) s' → RootIn s.toks [] T
  nodes : ∀ lvl c b c' toks pre, c.ps.err = false → toks = pre ++ c.ps.toks → DonePlacedIn toks c → parseNodes f lvl c = .ok b c' →
    c'.ps.err = false → DonePlacedIn toks c'

theorem treesInAt : ∀ f, TreesIn f ∧ ∀ g < f, TreesIn g
  | 0 => by
    refine ⟨?_, by intro g hg; omega⟩
    constructor <;> intros <;> simp_all [parseTree, parseNodes]
  | f + 1 => by
    have ih := treesInAt f
    have ta := treeAt f
    refine ⟨?_, ?_⟩
    · constructor
      · intro lvl s T s' he h
        simp only [parseTree] at h
        split at h
        · simp at h
        · simp at h
        · rename_i b c hn
          split at h
          · simp at h
          · rename_i hce
            split at h
            · simp at h
            · simp at h
              obtain ⟨rfl, rfl⟩ := h
              obtain ⟨h1, h2⟩ := ih.1.nodes lvl { ps := s } b c s.toks [] he rfl ⟨trivial, (fun _ h => by cases h)⟩ hn (by simpa using hce)
              unfold PCtx.tree
              split
              · exact .inr ⟨_, rfl, h1⟩
              · exact .inl (linkNodes_nodes _ _ h2 trivial)
      · intro lvl c b c' toks pre he hp hd h he'
        simp only [parseNodes] at h
        split at h
        · simp at h
          rw [← h.2]; exact hd
        · rename_i t rest ht
          split at h
          · simp at h
          · simp at h
          · rename_i d c1 hn
            obtain ⟨_, hm, hs⟩ := ta.node lvl c d c1 he hn
            have key : c1.ps.err = false → DonePlacedIn toks c1 := by
              intro he1
              have : ∃ f', f' < f + 1 ∧ Moved f' lvl c d c1 := by
                rcases hm he1 with ⟨f', hf, h1⟩ | ⟨f', h1, hf⟩
                · exact ⟨f', by omega, h1⟩
                · exact ⟨f', by omega, h1⟩
              obtain ⟨f', hf', h1⟩ := this
              cases h1 with
              | closed _ _ _ => exact hd
              | skip h2 h3 => exact hd
              | push h2 =>
                obtain ⟨st, te, hw, hv, hc1⟩ := h2
                rw [hc1]
                refine ⟨trivial, fun n hn => ?_⟩
                simp only [PCtx.push, List.mem_cons] at hn
                rcases hn with rfl | hn
                · exact ⟨⟨⟨pre, hp⟩, ⟨_, hw⟩, hv⟩, hd.1⟩
                · exact hd.2 n hn
              | @block opn close inner rest' child s h2 h3 h4 h5 h6 h7 h8 =>
                have ihf : TreesIn f' := by
                  by_cases hff : f' = f
                  · rw [hff]; exact ih.1
                  · exact ih.2 f' (by omega)
                have hc := allNodes_mono (fun _ _ _ => PlacedIn.mono (toks := toks) (toks' := inner) (pre := pre ++ [opn]) (by rw [hp, h2]; simp))
                  (by
                    rcases ihf.tree _ _ _ _ rfl h5 with h | ⟨ch, rfl, _⟩
                    · exact h
                    · simp [Tree.hasToken] at h7)
                unfold PCtx.setChild
                split
                · rename_i h0
                  exact ⟨hc, (fun n hn => by rw [h0] at hn; cases hn)⟩
                · rename_i n ns h0
                  refine ⟨hd.1, fun m hm => ?_⟩
                  simp only [List.mem_cons] at hm
                  rcases hm with rfl | hm
                  · exact ⟨(hd.2 n (by rw [h0]; exact .head _)).1, hc⟩
                  · exact hd.2 m (by rw [h0]; exact .tail _ hm)
            split at h
            · simp at h
              obtain ⟨rfl, rfl⟩ := h
              exact key he'
            · rename_i hd'
              simp at hd'
              obtain ⟨pre', hp', _⟩ := hs hd'.2
              exact ih.1.nodes lvl c1 b c' toks (pre ++ pre') hd'.2 (by rw [hp, hp']; simp) (key hd'.2) h he'
    · intro g hg
      by_cases hgf : g = f
      · rw [hgf]; exact ih.1
      · exact ih.2 g (by omega)

theorem parsed_in {toks : List Token} {T : Tree} {s : PS} (h : parseAstTree toks = .ok (some T) s) : RootIn toks toks T := by
  unfold parseAstTree at h
  split at h
  · simp at h
  · simp at h
  · simp at h
  · rename_i t s1 ht
    split at h
    · simp at h
    · simp at h
      obtain ⟨rfl, rfl⟩ := h
      rcases (treesInAt _).1.tree _ _ _ _ rfl ht with h | ⟨ch, rfl, h⟩
      · left
        cases t with
        | nil => trivial
        | node st tok te ch nx =>
          simp only [Tree.setHead]
          split
          · rename_i h0
            refine ⟨?_, h.2⟩
            obtain ⟨_, ⟨ts, h1⟩, _⟩ := h.1
            obtain ⟨pre, h2, h3⟩ := written_suffix h1
            rw [h0] at h3
            exact absurd (List.append_eq_nil_iff.1 h3.symm).1 h2
          · exact h
      · exact .inr ⟨ch, by simp [Tree.setHead], h⟩

end Skull.SemDef
