import Verif.Proofs.ParseCounted
/-
Every statement of a parsed tree is written at its position.
-/
namespace Skull
open Spec

/-- Every statement of a tree, with its positions. -/
def AllNodes (P : Stmt → List Token → List Token → Prop) : Tree → Prop
  | .nil => True
  | .node stmt tok te child next => P stmt tok te ∧ AllNodes P child ∧ AllNodes P next

/-- The statement is written at this position, or is the one that stands for an empty list. -/
def AsWritten (st : Stmt) (tok te : List Token) : Prop := st = .unknown ∨ ((∃ ts, Written tok ts st) ∧ ValueAt st te)

/-- Every statement built so far. -/
def DonePlaced (c : PCtx) : Prop :=
  AllNodes AsWritten c.headChild ∧ ∀ n ∈ c.done, AsWritten n.stmt n.tok n.tokEnd ∧ AllNodes AsWritten n.child

theorem linkNodes_nodes {P : Stmt → List Token → List Token → Prop} : ∀ (ns : List Node) (acc : Tree),
    (∀ n ∈ ns, P n.stmt n.tok n.tokEnd ∧ AllNodes P n.child) → AllNodes P acc → AllNodes P (linkNodes ns acc)
  | [], _, _, h => h
  | n :: ns, acc, hn, h => by
    unfold linkNodes
    exact linkNodes_nodes ns _ (fun m hm => hn m (.tail _ hm)) ⟨(hn n (.head _)).1, (hn n (.head _)).2, h⟩

structure TreesPlaced (f : Nat) : Prop where
  tree : ∀ lvl s T s', s.err = false → parseTree f lvl s = .ok (some T) s' → AllNodes AsWritten T
  nodes : ∀ lvl c b c', c.ps.err = false → DonePlaced c → parseNodes f lvl c = .ok b c' → c'.ps.err = false → DonePlaced c'

theorem treesPlacedAt : ∀ f, TreesPlaced f ∧ ∀ g < f, TreesPlaced g
  | 0 => by
    refine ⟨?_, by intro g hg; omega⟩
    constructor <;> intros <;> simp_all [parseTree, parseNodes]
  | f + 1 => by
    have ih := treesPlacedAt f
    have ta := treeAt f
    refine ⟨?_, ?_⟩
    · constructor
      · intro lvl s T s' he h
        simp only [parseTree] at h
        split at h
        · simp at h
        · simp at h
        · rename_i b c hn
          split at h
          · simp at h
          · rename_i hce
            split at h
            · simp at h
            · simp at h
              obtain ⟨rfl, rfl⟩ := h
              obtain ⟨h1, h2⟩ := ih.1.nodes lvl { ps := s } b c he ⟨trivial, (fun _ h => by cases h)⟩ hn (by simpa using hce)
              unfold PCtx.tree
              split
              · exact ⟨.inl rfl, h1, trivial⟩
              · exact linkNodes_nodes _ _ h2 trivial
      · intro lvl c b c' he hd h he'
        simp only [parseNodes] at h
        split at h
        · simp at h
          rw [← h.2]; exact hd
        · rename_i t rest ht
          split at h
          · simp at h
          · simp at h
          · rename_i d c1 hn
            obtain ⟨_, hm, hs⟩ := ta.node lvl c d c1 he hn
            have key : c1.ps.err = false → DonePlaced c1 := by
              intro he1
              have : ∃ f', f' < f + 1 ∧ Moved f' lvl c d c1 := by
                rcases hm he1 with ⟨f', hf, h1⟩ | ⟨f', h1, hf⟩
                · exact ⟨f', by omega, h1⟩
                · exact ⟨f', by omega, h1⟩
              obtain ⟨f', hf', h1⟩ := this
              cases h1 with
              | closed _ _ _ => exact hd
              | skip h2 h3 => exact hd
              | push h2 =>
                obtain ⟨st, te, hw, hv, hc1⟩ := h2
                rw [hc1]
                refine ⟨trivial, fun n hn => ?_⟩
                simp only [PCtx.push, List.mem_cons] at hn
                rcases hn with rfl | hn
                · exact ⟨.inr ⟨⟨_, hw⟩, hv⟩, hd.1⟩
                · exact hd.2 n hn
              | @block opn close inner rest' child s h2 h3 h4 h5 h6 h7 h8 =>
                have ihf : TreesPlaced f' := by
                  by_cases hff : f' = f
                  · rw [hff]; exact ih.1
                  · exact ih.2 f' (by omega)
                have hc := ihf.tree _ _ _ _ rfl h5
                unfold PCtx.setChild
                split
                · rename_i h0
                  exact ⟨hc, (fun n hn => by rw [h0] at hn; cases hn)⟩
                · rename_i n ns h0
                  refine ⟨hd.1, fun m hm => ?_⟩
                  simp only [List.mem_cons] at hm
                  rcases hm with rfl | hm
                  · exact ⟨(hd.2 n (by rw [h0]; exact .head _)).1, hc⟩
                  · exact hd.2 m (by rw [h0]; exact .tail _ hm)
            split at h
            · simp at h
              obtain ⟨rfl, rfl⟩ := h
              exact key he'
            · rename_i hd'
              simp at hd'
              exact ih.1.nodes lvl c1 b c' hd'.2 (key hd'.2) h he'
    · intro g hg
      by_cases hgf : g = f
      · rw [hgf]; exact ih.1
      · exact ih.2 g (by omega)

theorem parsed_placed {toks : List Token} {T : Tree} {s : PS} (h : parseAstTree toks = .ok (some T) s) : AllNodes AsWritten T := by
  unfold parseAstTree at h
  split at h
  · simp at h
  · simp at h
  · simp at h
  · rename_i t s1 ht
    split at h
    · simp at h
    · simp at h
      obtain ⟨rfl, rfl⟩ := h
      have := (treesPlacedAt _).1.tree _ _ _ _ rfl ht
      cases t with
      | nil => trivial
      | node st tok te ch nx =>
        simp only [Tree.setHead]
        split
        · rename_i h0
          refine ⟨?_, this.2⟩
          rcases this.1 with h1 | ⟨⟨ts, h1⟩, _⟩
          · exact .inl h1
          · obtain ⟨pre, h2, h3⟩ := written_suffix h1
            rw [h0] at h3
            exact absurd (List.append_eq_nil_iff.1 h3.symm).1 h2
        · exact this

end Skull
