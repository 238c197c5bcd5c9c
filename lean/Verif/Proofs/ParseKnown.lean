import Verif.Proofs.ParseCounted
import Verif.Spec.Generates
/-
Only the tree of an empty program has a statement of no kind.
-/
namespace Skull
open Spec

abbrev Named (st : Stmt) : Prop := st ≠ .unknown

/-- Every statement built so far. -/
def DoneNamed (c : PCtx) : Prop := AllStmts Named c.headChild ∧ ∀ n ∈ c.done, Named n.stmt ∧ AllStmts Named n.child

/-- The tree of an empty list, or one with statements. -/
def TreeNamed (T : Tree) : Prop := (∃ child, T = .node .unknown [] [] child .nil ∧ AllStmts Named child) ∨ AllStmts Named T

theorem TreeNamed.of_token {T : Tree} (h : TreeNamed T) (ht : T.hasToken = true) : AllStmts Named T := by
  rcases h with ⟨c, rfl, _⟩ | h
  · simp [Tree.hasToken] at ht
  · exact h

theorem written_named {pos ts : List Token} {st : Stmt} (h : Written pos ts st) : Named st := by
  cases h <;> simp

structure TreesNamed (f : Nat) : Prop where
  tree : ∀ lvl s T s', s.err = false → parseTree f lvl s = .ok (some T) s' → TreeNamed T
  nodes : ∀ lvl c b c', c.ps.err = false → DoneNamed c → parseNodes f lvl c = .ok b c' → c'.ps.err = false → DoneNamed c'

theorem treesNamedAt : ∀ f, TreesNamed f ∧ ∀ g < f, TreesNamed g
  | 0 => by
    refine ⟨?_, by intro g hg; omega⟩
    constructor <;> intros <;> simp_all [parseTree, parseNodes]
  | f + 1 => by
    have ih := treesNamedAt f
    have ta := treeAt f
    refine ⟨?_, ?_⟩
    · constructor
      · intro lvl s T s' he h
        simp only [parseTree] at h
        split at h
        · simp at h
        · simp at h
        · rename_i b c hn
          split at h
          · simp at h
          · rename_i hce
            split at h
            · simp at h
            · simp at h
              obtain ⟨rfl, rfl⟩ := h
              obtain ⟨h1, h2⟩ := ih.1.nodes lvl { ps := s } b c he ⟨trivial, (fun _ h => by cases h)⟩ hn (by simpa using hce)
              unfold PCtx.tree
              split
              · exact .inl ⟨_, rfl, h1⟩
              · exact .inr (linkNodes_all _ _ h2 trivial)
      · intro lvl c b c' he hd h he'
        simp only [parseNodes] at h
        split at h
        · simp at h
          rw [← h.2]; exact hd
        · rename_i t rest ht
          split at h
          · simp at h
          · simp at h
          · rename_i d c1 hn
            obtain ⟨_, hm, hs⟩ := ta.node lvl c d c1 he hn
            have key : c1.ps.err = false → DoneNamed c1 := by
              intro he1
              have : ∃ f', f' < f + 1 ∧ Moved f' lvl c d c1 := by
                rcases hm he1 with ⟨f', hf, h1⟩ | ⟨f', h1, hf⟩
                · exact ⟨f', by omega, h1⟩
                · exact ⟨f', by omega, h1⟩
              obtain ⟨f', hf', h1⟩ := this
              cases h1 with
              | closed _ _ _ => exact hd
              | skip h2 h3 => exact hd
              | push h2 =>
                obtain ⟨st, te, hw, _, hc1⟩ := h2
                rw [hc1]
                refine ⟨trivial, fun n hn => ?_⟩
                simp only [PCtx.push, List.mem_cons] at hn
                rcases hn with rfl | hn
                · exact ⟨written_named hw, hd.1⟩
                · exact hd.2 n hn
              | @block opn close inner rest' child s h2 h3 h4 h5 h6 h7 h8 =>
                have ihf : TreesNamed f' := by
                  by_cases hff : f' = f
                  · rw [hff]; exact ih.1
                  · exact ih.2 f' (by omega)
                have hc := (ihf.tree _ _ _ _ rfl h5).of_token (by assumption)
                unfold PCtx.setChild
                split
                · rename_i h0
                  exact ⟨hc, (fun n hn => by rw [h0] at hn; cases hn)⟩
                · rename_i n ns h0
                  refine ⟨hd.1, fun m hm => ?_⟩
                  simp only [List.mem_cons] at hm
                  rcases hm with rfl | hm
                  · exact ⟨(hd.2 n (by rw [h0]; exact .head _)).1, hc⟩
                  · exact hd.2 m (by rw [h0]; exact .tail _ hm)
            split at h
            · simp at h
              obtain ⟨rfl, rfl⟩ := h
              exact key he'
            · rename_i hd'
              simp at hd'
              exact ih.1.nodes lvl c1 b c' hd'.2 (key hd'.2) h he'
    · intro g hg
      by_cases hgf : g = f
      · rw [hgf]; exact ih.1
      · exact ih.2 g (by omega)

theorem parsed_named {toks : List Token} {T : Tree} {s : PS} (h : parseAstTree toks = .ok (some T) s) :
    (∃ tok child, T = .node .unknown tok [] child .nil ∧ AllStmts Named child) ∨ AllStmts Named T := by
  unfold parseAstTree at h
  split at h
  · simp at h
  · simp at h
  · simp at h
  · rename_i t s1 ht
    split at h
    · simp at h
    · simp at h
      obtain ⟨rfl, rfl⟩ := h
      have := (treesNamedAt _).1.tree _ _ _ _ rfl ht
      rcases this with ⟨c, rfl, hc⟩ | this
      · exact .inl ⟨toks, c, by simp [Tree.setHead], hc⟩
      · right
        cases t with
        | nil => trivial
        | node st tok te ch nx =>
          simp only [Tree.setHead]
          split <;> exact this

end Skull
