import Verif.Proofs.ExprTree
/-
When the tree of a chain honours precedence.
-/
namespace Skull
open Spec

/-- The level of the root operator; 0 for a leaf, a call or parentheses. -/
def rootLevel : G → Nat
  | .un t _ => (unLevel t.ty).getD 0
  | .bare t => (unLevel t.ty).getD 0
  | .bin t _ _ => (binLevel t.ty).getD 0
  | _ => 0

/-- The levels open at the right end below the root. -/
def innerLevels : G → List Nat
  | .un _ g => g.rightLevels
  | .bin _ _ r => r.rightLevels
  | _ => []

theorem gAtom_right (a : Atom) : (gAtom a).rightLevels = [] := by cases a <;> simp [gAtom, G.rightLevels]
theorem gAtom_left (a : Atom) : (gAtom a).leftLevels = [] := by cases a <;> simp [gAtom, G.leftLevels]
theorem gOperand_left (o : Operand) : (gOperand o).leftLevels = [] := by
  cases o <;> simp [gOperand, G.leftLevels, gAtom_left]

/-- The levels open at the right end of an operand after the first. -/
theorem gOperand_right (c : Chain) (t : Token) (o : Operand) (hw : o.WF) :
    ∀ q ∈ (gOperand o).rightLevels, (Chain.more c t o).lastPrefix = some q := by
  intro q hq
  cases o with
  | plain a => simp [gOperand, gAtom_right] at hq
  | pre u a =>
    simp only [Operand.WF] at hw
    obtain ⟨v, hv⟩ := Option.isSome_iff_exists.1 hw.1
    simp [gOperand, G.rightLevels, gAtom_right, hv] at hq
    simp [Chain.lastPrefix, hv, hq]
  | bare u =>
    simp only [Operand.WF] at hw
    obtain ⟨v, hv⟩ := Option.isSome_iff_exists.1 hw
    simp [gOperand, G.rightLevels, hv] at hq
    simp [Chain.lastPrefix, hv, hq]

theorem unLevel_three (ty : TokType) : (unLevel ty).getD 0 ≤ 3 := by cases ty <;> simp [unLevel]

/-- What is open at the right end of the tree of a chain. -/
structure Shape (c : Chain) : Prop where
  inner : ∀ q ∈ innerLevels (gChain c), (c.levels.head? = some q ∧ q < rootLevel (gChain c)) ∨ c.lastPrefix = some q
  root : rootLevel (gChain c) ∈ c.levels ∨ rootLevel (gChain c) ≤ 3
  top : ∀ q ∈ c.levels, q ≤ rootLevel (gChain c)

theorem shape_one (o : Operand) : Shape (.one o) := by
  cases o with
  | plain a => cases a <;> constructor <;> simp [gChain, gOperand, gAtom, innerLevels, rootLevel, Chain.levels]
  | pre t a => constructor <;> simp [gChain, gOperand, innerLevels, gAtom_right, rootLevel, Chain.levels, unLevel_three]
  | bare t => constructor <;> simp [gChain, gOperand, innerLevels, rootLevel, Chain.levels, unLevel_three]

theorem gAttach_rotate_un {u t : Token} {x r : G} (h : (unLevel u.ty).getD 0 > (binLevel t.ty).getD 0) :
    gAttach (.un u x) t r = .un u (.bin t x r) := by simp [gAttach, h]
theorem gAttach_rotate_bin {u t : Token} {l x r : G} (h : (binLevel u.ty).getD 0 > (binLevel t.ty).getD 0) :
    gAttach (.bin u l x) t r = .bin u l (.bin t x r) := by simp [gAttach, h]
theorem gAttach_stay {g : G} {t : Token} {r : G} (hb : ∀ u, g ≠ .bare u) (h : rootLevel g ≤ (binLevel t.ty).getD 0) :
    gAttach g t r = .bin t g r := by
  cases g with
  | un u x => simp only [rootLevel] at h; simp only [gAttach]; rw [if_neg (by omega)]
  | bin u l x => simp only [rootLevel] at h; simp only [gAttach]; rw [if_neg (by omega)]
  | bare u => exact absurd rfl (hb u)
  | leaf => rfl
  | call => rfl
  | group => rfl

theorem gChain_not_bare {c : Chain} (h : c.Full) (u : Token) : gChain c ≠ .bare u := by
  cases c with
  | one o =>
    cases o with
    | plain a => cases a <;> simp [gChain, gOperand, gAtom]
    | pre t a => simp [gChain, gOperand]
    | bare t => simp [Chain.Full, Operand.Full] at h
  | more c t o => exact gAttach_not_bare _ _ _ _

theorem shape_more {c : Chain} {t : Token} {o : Operand} (ih : Shape c) (hf : c.Full) (hw : o.WF) :
    Shape (.more c t o) := by
  have hor := gOperand_right c t o hw
  have hnb := gChain_not_bare hf
  by_cases hstay : rootLevel (gChain c) ≤ (binLevel t.ty).getD 0
  · have he : gChain (.more c t o) = .bin t (gChain c) (gOperand o) := by
      simp only [gChain]; exact gAttach_stay hnb hstay
    constructor
    · intro q hq
      rw [he] at hq
      exact .inr (hor q hq)
    · rw [he]; left; simp [rootLevel, Chain.levels]
    · rw [he]
      intro q hq
      simp only [Chain.levels, List.mem_cons] at hq
      rcases hq with rfl | hq
      · exact Nat.le_refl _
      · exact Nat.le_trans (ih.top q hq) hstay
  · have hrot : rootLevel (gChain c) > (binLevel t.ty).getD 0 := by omega
    have key : (rootLevel (gChain (.more c t o)) = rootLevel (gChain c)) ∧
        innerLevels (gChain (.more c t o)) = (binLevel t.ty).getD 0 :: (gOperand o).rightLevels := by
      simp only [gChain]
      cases hg : gChain c with
      | un u x => rw [hg] at hrot; rw [gAttach_rotate_un hrot]; simp [rootLevel, innerLevels, G.rightLevels]
      | bin u l x => rw [hg] at hrot; rw [gAttach_rotate_bin hrot]; simp [rootLevel, innerLevels, G.rightLevels]
      | leaf => simp [hg, rootLevel] at hrot
      | call => simp [hg, rootLevel] at hrot
      | group => simp [hg, rootLevel] at hrot
      | bare u => exact absurd hg (hnb u)
    constructor
    · intro q hq
      rw [key.2] at hq
      rw [key.1]
      simp only [List.mem_cons] at hq
      rcases hq with rfl | hq
      · left; simp only [Chain.levels, List.head?_cons]; exact ⟨trivial, hrot⟩
      · exact .inr (hor q hq)
    · rw [key.1]
      rcases ih.root with h | h
      · left; simp [Chain.levels, h]
      · exact .inr h
    · rw [key.1]
      intro q hq
      simp only [Chain.levels, List.mem_cons] at hq
      rcases hq with rfl | hq
      · omega
      · exact ih.top q hq

theorem shape : ∀ c : Chain, c.WF → c.Full → Shape c
  | .one o, _, _ => shape_one o
  | .more c t o, hw, hf => by
    simp only [Chain.WF, Chain.Full] at hw hf
    exact shape_more (shape c hw.1 hf.1) hf.1 hw.2.2

theorem wellPrec_more {c : Chain} {t : Token} {o : Operand} (hw : (Chain.more c t o).WF) (hf : (Chain.more c t o).Full)
    (hs : (Chain.more c t o).SafePrec) (hc : (gChain c).WellPrec) (ho : (gOperand o).WellPrec) :
    (gChain (.more c t o)).WellPrec := by
  simp only [Chain.WF, Chain.Full, Chain.SafePrec] at hw hf hs
  have sh := shape c hw.1 hf.1
  have hnb := gChain_not_bare hf.1
  have h2 := binLevel_two hw.2.1
  -- what is open below the root of the tree so far is not looser than the new operator
  have hin : ∀ q ∈ innerLevels (gChain c), q ≤ (binLevel t.ty).getD 0 := by
    intro q hq
    rcases sh.inner q hq with ⟨h1, h3⟩ | h1
    · by_cases hlt : (binLevel t.ty).getD 0 < q
      · have hall := hs.2.2.1 q h1 hlt
        rcases sh.root with h | h
        · have := hall _ h; omega
        · omega
      · omega
    · exact hs.2.2.2 q h1
  by_cases hstay : rootLevel (gChain c) ≤ (binLevel t.ty).getD 0
  · simp only [gChain]
    rw [gAttach_stay hnb hstay]
    simp only [G.WellPrec]
    refine ⟨hc, ho, ?_, by simp [gOperand_left]⟩
    intro q hq
    cases hg : gChain c with
    | un u x => rw [hg] at hq hin hstay; simp only [G.rightLevels, List.mem_cons, rootLevel, innerLevels] at hq hin hstay
                rcases hq with rfl | hq
                · exact hstay
                · exact hin q hq
    | bin u l x => rw [hg] at hq hin hstay; simp only [G.rightLevels, List.mem_cons, rootLevel, innerLevels] at hq hin hstay
                   rcases hq with rfl | hq
                   · exact hstay
                   · exact hin q hq
    | leaf => simp [hg, G.rightLevels] at hq
    | call => simp [hg, G.rightLevels] at hq
    | group => simp [hg, G.rightLevels] at hq
    | bare u => exact absurd hg (hnb u)
  · have hrot : rootLevel (gChain c) > (binLevel t.ty).getD 0 := by omega
    simp only [gChain]
    cases hg : gChain c with
    | un u x =>
      rw [hg] at hrot hc hin
      rw [gAttach_rotate_un hrot]
      simp only [G.WellPrec, rootLevel, innerLevels] at *
      refine ⟨⟨hc.1, ho, hin, by simp [gOperand_left]⟩, ?_⟩
      intro q hq
      simp only [G.leftLevels, List.mem_cons] at hq
      rcases hq with rfl | hq
      · exact hrot
      · exact hc.2 q hq
    | bin u l x =>
      rw [hg] at hrot hc hin
      rw [gAttach_rotate_bin hrot]
      simp only [G.WellPrec, rootLevel, innerLevels] at *
      refine ⟨hc.1, ⟨hc.2.1, ho, hin, by simp [gOperand_left]⟩, hc.2.2.1, ?_⟩
      intro q hq
      simp only [G.leftLevels, List.mem_cons] at hq
      rcases hq with rfl | hq
      · exact hrot
      · exact hc.2.2.2 q hq
    | leaf => simp [hg, rootLevel] at hrot
    | call => simp [hg, rootLevel] at hrot
    | group => simp [hg, rootLevel] at hrot
    | bare u => exact absurd hg (hnb u)

mutual
theorem wellPrec_atom : ∀ a : Atom, a.WF → a.Full → a.SafePrec → (gAtom a).WellPrec
  | .leaf t, _, _, _ => by simp [gAtom, G.WellPrec]
  | .call n o as c, hw, hf, hs => by
    simp only [Atom.WF, Atom.Full, Atom.SafePrec] at hw hf hs
    simpa only [gAtom, G.WellPrec] using wellPrec_seq as hw.2.2.1 hf hs
  | .group o c cl, hw, hf, hs => by
    simp only [Atom.WF, Atom.Full, Atom.SafePrec] at hw hf hs
    simpa only [gAtom, G.WellPrec] using wellPrec_chain c hw.2.1 hf hs
theorem wellPrec_operand : ∀ o : Operand, o.WF → o.Full → o.SafePrec → (gOperand o).WellPrec
  | .plain a, hw, hf, hs => by
    simp only [Operand.WF, Operand.Full, Operand.SafePrec] at hw hf hs
    simpa only [gOperand] using wellPrec_atom a hw hf hs
  | .pre t a, hw, hf, hs => by
    simp only [Operand.WF, Operand.Full, Operand.SafePrec] at hw hf hs
    simp only [gOperand, G.WellPrec]
    exact ⟨wellPrec_atom a hw.2 hf hs, by simp [gAtom_left]⟩
  | .bare t, _, hf, _ => by simp only [Operand.Full] at hf
theorem wellPrec_chain : ∀ c : Chain, c.WF → c.Full → c.SafePrec → (gChain c).WellPrec
  | .one o, hw, hf, hs => by
    simp only [Chain.WF, Chain.Full, Chain.SafePrec] at hw hf hs
    simpa only [gChain] using wellPrec_operand o hw hf hs
  | .more c t o, hw, hf, hs => by
    have hw' := hw; have hf' := hf; have hs' := hs
    simp only [Chain.WF, Chain.Full, Chain.SafePrec] at hw' hf' hs'
    exact wellPrec_more hw hf hs (wellPrec_chain c hw'.1 hf'.1 hs'.1) (wellPrec_operand o hw'.2.2 hf'.2 hs'.2.1)
theorem wellPrec_seq : ∀ q : Seq, q.WF → q.Full → q.SafePrec → (gSeq q).WellPrec
  | .nil, _, _, _ => by simp [gSeq, GSeq.WellPrec]
  | .last c, hw, hf, hs => by
    simp only [Seq.WF, Seq.Full, Seq.SafePrec] at hw hf hs
    simpa only [gSeq, GSeq.WellPrec] using wellPrec_chain c hw hf hs
  | .cons c t r, hw, hf, hs => by
    simp only [Seq.WF, Seq.Full, Seq.SafePrec] at hw hf hs
    simp only [gSeq, GSeq.WellPrec]
    exact ⟨wellPrec_chain c hw.1 hf.1 hs.1, wellPrec_seq r hw.2.2 hf.2 hs.2⟩
end

end Skull
