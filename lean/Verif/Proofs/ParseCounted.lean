import Verif.Proofs.ParserMain
import Verif.Spec.Program
/-
Every statement in a parsed tree is written in the tokens; the numbers of arguments and parameters are right in short programs.
-/
namespace Skull
open Spec

/-- Every statement of a tree. -/
def AllStmts (P : Stmt → Prop) : Tree → Prop
  | .nil => True
  | .node stmt _ _ child next => P stmt ∧ AllStmts P child ∧ AllStmts P next

theorem AllStmts.mono {P Q : Stmt → Prop} (h : ∀ s, P s → Q s) : ∀ {t}, AllStmts P t → AllStmts Q t
  | .nil, _ => trivial
  | .node .., h1 => ⟨h _ h1.1, AllStmts.mono h h1.2.1, AllStmts.mono h h1.2.2⟩

/-- The statement is written somewhere in the tokens, or is the one that stands for an empty list. -/
def WrittenIn (toks : List Token) (st : Stmt) : Prop := st = .unknown ∨ ∃ pre pos ts, toks = pre ++ pos ∧ Written pos ts st

theorem WrittenIn.mono {toks toks' pre : List Token} (h : toks = pre ++ toks') {st} : WrittenIn toks' st → WrittenIn toks st
  | .inl h1 => .inl h1
  | .inr ⟨p, pos, ts, h1, h2⟩ => .inr ⟨pre ++ p, pos, ts, by rw [h, h1]; simp, h2⟩

/-- Every statement built so far. -/
def DoneIn (toks : List Token) (c : PCtx) : Prop :=
  AllStmts (WrittenIn toks) c.headChild ∧ ∀ n ∈ c.done, WrittenIn toks n.stmt ∧ AllStmts (WrittenIn toks) n.child

theorem linkNodes_all {P : Stmt → Prop} : ∀ (ns : List Node) (acc : Tree), (∀ n ∈ ns, P n.stmt ∧ AllStmts P n.child) →
    AllStmts P acc → AllStmts P (linkNodes ns acc)
  | [], _, _, h => h
  | n :: ns, acc, hn, h => by
    unfold linkNodes
    exact linkNodes_all ns _ (fun m hm => hn m (.tail _ hm)) ⟨(hn n (.head _)).1, (hn n (.head _)).2, h⟩

structure TreeWritten (f : Nat) : Prop where
  tree : ∀ lvl s T s', s.err = false → parseTree f lvl s = .ok (some T) s' → AllStmts (WrittenIn s.toks) T
  nodes : ∀ lvl c b c' toks pre, c.ps.err = false → toks = pre ++ c.ps.toks → DoneIn toks c → parseNodes f lvl c = .ok b c' →
    c'.ps.err = false → DoneIn toks c'

theorem treeWrittenAt : ∀ f, TreeWritten f ∧ ∀ g < f, TreeWritten g
  | 0 => by
    refine ⟨?_, by intro g hg; omega⟩
    constructor <;> intros <;> simp_all [parseTree, parseNodes]
  | f + 1 => by
    have ih := treeWrittenAt f
    have ta := treeAt f
    refine ⟨?_, ?_⟩
    · constructor
      · intro lvl s T s' he h
        simp only [parseTree] at h
        split at h
        · simp at h
        · simp at h
        · rename_i b c hn
          split at h
          · simp at h
          · rename_i hce
            split at h
            · simp at h
            · simp at h
              obtain ⟨rfl, rfl⟩ := h
              obtain ⟨h1, h2⟩ := ih.1.nodes lvl { ps := s } b c s.toks [] he rfl ⟨trivial, (fun _ h => by cases h)⟩ hn (by simpa using hce)
              unfold PCtx.tree
              split
              · exact ⟨.inl rfl, h1, trivial⟩
              · exact linkNodes_all _ _ h2 trivial
      · intro lvl c b c' toks pre he hp hd h he'
        simp only [parseNodes] at h
        split at h
        · simp at h
          rw [← h.2]; exact hd
        · rename_i t rest ht
          split at h
          · simp at h
          · simp at h
          · rename_i d c1 hn
            obtain ⟨_, hm, hs⟩ := ta.node lvl c d c1 he hn
            have key : c1.ps.err = false → DoneIn toks c1 := by
              intro he1
              have : ∃ f', f' < f + 1 ∧ Moved f' lvl c d c1 := by
                rcases hm he1 with ⟨f', hf, h1⟩ | ⟨f', h1, hf⟩
                · exact ⟨f', by omega, h1⟩
                · exact ⟨f', by omega, h1⟩
              obtain ⟨f', hf', h1⟩ := this
              cases h1 with
              | closed _ _ _ => exact hd
              | skip h2 h3 => exact hd
              | push h2 =>
                obtain ⟨st, te, hw, _, hc1⟩ := h2
                rw [hc1]
                refine ⟨trivial, fun n hn => ?_⟩
                simp only [PCtx.push, List.mem_cons] at hn
                rcases hn with rfl | hn
                · exact ⟨.inr ⟨pre, _, _, hp, hw⟩, hd.1⟩
                · exact hd.2 n hn
              | @block opn close inner rest' child s h2 h3 h4 h5 h6 h7 h8 =>
                have ihf : TreeWritten f' := by
                  by_cases hff : f' = f
                  · rw [hff]; exact ih.1
                  · exact ih.2 f' (by omega)
                have hc := (ihf.tree _ _ _ _ rfl h5).mono
                  (fun _ => WrittenIn.mono (toks := toks) (pre := pre ++ [opn]) (by rw [hp, h2]; simp))
                unfold PCtx.setChild
                split
                · rename_i h0
                  exact ⟨hc, (fun n hn => by rw [h0] at hn; cases hn)⟩
                · rename_i n ns h0
                  refine ⟨hd.1, fun m hm => ?_⟩
                  simp only [List.mem_cons] at hm
                  rcases hm with rfl | hm
                  · exact ⟨(hd.2 n (by rw [h0]; exact .head _)).1, hc⟩
                  · exact hd.2 m (by rw [h0]; exact .tail _ hm)
            split at h
            · simp at h
              obtain ⟨rfl, rfl⟩ := h
              exact key he'
            · rename_i hd'
              simp at hd'
              obtain ⟨pre', hp', _⟩ := hs hd'.2
              exact ih.1.nodes lvl c1 b c' toks (pre ++ pre') hd'.2 (by rw [hp, hp']; simp) (key hd'.2) h he'
    · intro g hg
      by_cases hgf : g = f
      · rw [hgf]; exact ih.1
      · exact ih.2 g (by omega)

theorem parsed_written {toks : List Token} {T : Tree} {s : PS} (h : parseAstTree toks = .ok (some T) s) :
    AllStmts (WrittenIn toks) T := by
  unfold parseAstTree at h
  split at h
  · simp at h
  · simp at h
  · simp at h
  · rename_i t s1 ht
    split at h
    · simp at h
    · simp at h
      obtain ⟨rfl, rfl⟩ := h
      have := (treeWrittenAt _).1.tree _ _ _ _ rfl ht
      cases t with
      | nil => trivial
      | node st tok te ch nx =>
        simp only [Tree.setHead]
        split <;> exact this

/- ### Numbers of arguments -/

/-- Whatever is not missing has something to read. -/
theorem read_pos : ∀ e : Expr, e ≠ .missing → 0 < (readExpr e).length
  | .missing, h => absurd rfl h
  | .ident _, _ => by simp [readExpr]
  | .const _, _ => by simp [readExpr]
  | .call .., _ => by simp [readExpr]
  | .un .., _ => by simp [readExpr]
  | .bin .., _ => by simp [readExpr]; omega

theorem count_read : ∀ as : Args, NumsOfArgs as → Args.count as ≤ (readArgs as).length
  | .nil, _ => by simp [Args.count]
  | .cons _ e r, h => by
    simp only [NumsOfArgs] at h
    have := read_pos e h.1
    have := count_read r h.2.2
    simp [Args.count, readArgs]; omega

mutual
theorem nums_counted : ∀ e : Expr, NumsOf e → (readExpr e).length < 65536 → Expr.Counted e
  | .missing, _, _ => trivial
  | .ident _, _, _ => trivial
  | .const _, _, _ => trivial
  | .call _ as num, h, hl => by
    simp only [NumsOf] at h
    simp only [readExpr, List.length_cons] at hl
    have := count_read as h.1
    have h2 : num = Args.count as := by rw [h.2]; exact Nat.mod_eq_of_lt (by omega)
    simp only [Expr.Counted, h2]
    exact nums_args as h.1 (by omega)
  | .un _ e, h, hl => by
    simp only [NumsOf] at h
    simp only [readExpr, List.length_cons] at hl
    exact nums_counted e h (by omega)
  | .bin _ l r, h, hl => by
    simp only [NumsOf] at h
    simp only [readExpr, List.length_append, List.length_cons] at hl
    exact ⟨nums_counted l h.1 (by omega), nums_counted r h.2 (by omega)⟩
theorem nums_args : ∀ as : Args, NumsOfArgs as → (readArgs as).length < 65536 → Args.Counted as (Args.count as)
  | .nil, _, _ => rfl
  | .cons _ e r, h, hl => by
    simp only [NumsOfArgs] at h
    simp only [readArgs, List.length_append] at hl
    exact ⟨nums_counted e h.2.1 (by omega), _, rfl, nums_args r h.2.2 (by omega)⟩
end

theorem items_len : ∀ ts : List Token, (items ts).length ≤ ts.length
  | [] => by simp [items]
  | t :: ts => by
    have := items_len ts
    unfold items
    split
    · simp; omega
    · split <;> simp <;> omega

theorem exprOf_counted {ex : List Token} {e : Expr} (h : ExprOf ex e) (hl : ex.length < 65536) : Expr.Counted e :=
  nums_counted e h.2.2.1 (by rw [h.2.1]; have := items_len ex; omega)

theorem written_counted {pos ts : List Token} {st : Stmt} (h : Written pos ts st) (hl : pos.length < 65536) : StmtCounted st := by
  cases h with
  | returnExpr _ h => exact exprOf_counted h (by simp at hl; omega)
  | «if» _ h => exact exprOf_counted h (by simp at hl; omega)
  | elif _ h => exact exprOf_counted h (by simp at hl; omega)
  | «while» _ h => exact exprOf_counted h (by simp at hl; omega)
  | implicit _ _ _ h => exact exprOf_counted h (by simp at hl; omega)
  | explicit _ _ _ h => exact exprOf_counted h (by simp at hl; omega)
  | assign _ _ h => exact exprOf_counted h (by simp at hl; omega)
  | expr h => exact exprOf_counted h (by simp at hl; omega)
  | @func _ _ _ _ _ _ _ _ _ params =>
    simp only [StmtCounted, List.length_take]
    have := Nat.mod_le params.length 65536
    omega
  | _ => trivial

theorem allStmts_counted : ∀ {t : Tree}, AllStmts StmtCounted t → Counted t
  | .nil, _ => trivial
  | .node .., h => ⟨h.1, allStmts_counted h.2.1, allStmts_counted h.2.2⟩

/-- In a program of fewer than 65536 tokens the numbers of arguments are right. -/
theorem parsed_counted {toks : List Token} {T : Tree} {s : PS} (h : parseAstTree toks = .ok (some T) s) (hl : toks.length < 65536) :
    Counted T := by
  refine allStmts_counted ((parsed_written h).mono ?_)
  rintro st (rfl | ⟨pre, pos, ts, h1, h2⟩)
  · trivial
  · exact written_counted h2 (by rw [h1] at hl; simp at hl; omega)

end Skull
