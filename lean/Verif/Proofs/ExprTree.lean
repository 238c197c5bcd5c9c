import Verif.Proofs.ExprSound
/-
The trees of chains: reading them back, and the trees with parentheses they come from.
-/
namespace Skull
open Spec

/- ### Reading back -/

theorem read_attach (l : Expr) (o : Oper) (r : Expr) :
    readExpr (attach l o r) = readExpr l ++ .op (spelling o) :: readExpr r := by
  unfold attach
  split
  · cases l <;> simp [readExpr]
  · simp [readExpr]

theorem items_append (a b : List Token) : items (a ++ b) = items a ++ items b := by
  induction a with
  | nil => rfl
  | cons t ts ih =>
    simp only [List.cons_append, items, ih]
    split
    · rfl
    · split <;> rfl

theorem items_punct {t : Token} (ts : List Token) (h : t.ty = .parenOpen ∨ t.ty = .parenClose ∨ t.ty = .comma) :
    items (t :: ts) = items ts := by
  simp only [items, if_pos h]

theorem items_leaf {t : Token} (ts : List Token) (h : isName t = true ∨ isLiteral t = true) :
    items (t :: ts) = .leaf t :: items ts := by
  have h1 : ¬(t.ty = .parenOpen ∨ t.ty = .parenClose ∨ t.ty = .comma) := by
    intro h2
    rcases h2 with h2 | h2 | h2 <;> simp [isName, isLiteral, h2] at h
  simp only [items, if_neg h1, if_pos h]

theorem items_bin {t : Token} (ts : List Token) (h : (binLevel t.ty).isSome = true) :
    items (t :: ts) = .op t.ty :: items ts := by
  have h1 : ¬(t.ty = .parenOpen ∨ t.ty = .parenClose ∨ t.ty = .comma) := by
    intro h2
    rcases h2 with h2 | h2 | h2 <;> simp [binLevel, h2] at h
  have h2 : ¬(isName t = true ∨ isLiteral t = true) := by
    intro h2
    simp [isName, isLiteral] at h2
    rcases h2 with (h2 | h2) | (((h2 | h2) | h2) | h2) | h2 <;> simp [binLevel, h2] at h
  simp only [items, if_neg h1, if_neg h2]

theorem items_un {t : Token} (ts : List Token) (h : (unLevel t.ty).isSome = true) :
    items (t :: ts) = .op t.ty :: items ts := by
  have h1 : ¬(t.ty = .parenOpen ∨ t.ty = .parenClose ∨ t.ty = .comma) := by
    intro h2
    rcases h2 with h2 | h2 | h2 <;> simp [unLevel, h2] at h
  have h2 : ¬(isName t = true ∨ isLiteral t = true) := by
    intro h2
    simp [isName, isLiteral] at h2
    rcases h2 with (h2 | h2) | (((h2 | h2) | h2) | h2) | h2 <;> simp [unLevel, h2] at h
  simp only [items, if_neg h1, if_neg h2]

theorem spelling_bin {ty : TokType} (h : (binLevel ty).isSome = true) : spelling (binaryOper ty) = ty := by
  cases ty <;> simp [binLevel, binaryOper, spelling] at *

theorem spelling_un {ty : TokType} (h : (unLevel ty).isSome = true) : spelling (unaryOper ty) = ty := by
  cases ty <;> simp [unLevel, unaryOper, spelling] at *

mutual
theorem read_atom : ∀ a : Atom, a.WF → readExpr (buildAtom a) = items a.tokens
  | .leaf t, h => by
    simp only [Atom.WF] at h
    simp only [buildAtom, Atom.tokens, items_leaf [] h]
    split <;> simp [readExpr, items]
  | .call n o as c, h => by
    simp only [Atom.WF] at h
    have ih := read_seq as h.2.2.1
    simp only [buildAtom, Atom.tokens, readExpr, items_leaf _ (.inl h.1), items_punct _ (.inl h.2.1), items_append,
      items_punct _ (.inr (.inl h.2.2.2)), ih]
    simp [items]
  | .group o c cl, h => by
    simp only [Atom.WF] at h
    have ih := read_chain c h.2.1
    simp only [buildAtom, Atom.tokens, items_punct _ (.inl h.1), items_append, items_punct _ (.inr (.inl h.2.2)), ih]
    simp [items]
theorem read_operand : ∀ o : Operand, o.WF → readExpr (buildOperand o) = items o.tokens
  | .plain a, h => by
    simp only [Operand.WF] at h
    simpa only [buildOperand, Operand.tokens] using read_atom a h
  | .pre t a, h => by
    simp only [Operand.WF] at h
    simp only [buildOperand, Operand.tokens, readExpr, items_un _ h.1, spelling_un h.1, read_atom a h.2]
  | .bare t, h => by
    simp only [Operand.WF] at h
    simp only [buildOperand, Operand.tokens, readExpr, items_un _ h, spelling_un h, items]
theorem read_chain : ∀ c : Chain, c.WF → readExpr (buildChain c) = items c.tokens
  | .one o, h => by
    simp only [Chain.WF] at h
    simpa only [buildChain, Chain.tokens] using read_operand o h
  | .more c t o, h => by
    simp only [Chain.WF] at h
    simp only [buildChain, Chain.tokens, read_attach, items_append, items_bin _ h.2.1, spelling_bin h.2.1,
      read_chain c h.1, read_operand o h.2.2]
theorem read_seq : ∀ q : Seq, q.WF → readArgs (buildSeq q) = items q.tokens
  | .nil, _ => by simp [buildSeq, readArgs, Seq.tokens, items]
  | .last c, h => by
    simp only [Seq.WF] at h
    simp [buildSeq, readArgs, Seq.tokens, read_chain c h]
  | .cons c t r, h => by
    simp only [Seq.WF] at h
    simp only [buildSeq, readArgs, Seq.tokens, items_append, items_punct _ (.inr (.inr h.2.1)), read_chain c h.1,
      read_seq r h.2.2]
end

/- ### The number of arguments -/

theorem attach_some (l : Expr) (o : Oper) (r : Expr) : attach l o r ≠ .missing := by
  unfold attach
  split
  · cases l <;> simp
  · simp

theorem build_some : ∀ c : Chain, buildChain c ≠ .missing
  | .one (.plain (.leaf t)) => by simp only [buildChain, buildOperand, buildAtom]; split <;> simp
  | .one (.plain (.call n o as c)) => by simp [buildChain, buildOperand, buildAtom]
  | .one (.plain (.group o c cl)) => by simpa [buildChain, buildOperand, buildAtom] using build_some c
  | .one (.pre t a) => by simp [buildChain, buildOperand]
  | .one (.bare t) => by simp [buildChain, buildOperand]
  | .more c t o => by simpa only [buildChain] using attach_some _ _ _

theorem nums_attach {l : Expr} {o : Oper} {r : Expr} (hl : NumsOf l) (hr : NumsOf r) : NumsOf (attach l o r) := by
  unfold attach
  split
  · cases l <;> simp_all [NumsOf]
  · exact ⟨hl, hr⟩

theorem leaves_attach {l : Expr} {o : Oper} {r : Expr} (hl : LeavesOf l) (hr : LeavesOf r) : LeavesOf (attach l o r) := by
  unfold attach
  split
  · cases l <;> simp_all [LeavesOf]
  · exact ⟨hl, hr⟩

theorem opers_attach {l : Expr} {o : Oper} {r : Expr} (ho : ∃ ty, (binLevel ty).isSome = true ∧ o = binOf ty)
    (hl : OpersOf l) (hr : OpersOf r) : OpersOf (attach l o r) := by
  obtain ⟨ty, ho⟩ := ho
  unfold attach
  split
  · cases l with
    | un o' e => exact ⟨hl.1, ⟨ty, ho⟩, hl.2, hr⟩
    | bin o' a b => exact ⟨hl.1, hl.2.1, ⟨ty, ho⟩, hl.2.2, hr⟩
    | _ => exact ⟨⟨ty, ho⟩, hl, hr⟩
  · exact ⟨⟨ty, ho⟩, hl, hr⟩

theorem count_seq : ∀ q : Seq, Args.count (buildSeq q) = seqCount q
  | .nil => rfl
  | .last c => rfl
  | .cons c t r => by simp [buildSeq, Args.count, seqCount, count_seq r]

mutual
theorem nums_atom : ∀ a : Atom, NumsOf (buildAtom a)
  | .leaf t => by simp only [buildAtom]; split <;> simp [NumsOf]
  | .call n o as c => by simp only [buildAtom, NumsOf]; exact ⟨nums_seq as, by rw [count_seq]⟩
  | .group o c cl => by simpa only [buildAtom] using nums_chain c
theorem nums_operand : ∀ o : Operand, NumsOf (buildOperand o)
  | .plain a => by simpa only [buildOperand] using nums_atom a
  | .pre t a => by simpa only [buildOperand, NumsOf] using nums_atom a
  | .bare t => by simp [buildOperand, NumsOf]
theorem nums_chain : ∀ c : Chain, NumsOf (buildChain c)
  | .one o => by simpa only [buildChain] using nums_operand o
  | .more c t o => by simpa only [buildChain] using nums_attach (nums_chain c) (nums_operand o)
theorem nums_seq : ∀ q : Seq, NumsOfArgs (buildSeq q)
  | .nil => by simp [buildSeq, NumsOfArgs]
  | .last c => by simp only [buildSeq, NumsOfArgs]; exact ⟨build_some c, nums_chain c, trivial⟩
  | .cons c t r => by simp only [buildSeq, NumsOfArgs]; exact ⟨build_some c, nums_chain c, nums_seq r⟩
end

mutual
theorem leaves_atom : ∀ a : Atom, a.WF → LeavesOf (buildAtom a)
  | .leaf t, h => by
    simp only [Atom.WF] at h
    simp only [buildAtom]
    have hi : isIdentLike t = isName t := by simp [isIdentLike, isName, Bool.or_comm]
    split <;> simp_all [LeavesOf]
  | .call n o as c, h => by simp only [buildAtom, LeavesOf]; exact ⟨h.1, leaves_seq as h.2.2.1⟩
  | .group o c cl, h => by simpa only [buildAtom] using leaves_chain c h.2.1
theorem leaves_operand : ∀ o : Operand, o.WF → LeavesOf (buildOperand o)
  | .plain a, h => by simpa only [buildOperand] using leaves_atom a h
  | .pre t a, h => by simpa only [buildOperand, LeavesOf] using leaves_atom a h.2
  | .bare t, _ => by simp [buildOperand, LeavesOf]
theorem leaves_chain : ∀ c : Chain, c.WF → LeavesOf (buildChain c)
  | .one o, h => by simpa only [buildChain] using leaves_operand o h
  | .more c t o, h => by simpa only [buildChain] using leaves_attach (leaves_chain c h.1) (leaves_operand o h.2.2)
theorem leaves_seq : ∀ q : Seq, q.WF → LeavesOfArgs (buildSeq q)
  | .nil, _ => by simp [buildSeq, LeavesOfArgs]
  | .last c, h => by simp only [buildSeq, LeavesOfArgs]; exact ⟨leaves_chain c h, trivial⟩
  | .cons c t r, h => by simp only [buildSeq, LeavesOfArgs]; exact ⟨leaves_chain c h.1, leaves_seq r h.2.2⟩
end

mutual
theorem opers_atom : ∀ a : Atom, a.WF → OpersOf (buildAtom a)
  | .leaf t, _ => by simp only [buildAtom]; split <;> simp [OpersOf]
  | .call n o as c, h => by simp only [buildAtom, OpersOf]; exact opers_seq as h.2.2.1
  | .group o c cl, h => by simpa only [buildAtom] using opers_chain c h.2.1
theorem opers_operand : ∀ o : Operand, o.WF → OpersOf (buildOperand o)
  | .plain a, h => by simpa only [buildOperand] using opers_atom a h
  | .pre t a, h => by simp only [buildOperand, OpersOf]; exact ⟨⟨t.ty, h.1, rfl⟩, opers_atom a h.2⟩
  | .bare t, h => by simp only [buildOperand, OpersOf]; exact ⟨⟨t.ty, h, rfl⟩, trivial⟩
theorem opers_chain : ∀ c : Chain, c.WF → OpersOf (buildChain c)
  | .one o, h => by simpa only [buildChain] using opers_operand o h
  | .more c t o, h => by
    simpa only [buildChain] using opers_attach ⟨t.ty, h.2.1, binOf_eq h.2.1⟩ (opers_chain c h.1) (opers_operand o h.2.2)
theorem opers_seq : ∀ q : Seq, q.WF → OpersOfArgs (buildSeq q)
  | .nil, _ => by simp [buildSeq, OpersOfArgs]
  | .last c, h => by simp only [buildSeq, OpersOfArgs]; exact ⟨opers_chain c h, trivial⟩
  | .cons c t r, h => by simp only [buildSeq, OpersOfArgs]; exact ⟨opers_chain c h.1, opers_seq r h.2.2⟩
end

/- ### Trees with parentheses -/

/-- `attach` on trees with parentheses: a tree in parentheses is never opened. -/
def gAttach (g : G) (t : Token) (r : G) : G :=
  match g with
  | .un u x => if (unLevel u.ty).getD 0 > (binLevel t.ty).getD 0 then .un u (.bin t x r) else .bin t (.un u x) r
  | .bin u l x =>
    if (binLevel u.ty).getD 0 > (binLevel t.ty).getD 0 then .bin u l (.bin t x r) else .bin t (.bin u l x) r
  | g => .bin t g r

mutual
def gAtom : Atom → G
  | .leaf t => .leaf t
  | .call n o as c => .call n o (gSeq as) c
  | .group o c cl => .group o (gChain c) cl
def gOperand : Operand → G
  | .plain a => gAtom a
  | .pre t a => .un t (gAtom a)
  | .bare t => .bare t
def gChain : Chain → G
  | .one o => gOperand o
  | .more c t o => gAttach (gChain c) t (gOperand o)
def gSeq : Seq → GSeq
  | .nil => .nil
  | .last c => .last (gChain c)
  | .cons c t r => .cons (gChain c) t (gSeq r)
end

theorem gAttach_tokens (g : G) (t : Token) (r : G) : (gAttach g t r).tokens = g.tokens ++ t :: r.tokens := by
  unfold gAttach
  split
  · split <;> simp [G.tokens]
  · split <;> simp [G.tokens]
  · simp [G.tokens]

mutual
theorem gAtom_tokens : ∀ a : Atom, (gAtom a).tokens = a.tokens
  | .leaf t => by simp [gAtom, G.tokens, Atom.tokens]
  | .call n o as c => by simp [gAtom, G.tokens, Atom.tokens, gSeq_tokens as]
  | .group o c cl => by simp [gAtom, G.tokens, Atom.tokens, gChain_tokens c]
theorem gOperand_tokens : ∀ o : Operand, (gOperand o).tokens = o.tokens
  | .plain a => by simp [gOperand, Operand.tokens, gAtom_tokens a]
  | .pre t a => by simp [gOperand, G.tokens, Operand.tokens, gAtom_tokens a]
  | .bare t => by simp [gOperand, G.tokens, Operand.tokens]
theorem gChain_tokens : ∀ c : Chain, (gChain c).tokens = c.tokens
  | .one o => by simp [gChain, Chain.tokens, gOperand_tokens o]
  | .more c t o => by simp [gChain, Chain.tokens, gAttach_tokens, gOperand_tokens o, gChain_tokens c]
theorem gSeq_tokens : ∀ q : Seq, (gSeq q).tokens = q.tokens
  | .nil => by simp [gSeq, GSeq.tokens, Seq.tokens]
  | .last c => by simp [gSeq, GSeq.tokens, Seq.tokens, gChain_tokens c]
  | .cons c t r => by simp [gSeq, GSeq.tokens, Seq.tokens, gChain_tokens c, gSeq_tokens r]
end

theorem gAttach_wf {g : G} {t : Token} {r : G} (hg : g.WF) (ht : (binLevel t.ty).isSome = true) (hr : r.WF) :
    (gAttach g t r).WF := by
  unfold gAttach
  split
  · simp only [G.WF] at hg
    split <;> simp [G.WF, hg, ht, hr]
  · simp only [G.WF] at hg
    split <;> simp [G.WF, hg, ht, hr]
  · simp [G.WF, hg, ht, hr]

mutual
theorem gAtom_wf : ∀ a : Atom, a.WF → (gAtom a).WF
  | .leaf t, h => by simpa [gAtom, G.WF, Atom.WF] using h
  | .call n o as c, h => by
    simp only [Atom.WF] at h
    simp only [gAtom, G.WF]
    exact ⟨h.1, h.2.1, gSeq_wf as h.2.2.1, h.2.2.2⟩
  | .group o c cl, h => by
    simp only [Atom.WF] at h
    simp only [gAtom, G.WF]
    exact ⟨h.1, gChain_wf c h.2.1, h.2.2⟩
theorem gOperand_wf : ∀ o : Operand, o.WF → (gOperand o).WF
  | .plain a, h => by simp only [Operand.WF] at h; simp only [gOperand]; exact gAtom_wf a h
  | .pre t a, h => by simp only [Operand.WF] at h; simp only [gOperand, G.WF]; exact ⟨h.1, gAtom_wf a h.2⟩
  | .bare t, h => by simpa [gOperand, G.WF, Operand.WF] using h
theorem gChain_wf : ∀ c : Chain, c.WF → (gChain c).WF
  | .one o, h => by simp only [Chain.WF] at h; simp only [gChain]; exact gOperand_wf o h
  | .more c t o, h => by
    simp only [Chain.WF] at h
    simp only [gChain]
    exact gAttach_wf (gChain_wf c h.1) h.2.1 (gOperand_wf o h.2.2)
theorem gSeq_wf : ∀ q : Seq, q.WF → (gSeq q).WF
  | .nil, _ => by simp [gSeq, GSeq.WF]
  | .last c, h => by simp only [Seq.WF] at h; simp only [gSeq, GSeq.WF]; exact gChain_wf c h
  | .cons c t r, h => by
    simp only [Seq.WF] at h
    simp only [gSeq, GSeq.WF]
    exact ⟨gChain_wf c h.1, h.2.1, gSeq_wf r h.2.2⟩
end

theorem gSeq_count : ∀ q : Seq, (gSeq q).count = seqCount q
  | .nil => by simp [gSeq, GSeq.count, seqCount]
  | .last c => by simp [gSeq, GSeq.count, seqCount]
  | .cons c t r => by simp [gSeq, GSeq.count, seqCount, gSeq_count r]

theorem gFirst_head : ∀ g : G, ∃ ts, g.tokens = g.first :: ts
  | .leaf t => ⟨[], by simp [G.tokens, G.first]⟩
  | .call n o as c => ⟨_, by simp only [G.tokens, G.first]; rfl⟩
  | .group o g c => ⟨_, by simp only [G.tokens, G.first]; rfl⟩
  | .bare t => ⟨[], by simp [G.tokens, G.first]⟩
  | .un t g => ⟨_, by simp only [G.tokens, G.first]; rfl⟩
  | .bin t l r => by
    obtain ⟨ts, h⟩ := gFirst_head l
    exact ⟨ts ++ t :: r.tokens, by simp [G.tokens, G.first, h]⟩

theorem gChain_first (c : Chain) : (gChain c).first = chainFirst c := by
  obtain ⟨ts, h⟩ := gFirst_head (gChain c)
  rw [gChain_tokens] at h
  simp [chainFirst, h]

theorem attach_le {l : Expr} {o : Oper} {r : Expr} (h : operToPrecedence l.oper ≤ operToPrecedence o) :
    attach l o r = .bin o l r := by
  unfold attach; rw [if_neg (by omega)]

theorem attach_un {u o : Oper} {x r : Expr} :
    attach (.un u x) o r =
      if operToPrecedence u > operToPrecedence o then .un u (.bin o x r) else .bin o (.un u x) r := by
  unfold attach; rfl

theorem attach_bin {u o : Oper} {l x r : Expr} :
    attach (.bin u l x) o r =
      if operToPrecedence u > operToPrecedence o then .bin u l (.bin o x r) else .bin o (.bin u l x) r := by
  unfold attach; rfl

/-- The precedence of the root of a tree. -/
theorem prec_attach (l : Expr) (o : Oper) (r : Expr) (h2 : 2 ≤ operToPrecedence o) :
    operToPrecedence (attach l o r).oper = max (operToPrecedence l.oper) (operToPrecedence o) := by
  by_cases h : operToPrecedence l.oper ≤ operToPrecedence o
  · rw [attach_le h]
    show operToPrecedence o = _
    omega
  · cases l with
    | un u x =>
      rw [attach_un]
      simp only [Expr.oper] at h ⊢
      rw [if_pos (by omega)]
      show operToPrecedence u = _
      omega
    | bin u l x =>
      rw [attach_bin]
      simp only [Expr.oper] at h ⊢
      rw [if_pos (by omega)]
      show operToPrecedence u = _
      omega
    | missing => simp [Expr.oper, operToPrecedence] at h
    | ident => simp only [Expr.oper, show operToPrecedence .identifier = 1 from rfl] at h; omega
    | const => simp only [Expr.oper, show operToPrecedence .const = 1 from rfl] at h; omega
    | call => simp only [Expr.oper, show operToPrecedence .func = 1 from rfl] at h; omega

theorem binLevel_two {ty : TokType} (h : (binLevel ty).isSome = true) : 2 ≤ (binLevel ty).getD 0 := by
  cases ty <;> simp [binLevel] at *

theorem prec_atom_leaf (t : Token) : operToPrecedence (buildAtom (.leaf t)).oper = 1 := by
  simp only [buildAtom]; split <;> rfl

theorem prec_chain : ∀ c : Chain, c.WF → operToPrecedence (buildChain c).oper = c.loosest
  | .one (.plain (.group o c cl)), h => by
    simp only [Chain.WF, Operand.WF, Atom.WF] at h
    simp only [buildChain, buildOperand, buildAtom, Chain.loosest]
    exact prec_chain c h.2.1
  | .one (.plain (.leaf t)), _ => by
    simp only [buildChain, buildOperand, Chain.loosest]; exact prec_atom_leaf t
  | .one (.plain (.call ..)), _ => by
    simp [buildChain, buildOperand, buildAtom, Chain.loosest, Expr.oper, operToPrecedence]
  | .one (.pre t a), h => by
    simp only [Chain.WF, Operand.WF] at h
    simp [buildChain, buildOperand, Chain.loosest, Expr.oper, unLevel_eq h.1]
  | .one (.bare t), h => by
    simp only [Chain.WF, Operand.WF] at h
    simp [buildChain, buildOperand, Chain.loosest, Expr.oper, unLevel_eq h]
  | .more c t o, h => by
    simp only [Chain.WF] at h
    simp only [buildChain, Chain.loosest]
    rw [prec_attach _ _ _ (by rw [binLevel_eq h.2.1]; exact binLevel_two h.2.1), prec_chain c h.1, binLevel_eq h.2.1]

/-- The tokens of operators of a tree stand where they may. -/
def rootOk : G → Prop
  | .un t _ => (unLevel t.ty).isSome = true
  | .bare t => (unLevel t.ty).isSome = true
  | .bin t _ _ => (binLevel t.ty).isSome = true
  | _ => True

theorem erase_attach {g : G} {t : Token} {r : G} (hr : rootOk g) (ht : (binLevel t.ty).isSome = true)
    (hb : ∀ u, g ≠ .bare u)
    (hg : ∀ o x c, g = .group o x c → operToPrecedence x.erase.oper ≤ (binLevel t.ty).getD 0) :
    (gAttach g t r).erase = attach g.erase (binaryOper t.ty) r.erase := by
  have hp := binLevel_eq ht
  have h2 := binLevel_two ht
  have hbo := binOf_eq ht
  cases g with
  | leaf x =>
    simp only [gAttach, G.erase]
    rw [attach_le, hbo]
    split <;> simp only [Expr.oper, show operToPrecedence .identifier = 1 from rfl,
      show operToPrecedence .const = 1 from rfl] <;> omega
  | call n o as c =>
    simp only [gAttach, G.erase]
    rw [attach_le, hbo]
    simp only [Expr.oper, show operToPrecedence .func = 1 from rfl]; omega
  | group o x c =>
    have := hg o x c rfl
    simp only [gAttach, G.erase]
    rw [attach_le (by omega), hbo]
  | bare u => exact absurd rfl (hb u)
  | un u x =>
    simp only [rootOk] at hr
    have hu := unLevel_eq hr
    rw [unOf_eq] at hu
    simp only [gAttach, G.erase, attach_un, hu, hp]
    split <;> simp [G.erase, hbo]
  | bin u l x =>
    simp only [rootOk] at hr
    have hu := binLevel_eq hr
    rw [binOf_eq hr] at hu
    simp only [gAttach, G.erase, attach_bin, hu, hp]
    split <;> simp [G.erase, hbo]

theorem rootOk_attach {g : G} {t : Token} {r : G} (hr : rootOk g) (ht : (binLevel t.ty).isSome = true) :
    rootOk (gAttach g t r) := by
  unfold gAttach
  split
  · split <;> simpa [rootOk] using by assumption
  · split <;> simpa [rootOk] using by assumption
  · simpa [rootOk] using ht

theorem rootOk_atom (a : Atom) : rootOk (gAtom a) := by cases a <;> simp [gAtom, rootOk]

theorem rootOk_chain : ∀ c : Chain, c.WF → rootOk (gChain c)
  | .one (.plain a), _ => by simp only [gChain, gOperand]; exact rootOk_atom a
  | .one (.pre t a), h => by simp only [Chain.WF, Operand.WF] at h; simpa [gChain, gOperand, rootOk] using h.1
  | .one (.bare t), h => by simp only [Chain.WF, Operand.WF] at h; simpa [gChain, gOperand, rootOk] using h
  | .more c t o, h => by
    simp only [Chain.WF] at h
    simp only [gChain]
    exact rootOk_attach (rootOk_chain c h.1) h.2.1

theorem gAttach_not_group (g : G) (t : Token) (r : G) (o x c) : gAttach g t r ≠ .group o x c := by
  unfold gAttach
  split
  · split <;> simp
  · split <;> simp
  · simp

theorem gAttach_not_bare (g : G) (t : Token) (r : G) (u) : gAttach g t r ≠ .bare u := by
  unfold gAttach
  split
  · split <;> simp
  · split <;> simp
  · simp

mutual
theorem erase_atom : ∀ a : Atom, a.WF → a.Full → a.SafeGroups → (gAtom a).erase = buildAtom a
  | .leaf t, _, _, _ => by simp [gAtom, G.erase, buildAtom, isName_eq]
  | .call n o as c, hw, hf, hs => by
    simp only [Atom.WF, Atom.Full, Atom.SafeGroups] at hw hf hs
    simp [gAtom, G.erase, buildAtom, erase_seq as hw.2.2.1 hf hs, gSeq_count]
  | .group o c cl, hw, hf, hs => by
    simp only [Atom.WF, Atom.Full, Atom.SafeGroups] at hw hf hs
    simp [gAtom, G.erase, buildAtom, erase_chain c hw.2.1 hf hs]
theorem erase_operand : ∀ o : Operand, o.WF → o.Full → o.SafeGroups → (gOperand o).erase = buildOperand o
  | .plain a, hw, hf, hs => by
    simp only [Operand.WF, Operand.Full, Operand.SafeGroups] at hw hf hs
    simpa [gOperand, buildOperand] using erase_atom a hw hf hs
  | .pre t a, hw, hf, hs => by
    simp only [Operand.WF, Operand.Full, Operand.SafeGroups] at hw hf hs
    simp [gOperand, buildOperand, G.erase, erase_atom a hw.2 hf hs, unOf_eq]
  | .bare t, hw, hf, hs => by
    simp only [Operand.Full] at hf
theorem erase_chain : ∀ c : Chain, c.WF → c.Full → c.SafeGroups → (gChain c).erase = buildChain c
  | .one o, hw, hf, hs => by
    simp only [Chain.WF, Chain.Full, Chain.SafeGroups] at hw hf hs
    simpa [gChain, buildChain] using erase_operand o hw hf hs
  | .more c t o, hw, hf, hs => by
    simp only [Chain.WF, Chain.Full, Chain.SafeGroups] at hw hf hs
    have ih := erase_chain c hw.1 hf.1 hs.1
    have iho := erase_operand o hw.2.2 hf.2 hs.2.1
    simp only [gChain, buildChain]
    rw [← ih, ← iho]
    apply erase_attach (rootOk_chain c hw.1) hw.2.1
    · intro u hu
      cases c with
      | one o' =>
        cases o' with
        | plain a => cases a <;> simp [gChain, gOperand, gAtom] at hu
        | pre t a => simp [gChain, gOperand] at hu
        | bare t => simp [Chain.Full, Operand.Full] at hf
      | more c' t' o' => exact gAttach_not_bare _ _ _ _ hu
    · intro op x cl hx
      cases c with
      | one o' =>
        cases o' with
        | plain a =>
          cases a with
          | leaf t => simp [gChain, gOperand, gAtom] at hx
          | call n o as c => simp [gChain, gOperand, gAtom] at hx
          | group o2 c2 cl2 =>
            simp [gChain, gOperand, gAtom] at hx
            obtain ⟨rfl, rfl, rfl⟩ := hx
            have h1 := hs.2.2 _ (by simp [Chain.groupLevel]; rfl)
            simp only [gChain, gOperand, gAtom, buildChain, buildOperand, buildAtom, G.erase] at ih
            rw [ih, prec_chain c2 (by simpa [Chain.WF, Operand.WF, Atom.WF] using hw.1.2.1)]
            exact h1
        | pre t a => simp [gChain, gOperand] at hx
        | bare t => simp [gChain, gOperand] at hx
      | more c' t' o' => exact absurd hx (gAttach_not_group _ _ _ _ _ _)
theorem erase_seq : ∀ q : Seq, q.WF → q.Full → q.SafeGroups → (gSeq q).erase = buildSeq q
  | .nil, _, _, _ => by simp [gSeq, GSeq.erase, buildSeq]
  | .last c, hw, hf, hs => by
    simp only [Seq.WF, Seq.Full, Seq.SafeGroups] at hw hf hs
    simp [gSeq, GSeq.erase, buildSeq, gChain_first, erase_chain c hw hf hs]
  | .cons c t r, hw, hf, hs => by
    simp only [Seq.WF, Seq.Full, Seq.SafeGroups] at hw hf hs
    simp [gSeq, GSeq.erase, buildSeq, gChain_first, erase_chain c hw.1 hf.1 hs.1, erase_seq r hw.2.2 hf.2 hs.2]
end

end Skull
