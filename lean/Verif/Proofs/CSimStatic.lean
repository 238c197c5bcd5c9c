import Verif.Proofs.CSimGood
/-
The C form of a program does what the program does: objects and functions of a program that fits.
-/
namespace Skull.CSim
open Spec Spec.C

/- ### What is declared -/

theorem defs_plain {ann stmt tok child next} (h : PlainAnn ann) : (ATree.node ann stmt tok child next).defs = child.defs ++ next.defs := by
  cases ann <;> first | exact h.elim | rfl

theorem fileIds_plain {ann stmt tok child next} (h : PlainAnn ann) : fileIds (.node ann stmt tok child next) = fileIds next := by
  cases ann <;> first | exact h.elim | rfl

theorem chainDefs_plain {ann stmt tok child next} (h : PlainAnn ann) : chainDefs (.node ann stmt tok child next) = chainDefs next := by
  cases ann <;> first | exact h.elim | rfl

theorem unknowns_plain {ann stmt tok child next} (h : PlainAnn ann) : unknowns (.node ann stmt tok child next) = unknowns next := by
  cases ann <;> first | exact h.elim | rfl

theorem chain_file : ∀ {t : ATree} {p}, p ∈ chainDefs t → p.1 ∈ fileIds t
  | .nil, p, h => by simp [chainDefs] at h
  | .unchecked _, p, h => by simp [chainDefs] at h
  | .node ann stmt tok child next, p, h => by
    cases ann with
    | varDef id e =>
      simp only [chainDefs, List.mem_cons] at h
      simp only [fileIds, List.mem_cons]
      rcases h with rfl | h
      · exact .inl rfl
      · exact .inr (chain_file h)
    | func id ps => simp only [fileIds, List.mem_append, List.mem_cons]; exact .inr (.inr (chain_file (t := next) h))
    | none => exact chain_file (t := next) h
    | varAssign => exact chain_file (t := next) h
    | expr => exact chain_file (t := next) h
    | ns => exact chain_file (t := next) h

theorem chain_defs : ∀ {t : ATree} {p}, p ∈ chainDefs t → p.1 ∈ t.defs
  | .nil, p, h => by simp [chainDefs] at h
  | .unchecked _, p, h => by simp [chainDefs] at h
  | .node ann stmt tok child next, p, h => by
    cases ann with
    | varDef id e =>
      simp only [chainDefs, List.mem_cons] at h
      simp only [ATree.defs, List.mem_cons, List.mem_append]
      rcases h with rfl | h
      · exact .inl rfl
      · exact .inr (.inr (chain_defs h))
    | func id ps => simp only [ATree.defs, List.mem_append, List.mem_cons]; exact .inr (.inr (.inr (chain_defs (t := next) h)))
    | none => simp only [ATree.defs, List.mem_append]; exact .inr (chain_defs (t := next) h)
    | varAssign => simp only [ATree.defs, List.mem_append]; exact .inr (chain_defs (t := next) h)
    | expr => simp only [ATree.defs, List.mem_append]; exact .inr (chain_defs (t := next) h)
    | ns => simp only [ATree.defs, List.mem_append]; exact .inr (chain_defs (t := next) h)

theorem unknowns_chain : ∀ {t : ATree} {id}, id ∈ unknowns t → ∃ e, (id, e) ∈ chainDefs t ∧ e.isConstExpr = false
  | .nil, id, h => by simp [unknowns] at h
  | .unchecked _, id, h => by simp [unknowns] at h
  | .node ann stmt tok child next, id, h => by
    cases ann with
    | varDef i e =>
      simp only [unknowns] at h
      simp only [chainDefs, List.mem_cons]
      split at h
      · obtain ⟨e', h1, h2⟩ := unknowns_chain h
        exact ⟨e', .inr h1, h2⟩
      · rename_i he
        rcases List.mem_cons.1 h with rfl | h
        · exact ⟨e, .inl rfl, by simpa using he⟩
        · obtain ⟨e', h1, h2⟩ := unknowns_chain h
          exact ⟨e', .inr h1, h2⟩
    | func i ps => exact unknowns_chain (t := next) h
    | none => exact unknowns_chain (t := next) h
    | varAssign => exact unknowns_chain (t := next) h
    | expr => exact unknowns_chain (t := next) h
    | ns => exact unknowns_chain (t := next) h

section
variable {ω : Type} {c : RunCtx ω} {d : CRunCtx ω} {fmtA : Nat → List Char} {F : Floats}

theorem defined_exported {k ty f ps link} : (exported k ty f ps link).flatMap defined = [] := by
  unfold exported
  split <;> simp [defined]

theorem good_defined {K deep t o ss its} (h : Good c d fmtA F K deep t o ss its) : deep = false →
    its.flatMap defined = (fileIds t).map (nameOf c.syms) := by
  induction h with
  | nil => intro _; rfl
  | same hp hl hn ih => intro hd; rw [fileIds_plain hp]; exact ih hd
  | simple hp hl hs hn ih => intro hd; rw [fileIds_plain hp]; exact ih hd
  | spin hp hl hn ih => intro hd; rw [fileIds_plain hp]; exact ih hd
  | known ha hk hx hn ih => intro hd; simp only [List.flatMap_cons, defined, fileIds, List.map_cons, nameOf_eq ha.symbol, ih hd]; rfl
  | unknown ha hk hx hn ih => intro hd; simp only [List.flatMap_cons, defined, fileIds, List.map_cons, nameOf_eq ha.symbol, ih hd]; rfl
  | loc => intro hd; cases hd
  | ifs hp hx hc hn ihc ih => intro hd; rw [fileIds_plain hp]; exact ih hd
  | whiles hp hx hc hn ihc ih => intro hd; rw [fileIds_plain hp]; exact ih hd
  | external ha he hp hl hn ih =>
    intro hd
    simp only [List.flatMap_cons, defined, fileIds, isForeign, hp, if_true, List.nil_append, List.map_cons, nameOf_eq ha.symbol, ih hd]; rfl
  | func ha he hp hex hf hfi hw htx hc hn ihc ih =>
    intro hd
    obtain ⟨link, rfl⟩ := hex
    simp only [List.flatMap_append, List.flatMap_cons, defined_exported, defined, fileIds, isForeign, hp, Bool.false_eq_true, if_false, List.map_append, List.map_cons,
      nameOf_eq ha.symbol, ih hd, ihc rfl, List.append_nil]; rfl
  | noElse hn ih => exact ih
  | comment hp hl hn ih => intro hd; rw [fileIds_plain hp]; exact ih hd
  | els hp hc hn ihc ih => intro hd; rw [fileIds_plain hp]; exact ih hd
  | elif hp hx hc hn ihc ih => intro hd; rw [fileIds_plain hp]; exact ih hd

/-- A variable outside of blocks has its object. -/
def ObjAt (c : RunCtx ω) (d : CRunCtx ω) (fmtA : Nat → List Char) (F : Floats) (its : List C.Item) (id : Nat) (e : AExpr) : Prop :=
  ∃ sym v, DefAt c id e sym v ∧
    ((e.isConstExpr = true ∧ ∃ st cx link, KnownAt c d fmtA F id e cx ∧ .object st v.isConst (cType v.type) sym.name link (some cx) ∈ its) ∨
      (e.isConstExpr = false ∧ ∃ st link, .object st false (cType v.type) sym.name link none ∈ its))

theorem ObjAt.mono {its its' : List C.Item} {id e} (h : ObjAt c d fmtA F its id e) (hs : ∀ i ∈ its, i ∈ its') : ObjAt c d fmtA F its' id e := by
  obtain ⟨sym, v, h1, ⟨h2, st, cx, link, h3, h4⟩ | ⟨h2, st, link, h3⟩⟩ := h
  · exact ⟨sym, v, h1, .inl ⟨h2, st, cx, link, h3, hs _ h4⟩⟩
  · exact ⟨sym, v, h1, .inr ⟨h2, st, link, hs _ h3⟩⟩

theorem good_defs {K deep t o ss its} (h : Good c d fmtA F K deep t o ss its) : deep = false → ∀ p ∈ chainDefs t, ObjAt c d fmtA F its p.1 p.2 := by
  induction h with
  | nil => intro _ p hp; simp [chainDefs] at hp
  | same hp hl hn ih => intro hd; rw [chainDefs_plain hp]; exact ih hd
  | simple hp hl hs hn ih => intro hd; rw [chainDefs_plain hp]; exact ih hd
  | spin hp hl hn ih => intro hd; rw [chainDefs_plain hp]; exact ih hd
  | known ha hk hx hn ih =>
    intro hd p hp
    simp only [chainDefs, List.mem_cons] at hp
    rcases hp with rfl | hp
    · exact ⟨_, _, ha, .inl ⟨hk, _, _, _, hx, List.mem_cons_self ..⟩⟩
    · exact (ih hd p hp).mono fun i hi => List.mem_cons_of_mem _ hi
  | unknown ha hk hx hn ih =>
    intro hd p hp
    simp only [chainDefs, List.mem_cons] at hp
    rcases hp with rfl | hp
    · exact ⟨_, _, ha, .inr ⟨hk, _, _, List.mem_cons_self ..⟩⟩
    · exact (ih hd p hp).mono fun i hi => List.mem_cons_of_mem _ hi
  | loc => intro hd; cases hd
  | ifs hp hx hc hn ihc ih => intro hd; rw [chainDefs_plain hp]; exact ih hd
  | whiles hp hx hc hn ihc ih => intro hd; rw [chainDefs_plain hp]; exact ih hd
  | external ha he hp hl hn ih => intro hd p hp; exact (ih hd p hp).mono fun i hi => List.mem_cons_of_mem _ hi
  | func ha he hp hex hf hfi hw htx hc hn ihc ih =>
    intro hd p hp
    exact (ih hd p hp).mono fun i hi => List.mem_append_right _ (List.mem_cons_of_mem _ hi)
  | noElse hn ih => exact ih
  | comment hp hl hn ih => intro hd; rw [chainDefs_plain hp]; exact ih hd
  | els hp hc hn ihc ih => intro hd; rw [chainDefs_plain hp]; exact ih hd
  | elif hp hx hc hn ihc ih => intro hd; rw [chainDefs_plain hp]; exact ih hd

/-- Every initialiser is a known value. -/
theorem good_inits {K deep t o ss its} (h : Good c d fmtA F K deep t o ss its) : ∀ st k ty x link cx, .object st k ty x link (some cx) ∈ its →
    ∃ id e sym v, DefAt c id e sym v ∧ e.isConstExpr = true ∧ KnownAt c d fmtA F id e cx ∧ x = sym.name ∧ ty = cType v.type := by
  induction h with
  | nil => intro _ _ _ _ _ _ hi; cases hi
  | same hp hl hn ih => exact ih
  | simple hp hl hs hn ih => exact ih
  | spin hp hl hn ih => exact ih
  | known ha hk hx hn ih =>
    intro _ _ _ _ _ _ hi
    rcases List.mem_cons.1 hi with hi | hi
    · cases hi
      exact ⟨_, _, _, _, ha, hk, hx, rfl, rfl⟩
    · exact ih _ _ _ _ _ _ hi
  | unknown ha hk hx hn ih =>
    intro _ _ _ _ _ _ hi
    rcases List.mem_cons.1 hi with hi | hi
    · cases hi
    · exact ih _ _ _ _ _ _ hi
  | loc _ _ _ _ ih => exact ih
  | ifs hp hx hc hn ihc ih => exact ih
  | whiles hp hx hc hn ihc ih => exact ih
  | external ha he hp hl hn ih =>
    intro _ _ _ _ _ _ hi
    rcases List.mem_cons.1 hi with hi | hi
    · cases hi
    · exact ih _ _ _ _ _ _ hi
  | func ha he hp hex hf hfi hw htx hc hn ihc ih =>
    intro _ _ _ _ _ _ hi
    obtain ⟨link, rfl⟩ := hex
    rw [List.mem_append, List.mem_append, List.mem_cons] at hi
    rcases hi with (hi | hi) | hi | hi
    · exact ihc _ _ _ _ _ _ hi
    · unfold exported at hi
      split at hi
      · rw [List.mem_singleton] at hi; cases hi
      · cases hi
    · cases hi
    · exact ih _ _ _ _ _ _ hi
  | noElse hn ih => exact ih
  | comment hp hl hn ih => exact ih
  | els hp hc hn ihc ih => exact ih
  | elif hp hx hc hn ihc ih => exact ih

/- ### What is declared is new -/

theorem sep_plain {K : CScope} {deep ann stmt tok child next} (h : PlainAnn ann) (hc : Sep c K.inner true child) (hn : Sep c K deep next) :
    Sep c K deep (.node ann stmt tok child next) := by
  cases ann <;> first | exact h.elim | (cases stmt <;> exact ⟨hc, hn⟩)

theorem sep_leaf {K : CScope} {deep t} (h : Leaf t) : Sep c K deep t := by
  rcases h with rfl | ⟨u, rfl⟩ <;> trivial

/-- None of these symbols is there. -/
def New (c : RunCtx ω) (K : CScope) (l : List Nat) : Prop := l.Nodup ∧ ∀ x ∈ l, x ∉ K.autos ∧ x ∉ K.own ∧ x ∉ topIds c

theorem New.left {K : CScope} {l m} (h : New c K (l ++ m)) : New c K l :=
  ⟨(List.nodup_append.1 h.1).1, fun x hx => h.2 x (List.mem_append_left _ hx)⟩

theorem New.right {K : CScope} {l m} (h : New c K (l ++ m)) : New c K m :=
  ⟨(List.nodup_append.1 h.1).2.1, fun x hx => h.2 x (List.mem_append_right _ hx)⟩

theorem sep_deep {K deep t o ss its} (h : Good c d fmtA F K deep t o ss its) : deep = true → New c K t.defs → Sep c K true t := by
  induction h with
  | nil => intro _ _; trivial
  | same hp hl hn ih => intro hd hw; rw [defs_plain hp] at hw; exact sep_plain hp (sep_leaf hl) (ih hd hw.right)
  | simple hp hl hs hn ih => intro hd hw; rw [defs_plain hp] at hw; exact sep_plain hp (sep_leaf hl) (ih hd hw.right)
  | spin hp hl hn ih => intro hd hw; rw [defs_plain hp] at hw; exact sep_plain hp (sep_leaf hl) (ih hd hw.right)
  | known => intro hd; cases hd
  | unknown => intro hd; cases hd
  | @loc K id e n k i x e' tok next sym kk ty cx ss its hs hx hb hn ih =>
    intro _ hw
    have hw : New c K (id :: next.defs) := by simpa [ATree.defs] using hw
    have h1 := hw.2 id (List.mem_cons_self ..)
    have h2 := (List.nodup_cons.1 hw.1)
    refine ⟨h1.1, h1.2.1, ?_⟩
    simp only [if_true]
    refine ⟨h1.2.2, ih rfl ⟨h2.2, fun y hy => ?_⟩⟩
    have h3 := hw.2 y (List.mem_cons_of_mem _ hy)
    refine ⟨?_, h3.2⟩
    show y ∉ id :: K.autos
    rw [List.mem_cons, not_or]
    exact ⟨fun e => h2.1 (e ▸ hy), h3.1⟩
  | ifs hp hx hc hn ihc ih => intro hd hw; rw [defs_plain hp] at hw; exact sep_plain hp (ihc rfl hw.left) (ih hd hw.right)
  | whiles hp hx hc hn ihc ih => intro hd hw; rw [defs_plain hp] at hw; exact sep_plain hp (ihc rfl hw.left) (ih hd hw.right)
  | external => intro hd; cases hd
  | func => intro hd; cases hd
  | noElse hn ih => exact ih
  | comment hp hl hn ih => intro hd hw; rw [defs_plain hp] at hw; exact sep_plain hp (sep_leaf hl) (ih hd hw.right)
  | els hp hc hn ihc ih => intro hd hw; rw [defs_plain hp] at hw; exact sep_plain hp (ihc rfl hw.left) (ih hd hw.right)
  | elif hp hx hc hn ihc ih => intro hd hw; rw [defs_plain hp] at hw; exact sep_plain hp (ihc rfl hw.left) (ih hd hw.right)

/-- In a function. -/
structure FuncInv (c : RunCtx ω) (K : CScope) (t : ATree) : Prop where
  self : K.self.isSome = true
  new : New c K t.defs
  chain : ∀ p ∈ chainDefs t, p ∈ chainDefs (bodyOf c K.count)
  unknown : ∀ i ∈ unknowns t, i ∈ unknowns (bodyOf c K.count)
  apart : ∀ p ∈ chainDefs t, ∀ id', Chg c K.count id' → nameOf c.syms id' ≠ nameOf c.syms p.1

theorem FuncInv.next {K : CScope} {ann stmt tok child next} (h : FuncInv c K (.node ann stmt tok child next)) (hp : PlainAnn ann) :
    New c K child.defs ∧ FuncInv c K next := by
  have hn := h.new
  have h1 := h.chain
  have h2 := h.unknown
  have h3 := h.apart
  rw [defs_plain hp] at hn
  rw [chainDefs_plain hp] at h1 h3
  rw [unknowns_plain hp] at h2
  exact ⟨hn.left, h.self, hn.right, h1, h2, h3⟩

theorem FuncInv.obj {K : CScope} {id e stmt tok next} (h : FuncInv c K (.node (.varDef id e) stmt tok .nil next)) : FuncInv c (K.addObj id) next := by
  have hw : New c K (id :: next.defs) := by simpa [ATree.defs] using h.new
  have h2 := List.nodup_cons.1 hw.1
  have hK : K.addObj id = { K with own := id :: K.own } := by unfold CScope.addObj; rw [if_pos h.self]
  rw [hK]
  refine ⟨h.self, ⟨h2.2, fun y hy => ?_⟩, fun p hp => h.chain p ?_, fun i hi => h.unknown i ?_, fun p hp => h.apart p ?_⟩
  · have h3 := hw.2 y (List.mem_cons_of_mem _ hy)
    refine ⟨h3.1, ?_, h3.2.2⟩
    show y ∉ id :: K.own
    rw [List.mem_cons, not_or]
    exact ⟨fun e => h2.1 (e ▸ hy), h3.2.1⟩
  · exact List.mem_cons_of_mem _ hp
  · show i ∈ if e.isConstExpr then unknowns next else id :: unknowns next
    split
    · exact hi
    · exact List.mem_cons_of_mem _ hi
  · exact List.mem_cons_of_mem _ hp

theorem FuncInv.sep {K : CScope} {id e n k i x e' tok next} (h : FuncInv c K (.node (.varDef id e) (.varDef n k i x e') tok .nil next))
    (hn : Sep c (K.addObj id) false next) : Sep c K false (.node (.varDef id e) (.varDef n k i x e') tok .nil next) := by
  have h1 := h.new.2 id (by simp [ATree.defs])
  have hm : (id, e) ∈ chainDefs (.node (.varDef id e) (.varDef n k i x e') tok .nil next) := List.mem_cons_self ..
  unfold Sep
  refine ⟨h1.1, h1.2.1, ?_⟩
  simp only [Bool.false_eq_true, if_false, h.self, if_true]
  refine ⟨h1.2.2, ⟨_, h.chain _ hm⟩, h.apart _ hm, fun he => .inr ⟨K.count, by omega, h.unknown id ?_⟩, hn⟩
  show id ∈ if e.isConstExpr then unknowns next else id :: unknowns next
  rw [he]
  exact List.mem_cons_self ..

theorem sep_func {K deep t o ss its} (h : Good c d fmtA F K deep t o ss its) : deep = false → FuncInv c K t → Sep c K false t := by
  induction h with
  | nil => intro _ _; trivial
  | same hp hl hn ih => intro hd hw; exact sep_plain hp (sep_leaf hl) (ih hd (hw.next hp).2)
  | simple hp hl hs hn ih => intro hd hw; exact sep_plain hp (sep_leaf hl) (ih hd (hw.next hp).2)
  | spin hp hl hn ih => intro hd hw; exact sep_plain hp (sep_leaf hl) (ih hd (hw.next hp).2)
  | known ha hk hx hn ih => intro hd hw; exact hw.sep (ih hd hw.obj)
  | unknown ha hk hx hn ih => intro hd hw; exact hw.sep (ih hd hw.obj)
  | loc => intro hd; cases hd
  | ifs hp hx hc hn ihc ih => intro hd hw; exact sep_plain hp (sep_deep hc rfl (hw.next hp).1) (ih hd (hw.next hp).2)
  | whiles hp hx hc hn ihc ih => intro hd hw; exact sep_plain hp (sep_deep hc rfl (hw.next hp).1) (ih hd (hw.next hp).2)
  | external ha => intro _ hw; have := hw.self; rw [ha.self] at this; cases this
  | func ha => intro _ hw; have := hw.self; rw [ha.self] at this; cases this
  | noElse hn ih => exact ih
  | comment hp hl hn ih => intro hd hw; exact sep_plain hp (sep_leaf hl) (ih hd (hw.next hp).2)
  | els hp hc hn ihc ih => intro hd hw; exact sep_plain hp (sep_deep hc rfl (hw.next hp).1) (ih hd (hw.next hp).2)
  | elif hp hx hc hn ihc ih => intro hd hw; exact sep_plain hp (sep_deep hc rfl (hw.next hp).1) (ih hd (hw.next hp).2)

/-- Outside of functions. -/
structure TopInv (c : RunCtx ω) (K : CScope) (t : ATree) : Prop where
  self : K.self = none
  autos : K.autos = []
  own : K.own = []
  nodup : t.defs.Nodup
  tops : ∀ x ∈ t.defs, x ∉ K.tops
  topSub : ∀ id ∈ K.tops, id ∈ topIds c
  topCov : ∀ id ∈ topIds c, id ∈ K.tops ∨ id ∈ (chainDefs t).map (·.1)
  chain : ∀ p ∈ chainDefs t, p ∈ chainDefs c.prog
  fileNodup : (fileIds t).Nodup
  fileSub : ∀ x ∈ fileIds t, x ∈ fileIds c.prog
  before : ∀ i < K.count, ∀ x ∈ unknowns (bodyOf c i), x ∈ fileIds c.prog ∧ x ∉ fileIds t

/-- What a block declares is not in the chain around it. -/
theorem TopInv.apart {K : CScope} {t : ATree} {l : List Nat} (h : TopInv c K t) (hn : l.Nodup) (hs : ∀ x ∈ l, x ∈ t.defs) (hx : ∀ x ∈ l, x ∉ (chainDefs t).map (·.1)) :
    New c K l := by
  refine ⟨hn, fun x hl => ⟨by rw [h.autos]; simp, by rw [h.own]; simp, fun ht => ?_⟩⟩
  rcases h.topCov x ht with h1 | h1
  · exact h.tops x (hs x hl) h1
  · exact hx x hl h1

theorem TopInv.next {K : CScope} {ann stmt tok child next} (h : TopInv c K (.node ann stmt tok child next)) (hp : PlainAnn ann) :
    New c K child.defs ∧ TopInv c K next := by
  have hn := h.nodup
  have h0 := h.tops
  have h1 := h.topCov
  have h2 := h.chain
  have h3 := h.fileNodup
  have h4 := h.fileSub
  have h5 := h.before
  rw [defs_plain hp] at hn h0
  rw [chainDefs_plain hp] at h1 h2
  rw [fileIds_plain hp] at h3 h4
  simp only [fileIds_plain hp] at h5
  refine ⟨h.apart (List.nodup_append.1 hn).1 (fun x hx => by rw [defs_plain hp]; exact List.mem_append_left _ hx) fun x hx hm => ?_,
    h.self, h.autos, h.own, (List.nodup_append.1 hn).2.1, fun x hx => h0 x (List.mem_append_right _ hx), h.topSub, h1, h2, h3, h4, h5⟩
  rw [chainDefs_plain hp] at hm
  obtain ⟨p, hm', rfl⟩ := List.mem_map.1 hm
  exact (List.nodup_append.1 hn).2.2 _ hx _ (chain_defs hm') rfl

theorem TopInv.obj {K : CScope} {id e stmt tok next} (h : TopInv c K (.node (.varDef id e) stmt tok .nil next)) : TopInv c (K.addObj id) next := by
  have hnd : (id :: next.defs).Nodup := by simpa [ATree.defs] using h.nodup
  have h2 := List.nodup_cons.1 hnd
  have hfn : (id :: fileIds next).Nodup := h.fileNodup
  have h3 := List.nodup_cons.1 hfn
  have hK : K.addObj id = { K with tops := id :: K.tops } := by unfold CScope.addObj; rw [h.self]; rfl
  have hid : id ∈ topIds c := List.mem_map.2 ⟨(id, e), h.chain (id, e) (List.mem_cons_self ..), rfl⟩
  rw [hK]
  refine ⟨h.self, h.autos, h.own, h2.2, fun x hx => ?_, fun i hi => ?_, fun i hi => ?_, fun p hp => h.chain p (List.mem_cons_of_mem _ hp),
    h3.2, fun x hx => h.fileSub x (List.mem_cons_of_mem _ hx), fun i hi x hx => ?_⟩
  · show x ∉ id :: K.tops
    rw [List.mem_cons, not_or]
    exact ⟨fun e => h2.1 (e ▸ hx), h.tops x (by simp [ATree.defs, hx])⟩
  · rcases List.mem_cons.1 hi with rfl | hi
    · exact hid
    · exact h.topSub i hi
  · rcases h.topCov i hi with h1 | h1
    · exact .inl (List.mem_cons_of_mem _ h1)
    · rw [show chainDefs (.node (.varDef id e) stmt tok .nil next) = (id, e) :: chainDefs next from rfl, List.map_cons, List.mem_cons] at h1
      rcases h1 with rfl | h1
      · exact .inl (List.mem_cons_self ..)
      · exact .inr h1
  · have := h.before i hi x hx
    exact ⟨this.1, fun h => this.2 (List.mem_cons_of_mem _ h)⟩

theorem TopInv.sep {K : CScope} {id e n k i x e' tok next} (h : TopInv c K (.node (.varDef id e) (.varDef n k i x e') tok .nil next))
    (hn : Sep c (K.addObj id) false next) : Sep c K false (.node (.varDef id e) (.varDef n k i x e') tok .nil next) := by
  unfold Sep
  refine ⟨by rw [h.autos]; simp, by rw [h.own]; simp, ?_⟩
  simp only [Bool.false_eq_true, if_false, h.self, Option.isSome_none]
  exact ⟨h.chain _ (List.mem_cons_self ..), h.tops id (by simp [ATree.defs]), hn⟩

theorem good_nodecls {K deep t o ss its} (h : Good c d fmtA F K deep t o ss its) : (K.self.isSome = true ∨ deep = true) → decls t = [] := by
  induction h with
  | nil => intro _; rfl
  | same hp hl hn ih => intro hd; rw [decls_plain hp, decls_leaf hl, ih hd]; rfl
  | simple hp hl hs hn ih => intro hd; rw [decls_plain hp, decls_leaf hl, ih hd]; rfl
  | spin hp hl hn ih => intro hd; rw [decls_plain hp, decls_leaf hl, ih hd]; rfl
  | known ha hk hx hn ih => intro hd; rw [decls_varDef, ih (by rw [CScope.addObj_same.2.2]; exact hd)]; rfl
  | unknown ha hk hx hn ih => intro hd; rw [decls_varDef, ih (by rw [CScope.addObj_same.2.2]; exact hd)]; rfl
  | loc _ _ _ _ ih => intro hd; rw [decls_varDef, ih (.inr rfl)]; rfl
  | ifs hp hx hc hn ihc ih => intro hd; rw [decls_plain hp, ihc (.inr rfl), ih hd]; rfl
  | whiles hp hx hc hn ihc ih => intro hd; rw [decls_plain hp, ihc (.inr rfl), ih hd]; rfl
  | external ha => intro hd; rw [ha.self] at hd; simp at hd
  | func ha => intro hd; rw [ha.self] at hd; simp at hd
  | noElse hn ih => exact ih
  | comment hp hl hn ih => intro hd; rw [decls_plain hp, decls_leaf hl, ih hd]; rfl
  | els hp hc hn ihc ih => intro hd; rw [decls_plain hp, ihc (.inr rfl), ih hd]; rfl
  | elif hp hx hc hn ihc ih => intro hd; rw [decls_plain hp, ihc (.inr rfl), ih hd]; rfl

/-- A function of the file. -/
def FuncAt (c : RunCtx ω) (d : CRunCtx ω) (fmtA : Nat → List Char) (F : Floats) (its : List C.Item) (j id : Nat) (ps : List Nat) (body : ATree) : Prop :=
  ∃ K sym f cps, K.count = j ∧ ParamsAt c K id ps body sym f cps ∧ (∀ i ∈ K.tops, i ∈ topIds c) ∧ (∀ p ∈ ps, p ∉ topIds c) ∧
    ((f.isExternal = true ∧ sym.linkageName = sym.name ∧ .proto false (cType f.returnType) sym.name cps none ∈ its) ∨
      (f.isExternal = false ∧ ∃ st ss bi, .func st (cType f.returnType) sym.name cps ss ∈ its ∧ CForm c.syms fmtA 1 body ss bi ∧
        fitsT F c.syms (decls c.prog) (K.enter c.syms id ps) false body = true ∧ Sep c (K.enter c.syms id ps) false body ∧
        WtTree c.syms false [] body ∧ (∀ e ∈ body.exprs, FloatTexts fmtA ⟨fun _ => none, F, d.dbl⟩ e) ∧
        (∀ p ∈ chainDefs body, ObjAt c d fmtA F its p.1 p.2) ∧ ∀ x ∈ fileIds body, x ∈ fileIds c.prog))

theorem FuncAt.mono {its its' : List C.Item} {j id ps body} (h : FuncAt c d fmtA F its j id ps body) (hs : ∀ i ∈ its, i ∈ its') :
    FuncAt c d fmtA F its' j id ps body := by
  obtain ⟨K, sym, f, cps, h1, h2, h3, h4, ⟨h5, h6, h7⟩ | ⟨h5, st, ss, bi, h6, h7, h8, h9, h10, h11, h12, h13⟩⟩ := h
  · exact ⟨K, sym, f, cps, h1, h2, h3, h4, .inl ⟨h5, h6, hs _ h7⟩⟩
  · exact ⟨K, sym, f, cps, h1, h2, h3, h4, .inr ⟨h5, st, ss, bi, hs _ h6, h7, h8, h9, h10, h11, fun p hp => (h12 p hp).mono hs, h13⟩⟩

theorem body_of {K : CScope} {id ps child sym f cps} (h : ParamsAt c K id ps child sym f cps) :
    bodyOf c K.count = if f.isExternal then .nil else child := by
  unfold bodyOf
  rw [h.decl]
  simp only [isExternId, h.symbol, h.kind]

theorem top_func {K : CScope} {id ps p tok child next sym f cps} (hi : TopInv c K (.node (.func id ps) (.funcProto p) tok child next))
    (ha : ParamsAt c K id ps child sym f cps) (hp : f.isExternal = p.isExternal) :
    TopInv c { K with count := K.count + 1 } next ∧ (∀ q ∈ ps, q ∉ topIds c) ∧ New c { K with autos := ps } child.defs := by
  have hn : (id :: (ps ++ (child.defs ++ next.defs))).Nodup := hi.nodup
  have hn1 := (List.nodup_cons.1 hn).2
  have hn2 := (List.nodup_append.1 hn1).2.1
  have hfn : ((if p.isExternal then [] else fileIds child) ++ id :: fileIds next).Nodup := hi.fileNodup
  have hf2 := (List.nodup_append.1 hfn).2.1
  have hsub : ∀ x, x ∈ next.defs → x ∈ (ATree.node (.func id ps) (.funcProto p) tok child next).defs := fun x hx => by simp [ATree.defs, hx]
  refine ⟨⟨hi.self, hi.autos, hi.own, (List.nodup_append.1 hn2).2.1, fun x hx => hi.tops x (hsub x hx), hi.topSub, hi.topCov, hi.chain,
    (List.nodup_cons.1 hf2).2, fun x hx => hi.fileSub x (List.mem_append_right _ (List.mem_cons_of_mem _ hx)), fun i hlt x hx => ?_⟩, ?_, ?_⟩
  · by_cases hc : i < K.count
    · have := hi.before i hc x hx
      exact ⟨this.1, fun h => this.2 (List.mem_append_right _ (List.mem_cons_of_mem _ h))⟩
    · have : i = K.count := by have : i < K.count + 1 := hlt; omega
      subst this
      rw [body_of ha] at hx
      cases hext : f.isExternal with
      | true => rw [hext] at hx; simp [unknowns] at hx
      | false =>
        rw [hext] at hx
        obtain ⟨e, hm, _⟩ := unknowns_chain hx
        have hpe : p.isExternal = false := by rw [← hp]; exact hext
        have hxf : x ∈ (if p.isExternal then [] else fileIds child) := by rw [hpe]; exact chain_file hm
        exact ⟨hi.fileSub x (List.mem_append_left _ hxf), fun h => (List.nodup_append.1 hfn).2.2 x hxf x (List.mem_cons_of_mem _ h) rfl⟩
  · intro q hq ht
    rcases hi.topCov q ht with h1 | h1
    · exact hi.tops q (by simp [ATree.defs, hq]) h1
    · obtain ⟨r, h2, rfl⟩ := List.mem_map.1 h1
      exact (List.nodup_append.1 hn1).2.2 _ hq _ (List.mem_append_right _ (chain_defs (t := next) h2)) rfl
  · refine ⟨(List.nodup_append.1 hn2).1, fun x hx => ⟨?_, by show x ∉ K.own; rw [hi.own]; simp, fun ht => ?_⟩⟩
    · exact fun hps => (List.nodup_append.1 hn1).2.2 x hps x (List.mem_append_left _ hx) rfl
    · rcases hi.topCov x ht with h1 | h1
      · exact hi.tops x (by simp [ATree.defs, hx]) h1
      · obtain ⟨r, h2, rfl⟩ := List.mem_map.1 h1
        exact (List.nodup_append.1 hn2).2.2 _ hx _ (chain_defs (t := next) h2) rfl

theorem top_ok (hinj : ∀ x y, x ∈ fileIds c.prog → y ∈ fileIds c.prog → nameOf c.syms x = nameOf c.syms y → x = y) {K deep t o ss its}
    (h : Good c d fmtA F K deep t o ss its) : deep = false → TopInv c K t → Sep c K false t ∧
      ∀ (j id : Nat) (ps : List Nat) (body : ATree), (decls t)[j]? = some (id, ps, body) → FuncAt c d fmtA F its (K.count + j) id ps body := by
  induction h with
  | nil => intro _ _; exact ⟨trivial, fun j id ps body h => by simp [decls] at h⟩
  | same hp hl hn ih =>
    intro hd hw
    have := ih hd (hw.next hp).2
    exact ⟨sep_plain hp (sep_leaf hl) this.1, by rw [decls_plain hp, decls_leaf hl]; exact this.2⟩
  | simple hp hl hs hn ih =>
    intro hd hw
    have := ih hd (hw.next hp).2
    exact ⟨sep_plain hp (sep_leaf hl) this.1, by rw [decls_plain hp, decls_leaf hl]; exact this.2⟩
  | spin hp hl hn ih =>
    intro hd hw
    have := ih hd (hw.next hp).2
    exact ⟨sep_plain hp (sep_leaf hl) this.1, by rw [decls_plain hp, decls_leaf hl]; exact this.2⟩
  | known ha hk hx hn ih =>
    intro hd hw
    have := ih hd hw.obj
    refine ⟨hw.sep this.1, fun j id ps body h => ?_⟩
    have := this.2 j id ps body (by rw [decls_varDef] at h; exact h)
    rw [CScope.addObj_same.2.1] at this
    exact this.mono fun i hi => List.mem_cons_of_mem _ hi
  | unknown ha hk hx hn ih =>
    intro hd hw
    have := ih hd hw.obj
    refine ⟨hw.sep this.1, fun j id ps body h => ?_⟩
    have := this.2 j id ps body (by rw [decls_varDef] at h; exact h)
    rw [CScope.addObj_same.2.1] at this
    exact this.mono fun i hi => List.mem_cons_of_mem _ hi
  | loc => intro hd; cases hd
  | ifs hp hx hc hn ihc ih =>
    intro hd hw
    have := ih hd (hw.next hp).2
    exact ⟨sep_plain hp (sep_deep hc rfl (hw.next hp).1) this.1, by rw [decls_plain hp, good_nodecls hc (.inr rfl)]; exact this.2⟩
  | whiles hp hx hc hn ihc ih =>
    intro hd hw
    have := ih hd (hw.next hp).2
    exact ⟨sep_plain hp (sep_deep hc rfl (hw.next hp).1) this.1, by rw [decls_plain hp, good_nodecls hc (.inr rfl)]; exact this.2⟩
  | @external K id ps p tok child next sym f cps ss its ha he hp hl hn ih =>
    intro hd hi
    obtain ⟨t1, t2, t3⟩ := top_func hi ha (by rw [he, hp])
    have := ih hd t1
    refine ⟨this.1, fun j id' ps' body h => ?_⟩
    have e : decls (ATree.node (.func id ps) (.funcProto p) tok child next) = (id, ps, child) :: decls next := by
      simp only [decls, hp, if_true, List.nil_append]
    rw [e] at h
    cases j with
    | zero =>
      cases h
      exact ⟨K, sym, f, cps, rfl, ha, hi.topSub, t2, .inl ⟨he, hl, List.mem_cons_self ..⟩⟩
    | succ j =>
      have h2 := this.2 j id' ps' body h
      rw [show K.count + (j + 1) = K.count + 1 + j by omega]
      exact h2.mono fun i hi => List.mem_cons_of_mem _ hi
  | @func K id ps p tok child next sym f cps st ex body ss bi ni ha he hp hex hf hfi hw htx hc hn ihc ih =>
    intro hd hi
    obtain ⟨t1, t2, t3⟩ := top_func hi ha (by rw [he, hp])
    have := ih hd t1
    refine ⟨this.1, fun j id' ps' body' h => ?_⟩
    have e : decls (ATree.node (.func id ps) (.funcProto p) tok child next) = (id, ps, child) :: decls next := by
      simp only [decls, hp, Bool.false_eq_true, if_false, good_nodecls hc (.inl rfl), List.nil_append]
    rw [e] at h
    cases j with
    | zero =>
      cases h
      have hb : bodyOf c K.count = child := by rw [body_of ha, he]; rfl
      have hfile : ∀ x ∈ fileIds child, x ∈ fileIds (.node (.func id ps) (.funcProto p) tok child next) := by
        intro x hx
        simp only [fileIds, isForeign, hp, Bool.false_eq_true, if_false, List.mem_append]
        exact .inl hx
      have hfi' : FuncInv c (K.enter c.syms id ps) child := by
        refine ⟨rfl, ⟨t3.1, fun x hx => ⟨(t3.2 x hx).1, by show x ∉ []; simp, (t3.2 x hx).2.2⟩⟩, ?_, ?_, ?_⟩
        · intro q hq; show q ∈ chainDefs (bodyOf c K.count); rw [hb]; exact hq
        · intro q hq; show q ∈ unknowns (bodyOf c K.count); rw [hb]; exact hq
        · intro q hq id' hch heq
          have hqf := hfile _ (chain_file hq)
          have hch : Chg c K.count id' := hch
          rcases hch with h1 | ⟨i, h1, h2⟩
          · obtain ⟨r, h3, rfl⟩ := List.mem_map.1 h1
            have := hinj _ _ (chain_file h3) (hi.fileSub _ hqf) heq
            exact (t3.2 _ (chain_defs hq)).2.2 (this ▸ h1)
          · have h3 := hi.before i h1 id' h2
            have := hinj _ _ h3.1 (hi.fileSub _ hqf) heq
            exact h3.2 (this ▸ hqf)
      refine ⟨K, sym, f, cps, rfl, ha, hi.topSub, t2, .inr ⟨he, st, body, bi, ?_, hf, hfi, sep_func hc rfl hfi', hw, htx, ?_, ?_⟩⟩
      · exact List.mem_append_right _ (List.mem_cons_self ..)
      · exact fun q hq => (good_defs hc rfl q hq).mono fun i hi => List.mem_append_left _ (List.mem_append_left _ hi)
      · exact fun x hx => hi.fileSub x (hfile x hx)
    | succ j =>
      have h2 := this.2 j id' ps' body' h
      rw [show K.count + (j + 1) = K.count + 1 + j by omega]
      exact h2.mono fun i hi => List.mem_append_right _ (List.mem_cons_of_mem _ hi)
  | noElse hn ih => exact ih
  | comment hp hl hn ih =>
    intro hd hw
    have := ih hd (hw.next hp).2
    exact ⟨sep_plain hp (sep_leaf hl) this.1, by rw [decls_plain hp, decls_leaf hl]; exact this.2⟩
  | els hp hc hn ihc ih =>
    intro hd hw
    have := ih hd (hw.next hp).2
    exact ⟨sep_plain hp (sep_deep hc rfl (hw.next hp).1) this.1, by rw [decls_plain hp, good_nodecls hc (.inr rfl)]; exact this.2⟩
  | elif hp hx hc hn ihc ih =>
    intro hd hw
    have := ih hd (hw.next hp).2
    exact ⟨sep_plain hp (sep_deep hc rfl (hw.next hp).1) this.1, by rw [decls_plain hp, good_nodecls hc (.inr rfl)]; exact this.2⟩

end

end Skull.CSim
