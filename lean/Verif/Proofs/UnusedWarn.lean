import Verif.Proofs.UnusedTree
/-
The warnings about unused symbols are those of the marks.
-/
namespace Skull
open Spec

/-- `Unused` for given marks. -/
inductive UnusedBy (u : Mark → Nat → Bool) : Ann → Stmt → PDiag → Prop
  | read {id e n rest isConst isImplicit x} : u .read id = false →
      UnusedBy u (.varDef id e) (.varDef (n :: rest) isConst isImplicit false x) ⟨.warnVarUnused, some n⟩
  | assigned {id e n rest isImplicit isExported x} : u .assigned id = false →
      UnusedBy u (.varDef id e) (.varDef (n :: rest) false isImplicit isExported x) ⟨.warnVarNotConst, some n⟩
  | called {id ps p} : u .called id = false → UnusedBy u (.func id ps) (.funcProto p) ⟨.warnFuncUnused, some p.name⟩

/-- A step that only reports the diagnostics `ds`, and takes `err` to `err'`. -/
structure Warned (cfg : Cfg) (s s' : SS) (err err' : Bool) (ds : List PDiag) : Prop where
  syms : s'.syms = s.syms
  diags : s'.diags = ds ++ s.diags
  err : err' = (err || (cfg.werror && !ds.isEmpty))

theorem warnIf_warned {cfg c err code t s err' s'} (h : warnIf cfg c err code t s = .ok err' s') :
    ∃ ds, Warned cfg s s' err err' ds ∧ ∀ d, d ∈ ds ↔ c = true ∧ d = ⟨code, t⟩ := by
  unfold warnIf at h
  split at h
  · rename_i hc
    replace h := bind_ok_unit.1 h
    obtain ⟨s₁, h1, h⟩ := h
    cases h1
    cases h
    exact ⟨[⟨code, t⟩], ⟨rfl, rfl, by simp⟩, fun d => by simp [hc]⟩
  · rename_i hc
    cases h
    exact ⟨[], ⟨rfl, rfl, by simp⟩, fun d => by simp [hc]⟩

theorem Warned.trans {cfg s s₁ s₂ e e₁ e₂ ds es} (h : Warned cfg s s₁ e e₁ ds) (h' : Warned cfg s₁ s₂ e₁ e₂ es) :
    Warned cfg s s₂ e e₂ (es ++ ds) := by
  refine ⟨h'.syms.trans h.syms, by rw [h'.diags, h.diags, List.append_assoc], ?_⟩
  rw [h'.err, h.err]
  cases ds <;> cases es <;> simp [Bool.or_assoc]

theorem mark_var {s : SS} {id sym v} (hs : s.syms[id]? = some sym) (hk : sym.kind = .var v) :
    s.mark .read id = v.wasRead ∧ s.mark .assigned id = v.wasReassigned := by
  simp [SS.mark, hs, Symbol.mark, hk]

theorem mark_func {s : SS} {id sym f} (hs : s.syms[id]? = some sym) (hk : sym.kind = .func f) : s.mark .called id = f.wasCalled := by
  simp [SS.mark, hs, Symbol.mark, hk]

theorem unusedSym_warned {cfg err ann stmt child s sym err' s' id} (hl : NodeLink s.syms ann stmt child)
    (hid : (∃ e, ann = .varDef id e) ∨ ∃ ps, ann = .func id ps) (hs : s.syms[id]? = some sym)
    (h : unusedSym cfg err sym s = .ok err' s') : ∃ ds, Warned cfg s s' err err' ds ∧ ∀ d, d ∈ ds ↔ UnusedBy s.mark ann stmt d := by
  rcases hid with ⟨e, rfl⟩ | ⟨ps, rfl⟩
  · obtain ⟨_, n, rest, c, i, x, ex, sym', rfl, h1, h2⟩ := hl
    rw [hs] at h1
    cases h1
    unfold unusedSym at h
    cases hk : sym.kind <;> simp [Symbol.fixed, hk, SymKind.symType] at h2
    rename_i v
    obtain ⟨h3, h4, h5⟩ := h2
    simp only [hk] at h
    replace h := bind_ok.1 h
    obtain ⟨e₁, s₁, g1, h⟩ := h
    obtain ⟨ds, k1, m1⟩ := warnIf_warned g1
    obtain ⟨es, k2, m2⟩ := warnIf_warned h
    obtain ⟨r1, r2⟩ := mark_var hs hk
    refine ⟨_, k1.trans k2, fun d => ?_⟩
    rw [List.mem_append, m1, m2, h3, h4, h5]
    simp only [Bool.and_eq_true, Bool.not_eq_true']
    constructor
    · rintro (⟨⟨a, rfl⟩, rfl⟩ | ⟨⟨rfl, a⟩, rfl⟩)
      · exact .read (r1.trans a)
      · exact .assigned (r2.trans a)
    · intro hu
      cases hu with
      | read a => exact .inl ⟨⟨r1.symm.trans a, rfl⟩, rfl⟩
      | assigned a => exact .inr ⟨⟨rfl, r2.symm.trans a⟩, rfl⟩
  · obtain ⟨p, sym', rfl, h1, h2⟩ := hl
    rw [hs] at h1
    cases h1
    unfold unusedSym at h
    cases hk : sym.kind <;> simp [Symbol.fixed, hk, SymKind.symType] at h2
    simp only [hk] at h
    obtain ⟨ds, k1, m1⟩ := warnIf_warned h
    have r := mark_func hs hk
    refine ⟨ds, k1, fun d => ?_⟩
    rw [m1, h2]
    simp only [Bool.not_eq_true']
    constructor
    · rintro ⟨a, rfl⟩; exact .called (r.trans a)
    · intro hu
      cases hu with
      | called a => exact ⟨r.symm.trans a, rfl⟩

theorem within_nil {f b a st} (h : Within f b .nil a st) : False := by cases h
theorem within_unchecked {f b t a st} (h : Within f b (.unchecked t) a st) : False := by cases h

theorem within_node' {f b t a st} (h : Within f b t a st) : f = false → ∀ {ann stmt tok child next},
    t = .node ann stmt tok child next → (b = false ∧ a = ann ∧ st = stmt) ∨ Within false b next a st ∨
      (b = true ∧ ann.isFunc = false ∧ ∃ b', Within false b' child a st) := by
  intro hf ann stmt tok child next ht
  cases h with
  | here => cases ht; exact .inl ⟨rfl, rfl, rfl⟩
  | next h1 => cases ht; subst hf; exact .inr (.inl h1)
  | child h1 =>
    cases ht
    replace hf := Bool.or_eq_false_iff.1 hf
    rw [hf.1] at h1
    exact .inr (.inr ⟨rfl, hf.2, _, h1⟩)

theorem within_node {b ann stmt tok child next a st} (h : Within false b (.node ann stmt tok child next) a st) :
    (b = false ∧ a = ann ∧ st = stmt) ∨ Within false b next a st ∨ (b = true ∧ ann.isFunc = false ∧ ∃ b', Within false b' child a st) :=
  within_node' h rfl rfl

theorem within_vars {f b t a st id e} (h : Within f b t a st) (he : a = .varDef id e) : id ∈ t.vars := by
  induction h with
  | here => subst he; simp [ATree.vars, Ann.vars]
  | next _ ih => simp [ATree.vars, ih he]
  | child _ ih => simp [ATree.vars, ih he]

/-- What checking a tree for unused symbols gives. -/
def UnusedOk (cfg : Cfg) (err : Bool) (t : ATree) (s : SS) (err' : Bool) (s' : SS) : Prop :=
  ∃ ds, s'.syms = s.syms ∧ s'.diags = ds ++ s.diags ∧
    (∀ d, d ∈ ds ↔ ∃ b ann stmt, Within false b t ann stmt ∧ UnusedBy s.mark ann stmt d) ∧
    ((∀ ann stmt d, Within false true t ann stmt → ¬ UnusedBy s.mark ann stmt d) → err' = (err || (cfg.werror && !ds.isEmpty)))

theorem mark_syms {s s' : SS} (h : s'.syms = s.syms) : s'.mark = s.mark := by
  funext m id; unfold SS.mark; rw [h]

theorem checkUnused_def {cfg err ann stmt tok child next s err' s' id} (hl : Links s.syms (.node ann stmt tok child next))
    (hid : (∃ e, ann = .varDef id e) ∨ ∃ ps, ann = .func id ps)
    (h : (do
      let sym ← symAt id
      let err ← unusedSym cfg err sym
      checkUnused cfg err next : Chk Bool) s = .ok err' s')
    (ih : ∀ err s, Links s.syms next → checkUnused cfg err next s = .ok err' s' → UnusedOk cfg err next s err' s') :
    UnusedOk cfg err (.node ann stmt tok child next) s err' s' := by
  replace h := bind_ok.1 h
  obtain ⟨sym, s₁, h1, h⟩ := h
  have h4 : s.syms[id]? = some sym ∧ s₁ = s := by
    unfold symAt at h1
    split at h1 <;> cases h1
    exact ⟨by assumption, rfl⟩
  obtain ⟨h4, rfl⟩ := h4
  replace h := bind_ok.1 h
  obtain ⟨e₁, s₂, h2, h⟩ := h
  obtain ⟨ds, k1, m1⟩ := unusedSym_warned hl.1 hid h4 h2
  obtain ⟨es, k2, k3, k4, k5⟩ := ih _ _ (by rw [k1.syms]; exact hl.2.2) h
  rw [mark_syms k1.syms] at k4 k5
  refine ⟨es ++ ds, k2.trans k1.syms, by rw [k3, k1.diags, List.append_assoc], fun d => ?_, fun hn => ?_⟩
  · rw [List.mem_append, k4, m1]
    constructor
    · rintro (⟨b, a, st, h1, h2⟩ | h1)
      · exact ⟨b, a, st, .next h1, h2⟩
      · exact ⟨_, _, _, .here, h1⟩
    · rintro ⟨b, a, st, h1, h2⟩
      replace h1 := within_node h1
      rcases h1 with ⟨_, rfl, rfl⟩ | h1 | ⟨_, hf, b', h1⟩
      · exact .inr h2
      · exact .inl ⟨_, _, _, h1, h2⟩
      · rcases hid with ⟨e, rfl⟩ | ⟨ps, rfl⟩
        · exact (within_nil (hl.1.1 ▸ h1)).elim
        · cases hf
  · rw [k5 fun a st d hw => hn a st d (.next hw), k1.err]
    cases ds <;> cases es <;> simp [Bool.or_assoc]

theorem checkUnused_block {cfg err ann stmt tok child next s err' s'} (hl : Links s.syms (.node ann stmt tok child next))
    (hf : ann.isFunc = false) (hv : ann.vars = [])
    (h : (do
      let inner ← checkUnused cfg false child
      checkUnused cfg (err && !inner) next : Chk Bool) s = .ok err' s')
    (ihc : ∀ s err' s', Links s.syms child → checkUnused cfg false child s = .ok err' s' → UnusedOk cfg false child s err' s')
    (ih : ∀ err s, Links s.syms next → checkUnused cfg err next s = .ok err' s' → UnusedOk cfg err next s err' s') :
    UnusedOk cfg err (.node ann stmt tok child next) s err' s' := by
  replace h := bind_ok.1 h
  obtain ⟨inner, s₁, h1, h⟩ := h
  obtain ⟨ds, c1, c2, c3, c4⟩ := ihc _ _ _ hl.2.1 h1
  obtain ⟨es, k2, k3, k4, k5⟩ := ih _ _ (by rw [c1]; exact hl.2.2) h
  rw [mark_syms c1] at k4 k5
  have hno : ∀ d, ¬ UnusedBy s.mark ann stmt d := by
    intro d hu
    cases hu <;> first | (cases hf; done) | (cases hv; done)
  refine ⟨es ++ ds, k2.trans c1, by rw [k3, c2, List.append_assoc], fun d => ?_, fun hn => ?_⟩
  · rw [List.mem_append, k4, c3]
    constructor
    · rintro (⟨b, a, st, h1, h2⟩ | ⟨b, a, st, h1, h2⟩)
      · exact ⟨b, a, st, .next h1, h2⟩
      · exact ⟨true, a, st, by have := Within.child (ann := ann) (stmt := stmt) (tok := tok) (next := next) h1; rwa [hf] at this, h2⟩
    · rintro ⟨b, a, st, h1, h2⟩
      replace h1 := within_node h1
      rcases h1 with ⟨_, rfl, rfl⟩ | h1 | ⟨_, _, b', h1⟩
      · exact absurd h2 (hno d)
      · exact .inl ⟨_, _, _, h1, h2⟩
      · exact .inr ⟨_, _, _, h1, h2⟩
  · have hc : ∀ b a st d, Within false b child a st → ¬ UnusedBy s.mark a st d := by
      intro b a st d hw
      refine hn a st d ?_
      have := Within.child (ann := ann) (stmt := stmt) (tok := tok) (next := next) hw
      rwa [hf] at this
    have hds : ds = [] := by
      cases ds with
      | nil => rfl
      | cons d ds =>
        obtain ⟨b, a, st, h1, h2⟩ := (c3 d).1 (by simp)
        exact absurd h2 (hc _ _ _ _ h1)
    have hi : inner = false := by
      rw [c4 fun a st d hw => hc _ a st d hw, hds]
      simp
    rw [k5 fun a st d hw => hn a st d (.next hw), hds, hi]
    simp

theorem checkUnused_ok {cfg : Cfg} : ∀ (t : ATree) (err : Bool) (s : SS) (err' : Bool) (s' : SS), Links s.syms t →
    checkUnused cfg err t s = .ok err' s' → UnusedOk cfg err t s err' s'
  | .nil, err, s, err', s', hl, h => by
    unfold checkUnused at h
    cases h
    exact ⟨[], rfl, rfl, fun d => ⟨(fun h => by cases h), fun ⟨_, _, _, h, _⟩ => (within_nil h).elim⟩, by simp⟩
  | .unchecked t, err, s, err', s', hl, h => by
    unfold checkUnused at h
    split at h
    · cases h
      exact ⟨[], rfl, rfl, fun d => ⟨(fun h => by cases h), fun ⟨_, _, _, h, _⟩ => (within_unchecked h).elim⟩, by simp⟩
    · cases h
  | .node ann stmt tok child next, err, s, err', s', hl, h => by
    have ihn := fun (err : Bool) (s : SS) (hl : Links s.syms next) h => checkUnused_ok (cfg := cfg) next err s err' s' hl h
    cases ann with
    | varDef id e =>
      simp only [checkUnused] at h
      exact checkUnused_def hl (.inl ⟨e, rfl⟩) h ihn
    | func id ps =>
      simp only [checkUnused] at h
      exact checkUnused_def hl (.inr ⟨ps, rfl⟩) h ihn
    | _ =>
      refine checkUnused_block hl rfl rfl ?_ (fun s err' s' hl h => checkUnused_ok child false s err' s' hl h) ihn
      cases child with
      | nil =>
        simp only [checkUnused] at h ⊢
        refine bind_ok.2 ⟨false, s, rfl, ?_⟩
        simpa using h
      | _ => simpa only [checkUnused] using h

/- ### Programs -/

/-- The diagnostics of an accepted program. -/
theorem semantic_warned {cfg : Cfg} {t : Tree} {a : ATree} {s : SS} (hq : cfg.quiet = false) (h : semantic cfg t = .ok a s) :
    ∃ ds es, s.diags = ds ++ es ∧ (∀ d ∈ es, isUnusedCode d.code = false) ∧ (cfg.werror = true → es = []) ∧
      (∀ d, d ∈ ds ↔ ∃ b ann stmt, Within false b a ann stmt ∧ Unused a ann stmt d) ∧
      (cfg.werror = true → (∀ ann stmt d, Within false true a ann stmt → ¬ Unused a ann stmt d) → ds = []) := by
  unfold semantic at h
  cases hs : setupState cfg with
  | none => rw [hs] at h; cases h
  | some s₀ =>
    rw [hs] at h
    simp only at h
    unfold validateAstTree at h
    replace h := bind_ok.1 h
    obtain ⟨a', s₁, h1, h⟩ := h
    replace h := bind_ok_unit.1 h
    obtain ⟨s₂, h2, h⟩ := h
    replace h := bind_ok_unit.1 h
    obtain ⟨s₃, h3, h⟩ := h
    rw [hq] at h
    simp only [Bool.false_eq_true, if_false] at h
    replace h := bind_ok.1 h
    obtain ⟨err, s₄, h4, h⟩ := h
    split at h
    · cases h
    · rename_i herr
      cases h
      have k1 := nodes_tr t _ _ _ _ h1
      have k2 := resetScopeHead_keeps _ _ _ h2
      have k3 := resetScopeHead_keeps _ _ _ h3
      have hs13 : s₃.syms = s₁.syms := k3.1.trans k2.1
      obtain ⟨ds, c1, c2, c3, c4⟩ := checkUnused_ok a false s₃ err s (by rw [hs13]; exact k1.links) h4
      obtain ⟨es, e1, e2, e3⟩ := k1.tr.diags
      have h0 : s₀.diags = [] ∧ ∀ m id, s₀.mark m id = false := by
        unfold setupState at hs
        cases hn : createMainFuncName cfg.filename with
        | none => rw [hn] at hs; cases hs
        | some name =>
          rw [hn] at hs
          cases hs
          refine ⟨rfl, fun m id => ?_⟩
          cases id <;> cases m <;> simp [SS.mark, Symbol.mark]
      have hm : ∀ m id, s₃.mark m id = a.use m id := by
        intro m id
        rw [mark_syms hs13, k1.tr.marks, h0.2, Bool.false_or]
      have key : ∀ b ann stmt d, Within false b a ann stmt → (UnusedBy s₃.mark ann stmt d ↔ Unused a ann stmt d) := by
        intro b ann stmt d hw
        have hext : ∀ id e, ann = .varDef id e → id ∉ a.exts := by
          intro id e he
          exact k1.apart id (within_vars hw he)
        constructor
        · intro hu
          cases hu with
          | read h => exact .read (by simpa [hm, ATree.use, hext _ _ rfl] using h)
          | assigned h => exact .assigned (by simpa [hm, ATree.use, hext _ _ rfl] using h)
          | called h => exact .called (by simpa [hm, ATree.use] using h)
        · intro hu
          cases hu with
          | read h => exact .read (by simpa [hm, ATree.use, hext _ _ rfl] using h)
          | assigned h => exact .assigned (by simpa [hm, ATree.use, hext _ _ rfl] using h)
          | called h => exact .called (by simpa [hm, ATree.use] using h)
      refine ⟨ds, es, by rw [c2, k3.2, k2.2, e1, h0.1, List.append_nil], e2, e3, fun d => ?_, fun hw hn => ?_⟩
      · rw [c3]
        exact ⟨fun ⟨b, an, st, h1, h2⟩ => ⟨b, an, st, h1, (key _ _ _ _ h1).1 h2⟩,
          fun ⟨b, an, st, h1, h2⟩ => ⟨b, an, st, h1, (key _ _ _ _ h1).2 h2⟩⟩
      · have := c4 fun an st d h1 h2 => hn an st d h1 ((key _ _ _ _ h1).1 h2)
        rw [this, hw] at herr
        cases ds with
        | nil => rfl
        | cons => simp at herr

end Skull
