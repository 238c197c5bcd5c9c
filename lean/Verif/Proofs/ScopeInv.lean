import Verif.Proofs.Walk
import Verif.Props.Types
/-
The invariant of the semantic check: how the state represents what is visible and what is declared.
-/
namespace Skull
open Spec

/- ### What does not change about a symbol -/

def SymKind.static : SymKind → SymKind
  | .var v => .var { v with wasRead := false, wasReassigned := false }
  | .func f => .func { f with wasCalled := false }
  | k => k

def Symbol.static (sym : Symbol) : Symbol := { sym with kind := sym.kind.static }

/-- What is fixed when a symbol is made. -/
def SymKind.core : SymKind → SymType × Option (Ty × Bool)
  | .var _ => (.var, none)
  | .func f => (.func, some (f.returnType, f.isExternal))
  | .alias => (.alias, none)
  | .ns _ => (.ns, none)

def Symbol.core (sym : Symbol) : SymType × Option (Ty × Bool) := sym.kind.core

theorem core_of_static {a b : Symbol} (h : a.static = b.static) : a.core = b.core := by
  have hk : a.kind.static = b.kind.static := congrArg Symbol.kind h
  unfold Symbol.core
  cases ha : a.kind <;> cases hb : b.kind <;> simp [ha, hb, SymKind.static, SymKind.core] at hk ⊢
  exact ⟨hk.2.2.1, hk.2.2.2.1⟩

/- ### The symbols represent the declarations -/

/-- A symbol stands for a declaration.  The current scope is not one a namespace is looked up in.  `pend` is a symbol that is not
finished. -/
inductive SymIs (scopes : List Scope) (cur pend : Option Nat) (n id : Nat) (et : Option Ty) : SymKind → Decl → Prop
  | var {v : Variable} : (pend ≠ some id → v.isDefined = true) → SymIs scopes cur pend n id et (.var v) (.var v.type (!v.isConst))
  | func {f : Func} {ps} : (pend ≠ some id → f.paramTypes = ps ∧ f.numParams = ps.length) →
      SymIs scopes cur pend n id et (.func f) (.func ps f.returnType)
  | alias : SymIs scopes cur pend n id et .alias (.alias et)
  | nsNone : SymIs scopes cur pend n id et (.ns none) (.ns [])
  | ns {j chain members} : Walk scopes (some j) chain members → (∀ i, cur = some i → i ∉ chain) → (∀ p ∈ members, p.2 < n) →
      SymIs scopes cur pend n id et (.ns (some j)) (.ns members)

/-- From `h` on, along `next`, and back along `last`. -/
inductive Path (scopes : List Scope) (h : Nat) : Nat → Prop
  | head : Path scopes h h
  | next {d e sd se} : Path scopes h d → scopes[d]? = some sd → sd.next = some e → scopes[e]? = some se → se.last = some d →
      d < e → Path scopes h e

/-- The current scope is in the block with head `h` and parent `par`. -/
def BlkAt (s : SS) (h : Nat) (par : Option Nat) : Prop :=
  ∃ cur sc, s.scope = some cur ∧ Path s.scopes h cur ∧ s.scopes[h]? = some sc ∧ sc.last = none ∧ sc.parent = par

/-- The current scope is in this block; `none` is the top level. -/
def Blk (s : SS) : Option (Nat × Nat) → Prop
  | none => s.scope = none ∨ ∃ h, BlkAt s h none
  | some (h, p) => BlkAt s h (some p) ∧ p < h

/-- The state represents the environment. -/
structure SInv (s : SS) (B : Option (Nat × Nat)) (E : Env) (pend : Option Nat) : Prop where
  len : s.syms.length = E.decls.length
  sym : ∀ id sym, s.syms[id]? = some sym →
    ∃ d, E.decls[id]? = some d ∧ SymIs s.scopes s.scope pend E.decls.length id sym.exprType sym.kind d
  vis : ∃ chain, Walk s.scopes s.scope chain E.vis
  ids : ∀ p ∈ E.vis, p.2 < E.decls.length
  blk : Blk s B
  tip : ∀ i sc, s.scope = some i → s.scopes[i]? = some sc → sc.next = none ∧ sc.child = none

/-- What a step leaves alone. -/
structure Frame (s s' : SS) : Prop where
  len : s.scopes.length ≤ s'.scopes.length
  keep : ∀ j, j < s.scopes.length → s.scope ≠ some j → s'.scopes[j]? = s.scopes[j]?
  cur : ∀ i sc, s.scope = some i → s.scopes[i]? = some sc →
    ∃ sc', s'.scopes[i]? = some sc' ∧ sc'.parent = sc.parent ∧ sc'.last = sc.last
  scope : s'.scope = s.scope ∨ ∃ j, s'.scope = some j ∧ s.scopes.length ≤ j
  syms : ∀ (id : Nat) (sym : Symbol), s.syms[id]? = some sym → ∃ sym', s'.syms[id]? = some sym' ∧ sym'.core = sym.core

theorem get_lt {α : Type} {l : List α} {i : Nat} {a : α} (h : l[i]? = some a) : i < l.length := by
  rcases Nat.lt_or_ge i l.length with h' | h'
  · exact h'
  · rw [List.getElem?_eq_none h'] at h; cases h

theorem Frame.refl (s : SS) : Frame s s :=
  ⟨Nat.le_refl _, fun _ _ _ => rfl, fun _ sc _ h => ⟨sc, h, rfl, rfl⟩, .inl rfl, fun _ sym h => ⟨sym, h, rfl⟩⟩

theorem Frame.trans {s s' s'' : SS} (h : Frame s s') (h' : Frame s' s'') : Frame s s'' := by
  refine ⟨Nat.le_trans h.len h'.len, ?_, ?_, ?_, ?_⟩
  · intro j hj hne
    rw [h'.keep j (Nat.lt_of_lt_of_le hj h.len), h.keep j hj hne]
    rcases h.scope with e | ⟨k, e, hk⟩
    · rw [e]; exact hne
    · rw [e]; intro e'; cases e'; omega
  · intro i sc hi hsc
    obtain ⟨sc', h1, h2, h3⟩ := h.cur i sc hi hsc
    rcases h.scope with e | ⟨k, e, hk⟩
    · obtain ⟨sc'', h4, h5, h6⟩ := h'.cur i sc' (by rw [e]; exact hi) h1
      exact ⟨sc'', h4, h5.trans h2, h6.trans h3⟩
    · have := get_lt hsc
      refine ⟨sc', ?_, h2, h3⟩
      rw [h'.keep i (get_lt h1), h1]
      rw [e]; intro e'; cases e'; omega
  · rcases h'.scope with e' | ⟨k, e', hk⟩
    · rw [e']; exact h.scope
    · exact .inr ⟨k, e', Nat.le_trans h.len hk⟩
  · intro id sym hs
    obtain ⟨sym', h1, h2⟩ := h.syms id sym hs
    obtain ⟨sym'', h3, h4⟩ := h'.syms id sym' h1
    exact ⟨sym'', h3, h4.trans h2⟩

/- ### Paths -/

theorem Path.le {scopes h d} (hp : Path scopes h d) : h ≤ d := by
  induction hp with
  | head => exact Nat.le_refl _
  | next _ _ _ _ _ h1 ih => omega

theorem Path.keep {scopes scopes' : List Scope} {h d} (hp : Path scopes h d)
    (h1 : ∀ j sc, h ≤ j → j < d → scopes[j]? = some sc → scopes'[j]? = some sc)
    (h2 : ∀ sc, scopes[d]? = some sc → ∃ sc', scopes'[d]? = some sc' ∧ sc'.last = sc.last) : Path scopes' h d := by
  induction hp with
  | head => exact .head
  | @next d e sd se hp h3 h4 h5 h6 h7 ih =>
    obtain ⟨se', h8, h9⟩ := h2 se h5
    refine .next (ih (fun j sc hj hjd => h1 j sc hj (by omega)) ?_) (h1 d sd hp.le h7 h3) h4 h8 (h9.trans h6) h7
    intro sc hsc
    exact ⟨sc, h1 d sc hp.le h7 hsc, rfl⟩

theorem scopeHead_path {scopes h d sc} (hp : Path scopes h d) (hs : scopes[h]? = some sc) (hl : sc.last = none) :
    ∀ f, d - h < f → scopeHead scopes f d = some h := by
  induction hp with
  | head =>
    intro f hf
    match f, hf with
    | f + 1, _ => simp [scopeHead, hs, hl]
  | @next d e sd se hp h3 h4 h5 h6 h7 ih =>
    intro f hf
    have := hp.le
    match f, hf with
    | f + 1, hf =>
      simp only [scopeHead, h5, h6]
      exact ih f (by omega)

theorem lastAdjacent_path {scopes h d} (hp : Path scopes h d) :
    ∃ k, k ≤ d - h ∧ ∀ f, lastAdjacent scopes (f + k) (some h) = lastAdjacent scopes f (some d) := by
  induction hp with
  | head => exact ⟨0, by omega, fun f => rfl⟩
  | @next d e sd se hp h3 h4 h5 h6 h7 ih =>
    obtain ⟨k, hk, ih⟩ := ih
    have := hp.le
    refine ⟨k + 1, by omega, fun f => ?_⟩
    have := ih (f + 1)
    rw [show f + (k + 1) = f + 1 + k by omega, this]
    conv => lhs; unfold lastAdjacent
    simp only [h3, h4]

theorem lastAdjacent_tip {scopes h d sd} (hp : Path scopes h d) (hs : scopes[d]? = some sd) (hn : sd.next = none) :
    lastAdjacent scopes (scopes.length + 1) (some h) = some (some d) := by
  obtain ⟨k, hk, hl⟩ := lastAdjacent_path hp
  have := get_lt hs
  have := hl (scopes.length + 1 - k)
  rw [show scopes.length + 1 - k + k = scopes.length + 1 by omega] at this
  rw [this]
  obtain ⟨m, hm⟩ : ∃ m, scopes.length + 1 - k = m + 1 := ⟨scopes.length - k, by omega⟩
  rw [hm]
  simp [lastAdjacent, hs, hn]

theorem BlkAt.findHead {s h par} (hb : BlkAt s h par) : findScopeHead s = some (some h) := by
  obtain ⟨cur, sc, h1, h2, h3, h4, h5⟩ := hb
  have : cur < s.scopes.length := by
    cases h2 with
    | head => exact get_lt h3
    | next _ _ _ h _ _ => exact get_lt h
  unfold findScopeHead
  rw [h1]
  simp only [scopeHead_path h2 h3 h4 (s.scopes.length + 1) (by omega), Option.map_some]

theorem isTopLvl_eq {s B} (hb : Blk s B) : isTopLvlScope s = .ok B.isNone s := by
  have key : ∀ h par, BlkAt s h par → isTopLvlScope s = .ok par.isNone s := by
    intro h par hb
    unfold isTopLvlScope
    rw [hb.findHead]
    obtain ⟨cur, sc, h1, h2, h3, h4, h5⟩ := hb
    simp [h3, h5]
  match B, hb with
  | none, .inl h => unfold isTopLvlScope findScopeHead; rw [h]; rfl
  | none, .inr ⟨h, hb⟩ => exact key h none hb
  | some (h, p), ⟨hb, _⟩ => exact key h (some p) hb

/- ### Lookups -/

theorem SInv.nsRep {s B E pend} (hi : SInv s B E pend) : NsRep s.scopes s.syms E.decls := by
  refine ⟨hi.len, fun id sym hs => ?_⟩
  obtain ⟨d, h1, h2⟩ := hi.sym id sym hs
  cases hk : sym.kind with
  | var v => rw [hk] at h2; cases h2; intro m; rw [h1]; intro e; cases e
  | func f => rw [hk] at h2; cases h2; intro m; rw [h1]; intro e; cases e
  | alias => rw [hk] at h2; cases h2; intro m; rw [h1]; intro e; cases e
  | ns j =>
    rw [hk] at h2
    cases h2 with
    | nsNone => exact h1
    | ns h3 h4 h5 => exact ⟨_, _, h1, h3, h5⟩

theorem fuel_enough (n c k m : Nat) (hc : c ≤ n) (hk : k ≤ m + 1) : c + 1 + (k - 1) * (n + 2) ≤ (n + 2) * (m + 2) := by
  have h1 : (k - 1) * (n + 2) ≤ m * (n + 2) := Nat.mul_le_mul_right _ (by omega)
  have h2 : (n + 2) * (m + 2) = m * (n + 2) + (n + 2) + (n + 2) := by
    rw [Nat.mul_comm, Nat.add_mul]; omega
  omega

theorem find_eq {s B E pend} (hi : SInv s B E pend) (x : List Char) : s.find x = some (E.resolve x) := by
  obtain ⟨chain, hw⟩ := hi.vis
  unfold SS.find Env.resolve
  exact findName_eq hi.nsRep (path x).length _ chain _ _ _ (Nat.le_refl _) hw hi.ids
    (fuel_enough _ _ _ _ hw.bounds.1 (path_length x))

theorem lookup_eq {s B E pend} (hi : SInv s B E pend) (x : List Char) : lookup x s = .ok (E.resolve x) s := by
  unfold lookup
  rw [find_eq hi]

theorem follow_lt {decls : List Decl} (hc : ∀ (id : Nat) (members : List (List Char × Nat)), decls[id]? = some (.ns members) → ∀ p ∈ members, p.2 < decls.length) :
    ∀ (p : List (List Char)) (vis : List (List Char × Nat)), (∀ q ∈ vis, q.2 < decls.length) →
      ∀ id, follow decls vis p = some id → id < decls.length
  | [], _, _, _, h => by simp [follow] at h
  | [x], vis, hv, id, h => hv _ (mem_of_lookup h)
  | x :: y :: more, vis, hv, id, h => by
    unfold follow at h
    split at h
    · rename_i members hm
      cases hl : vis.lookup x with
      | none => rw [hl] at hm; cases hm
      | some k =>
        rw [hl] at hm
        exact follow_lt hc (y :: more) members (hc k members hm) id h
    · cases h

theorem SInv.closed {s B E pend} (hi : SInv s B E pend) :
    ∀ (id : Nat) members, E.decls[id]? = some (.ns members) → ∀ p ∈ members, p.2 < E.decls.length := by
  intro id members hd
  have hlt := get_lt hd
  obtain ⟨sym, hs⟩ : ∃ sym, s.syms[id]? = some sym := ⟨_, List.getElem?_eq_getElem (by rw [hi.len]; exact hlt)⟩
  obtain ⟨d, h1, h2⟩ := hi.sym id sym hs
  rw [h1] at hd
  cases hd
  generalize sym.kind = k at h2
  cases h2 with
  | nsNone => intro p hp; simp at hp
  | ns _ _ h => exact h

theorem SInv.resolve_lt {s B E pend} (hi : SInv s B E pend) {x id} (h : E.resolve x = some id) : id < E.decls.length :=
  follow_lt hi.closed _ _ hi.ids id h

/-- The symbol found for a name stands for the declaration the name denotes. -/
theorem SInv.found {s B E pend} (hi : SInv s B E pend) {x id} (h : E.resolve x = some id) :
    ∃ sym d, s.syms[id]? = some sym ∧ E.decl x = some d ∧ E.decls[id]? = some d ∧
      SymIs s.scopes s.scope pend E.decls.length id sym.exprType sym.kind d := by
  have hlt := hi.resolve_lt h
  obtain ⟨sym, hs⟩ : ∃ sym, s.syms[id]? = some sym := ⟨_, List.getElem?_eq_getElem (by rw [hi.len]; exact hlt)⟩
  obtain ⟨d, h1, h2⟩ := hi.sym id sym hs
  exact ⟨sym, d, hs, by simp [Env.decl, h, h1], h1, h2⟩

theorem symAt_eq {s : SS} {id sym} (h : s.syms[id]? = some sym) : symAt id s = .ok sym s := by
  unfold symAt; rw [h]

theorem builtin_eq (x : List Char) : (findBuiltinType x).map Ty.prim = builtinType x := by
  have h := fun p => C32_builtin_names x p
  cases hf : findBuiltinType x with
  | some p =>
    have := (h p).1 hf
    subst this
    cases p <;> decide
  | none =>
    unfold builtinType
    symm
    rw [Option.map_none, List.find?_eq_none]
    intro τ hτ
    simp only [List.map_cons, List.map_nil, List.mem_cons, List.not_mem_nil, or_false] at hτ
    simp only [decide_eq_true_eq]
    intro e
    rcases hτ with rfl | rfl | rfl | rfl | rfl | rfl
    all_goals
      have := (h _).2 e.symm
      rw [hf] at this
      cases this

theorem findType_eq {s B E pend} (hi : SInv s B E pend) (x : List Char) : findType x s = .ok (E.typeNamed x) s := by
  unfold findType
  rw [bind_of _ (lookup_eq hi x)]
  cases hr : E.resolve x with
  | none =>
    have : E.decl x = none := by simp [Env.decl, hr]
    simp only [Env.typeNamed, this, builtin_eq]
    rfl
  | some id =>
    obtain ⟨sym, d, h1, h2, h3, h4⟩ := hi.found hr
    simp only
    rw [bind_of _ (symAt_eq h1)]
    simp only [Env.typeNamed, h2, builtin_eq]
    cases hk : sym.kind with
    | alias => rw [hk] at h4; cases h4; rfl
    | _ => rw [hk] at h4; cases h4 <;> rfl

theorem findFuncByName_eq {s B E pend} (hi : SInv s B E pend) (x : List Char) :
    findFuncByName x s = .ok (match E.decl x with | some (.func _ _) => E.resolve x | _ => none) s := by
  unfold findFuncByName
  rw [bind_of _ (lookup_eq hi x)]
  cases hr : E.resolve x with
  | none =>
    have : E.decl x = none := by simp [Env.decl, hr]
    simp only [this]
    rfl
  | some id =>
    obtain ⟨sym, d, h1, h2, h3, h4⟩ := hi.found hr
    simp only
    rw [bind_of _ (symAt_eq h1)]
    simp only [h2]
    cases hk : sym.kind with
    | _ => rw [hk] at h4; cases h4 <;> rfl

theorem funcOrAlias_eq {s B E pend} (hi : SInv s B E pend) (x : List Char) :
    funcOrAlias x s = .ok (match E.decl x with
      | some (.func _ _) => .func
      | _ => match E.typeNamed x with | some _ => .alias | none => .unknown) s := by
  unfold funcOrAlias
  rw [bind_of _ (findFuncByName_eq hi x)]
  have ht := findType_eq hi x
  have hh : ∀ o : Option Ty, findType x s = .ok o s → (do
      match ← findType x with
      | some _ => pure SymType.alias
      | none => pure .unknown : Chk SymType) s = .ok (match o with | some _ => .alias | none => .unknown) s := by
    intro o ho
    rw [bind_of _ ho]
    cases o <;> rfl
  have hh := hh _ ht
  cases hr : E.resolve x with
  | none =>
    have hd : E.decl x = none := by simp [Env.decl, hr]
    simp only [hd]
    exact hh
  | some id =>
    obtain ⟨sym, d, h1, h2, h3, h4⟩ := hi.found hr
    cases d with
    | func ps r => simp only [h2]; rfl
    | var τ m => simp only [h2]; exact hh
    | alias o => simp only [h2]; exact hh
    | ns l => simp only [h2]; exact hh

/-- The kind found directly. -/
def directOf : Decl → SymType
  | .var _ _ => .var
  | .ns _ => .ns
  | _ => .unknown

/-- Whether something has the name already. -/
theorem findSymbolType_eq {s B E pend} (hi : SInv s B E pend) (x : List Char) :
    ∃ k, findSymbolType x s = .ok k s ∧ (k = .unknown ↔ E.Free x) := by
  unfold findSymbolType
  rw [bind_of _ (lookup_eq hi x)]
  have hfa := funcOrAlias_eq hi x
  cases hr : E.resolve x with
  | none =>
    have hd : E.decl x = none := by simp [Env.decl, hr]
    rw [bind_of _ (show directType none s = .ok .unknown s from rfl)]
    refine ⟨_, hfa, ?_⟩
    simp only [Env.typeNamed, Env.Free, hd]
    cases builtinType x <;> simp
  | some id =>
    obtain ⟨sym, d, h1, h2, h3, h4⟩ := hi.found hr
    have hdir : directType (some id) s = .ok (directOf d) s := by
      unfold directType
      simp only
      rw [bind_of _ (symAt_eq h1)]
      cases hk : sym.kind with
      | _ => rw [hk] at h4; cases h4 <;> rfl
    rw [bind_of _ hdir]
    simp only [Env.typeNamed, Env.Free, h2] at hfa ⊢
    cases d with
    | var τ m => exact ⟨_, rfl, by simp [directOf]⟩
    | ns l => exact ⟨_, rfl, by simp [directOf]⟩
    | func ps r => exact ⟨_, hfa, by simp⟩
    | alias o => cases o <;> exact ⟨_, hfa, by simp⟩

end Skull
