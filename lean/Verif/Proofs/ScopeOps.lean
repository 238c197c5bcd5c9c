import Verif.Proofs.ScopeInv
/-
Declaring a name, opening a block and closing it.
-/
namespace Skull
open Spec

theorem Walk.tail_lt {scopes : List Scope} {i chain vis} {sc : Scope} (h : Walk scopes sc.up chain vis)
    (hu : ∀ u, sc.up = some u → u < i) : ∀ j ∈ chain, j < i := by
  intro j hj
  cases hs : sc.up with
  | none => rw [hs] at h; cases h; simp at hj
  | some u =>
    have := (h.bounds.2.2 u hs).2 j hj
    have := hu u hs
    omega

theorem SymIs.keep {scopes scopes' cur cur' pend n n' id et k d} (h : SymIs scopes cur pend n id et k d)
    (hs : ∀ (j : Nat) (sc : Scope), scopes[j]? = some sc → cur ≠ some j → ∃ sc', scopes'[j]? = some sc' ∧ SameLook sc sc')
    (hc : ∀ i, cur' = some i → cur = some i ∨ scopes.length ≤ i) (hn : n ≤ n') : SymIs scopes' cur' pend n' id et k d := by
  cases h with
  | var h => exact .var h
  | func h => exact .func h
  | alias => exact .alias
  | nsNone => exact .nsNone
  | ns h1 h2 h3 =>
    refine .ns (h1.keep fun j hj sc hsc => hs j sc hsc fun e => h2 j e hj) ?_ fun p hp => Nat.lt_of_lt_of_le (h3 p hp) hn
    intro i hi hmem
    rcases hc i hi with e | e
    · exact h2 i e hmem
    · have := h1.bounds.2.1 i hmem
      omega

theorem sameLook_refl (sc : Scope) : SameLook sc sc := ⟨rfl, rfl, rfl⟩

theorem getElem?_append_old {α : Type} {l l' : List α} {i : Nat} {a : α} (h : l[i]? = some a) : (l ++ l')[i]? = some a := by
  rw [List.getElem?_append_left (get_lt h), h]

theorem getElem?_set_ne' {α : Type} {l : List α} {i j : Nat} {a : α} (h : i ≠ j) : (l.set i a)[j]? = l[j]? :=
  List.getElem?_set_ne h

theorem getElem?_set_self' {α : Type} {l : List α} {i : Nat} {a b : α} (h : l[i]? = some b) : (l.set i a)[i]? = some a :=
  List.getElem?_set_self (get_lt h)

theorem getElem?_append_new {α : Type} (l : List α) (a : α) : (l ++ [a])[l.length]? = some a := by
  simp

/-- The fields a step leaves alone. -/
def Same (s s' : SS) : Prop := s'.currentFunc = s.currentFunc ∧ s'.lastFunc = s.lastFunc ∧ s'.whileDepth = s.whileDepth

theorem Same.refl (s : SS) : Same s s := ⟨rfl, rfl, rfl⟩
theorem Same.trans {s s' s'' : SS} (h : Same s s') (h' : Same s' s'') : Same s s'' :=
  ⟨h'.1.trans h.1, h'.2.1.trans h.2.1, h'.2.2.trans h.2.2⟩

/- ### The first scope -/

/-- The state with a current scope. -/
def SS.withScope (s : SS) : SS :=
  match s.scope with
  | some _ => s
  | none => { s with scopes := s.scopes ++ [{}], scope := some s.scopes.length }

theorem withScope_some {s : SS} {i} (h : s.scope = some i) : s.withScope = s := by
  unfold SS.withScope; rw [h]

theorem withScope_none {s : SS} (h : s.scope = none) :
    s.withScope = { s with scopes := s.scopes ++ [{}], scope := some s.scopes.length } := by
  unfold SS.withScope; rw [h]

theorem currentScope_eq (s : SS) {i} (h : s.withScope.scope = some i) : currentScope s = .ok i s.withScope := by
  unfold currentScope
  cases hs : s.scope with
  | some j => rw [withScope_some hs] at h ⊢; rw [hs] at h; cases h; rfl
  | none => rw [withScope_none hs] at h ⊢; cases h; rfl

theorem Walk.cur {scopes : List Scope} {i chain vis} (h : Walk scopes (some i) chain vis) : ∃ sc, scopes[i]? = some sc := by
  cases h with
  | scope h => exact ⟨_, h⟩

theorem withScope_inv {s B E pend} (hi : SInv s B E pend) :
    SInv s.withScope B E pend ∧ Frame s s.withScope ∧ Same s s.withScope ∧ s.withScope.syms = s.syms ∧
      ∃ i sc, s.withScope.scope = some i ∧ s.withScope.scopes[i]? = some sc := by
  cases hs : s.scope with
  | some i =>
    rw [withScope_some hs]
    obtain ⟨chain, hw⟩ := hi.vis
    rw [hs] at hw
    obtain ⟨sc, hsc⟩ := hw.cur
    exact ⟨hi, .refl s, .refl s, rfl, i, sc, hs, hsc⟩
  | none =>
    rw [withScope_none hs]
    refine ⟨⟨hi.len, ?_, ?_, hi.ids, ?_, ?_⟩, ⟨by simp, ?_, ?_, ?_, ?_⟩, ⟨rfl, rfl, rfl⟩, rfl, _, _, rfl, getElem?_append_new _ _⟩
    · intro id sym hsym
      obtain ⟨d, h1, h2⟩ := hi.sym id sym hsym
      refine ⟨d, h1, h2.keep ?_ ?_ (Nat.le_refl _)⟩
      · intro j sc hsc _
        exact ⟨sc, getElem?_append_old hsc, sameLook_refl sc⟩
      · intro i e
        cases e
        exact .inr (Nat.le_refl _)
    · obtain ⟨chain, hw⟩ := hi.vis
      rw [hs] at hw
      cases hw'' : E.vis with
      | cons p l => rw [hw''] at hw; cases hw
      | nil =>
        have := Walk.scope (scopes := s.scopes ++ [{}]) (i := s.scopes.length) (own := []) (chain := []) (vis := [])
          (getElem?_append_new _ _) (.inl ⟨rfl, rfl⟩) (fun u hu => by cases hu) .none
        exact ⟨_, this⟩
    · have hb := hi.blk
      match B, hb with
      | none, _ => exact .inr ⟨s.scopes.length, s.scopes.length, {}, rfl, .head, getElem?_append_new _ _, rfl, rfl⟩
      | some (h, p), ⟨⟨cur, sc, h1, _⟩, _⟩ => rw [hs] at h1; cases h1
    · intro i sc h1 h2
      cases h1
      rw [getElem?_append_new] at h2
      cases h2
      exact ⟨rfl, rfl⟩
    · intro j hj _
      exact List.getElem?_append_left hj
    · intro i sc h1
      rw [hs] at h1; cases h1
    · exact .inr ⟨_, rfl, Nat.le_refl _⟩
    · intro id sym h
      exact ⟨sym, h, rfl⟩

/- ### Declaring a name -/

theorem alreadyExists_free {s B E pend sym} (hi : SInv s B E pend) (hf : E.Free sym.name) :
    symbolAlreadyExists sym s = .ok false s := by
  obtain ⟨k, h1, h2⟩ := findSymbolType_eq hi sym.name
  unfold symbolAlreadyExists
  rw [bind_of _ h1, if_pos (h2.2 hf)]
  rfl

theorem alreadyExists_false {s B E pend sym s'} (hi : SInv s B E pend) (h : symbolAlreadyExists sym s = .ok false s') :
    E.Free sym.name ∧ s' = s := by
  obtain ⟨k, h1, h2⟩ := findSymbolType_eq hi sym.name
  unfold symbolAlreadyExists at h
  rw [bind_of _ h1] at h
  by_cases hk : k = .unknown
  · rw [if_pos hk] at h
    cases h
    exact ⟨h2.1 hk, rfl⟩
  · rw [if_neg hk] at h
    obtain ⟨_, s₁, _, h⟩ := bind_ok.1 h
    cases h

/-- The scopes with one more name in scope `i`. -/
theorem inv_add {s B E pend i sc own chain vis ht x id} (hi : SInv s B E pend) (hs : s.scope = some i) (hsc : s.scopes[i]? = some sc)
    (hw : Walk s.scopes sc.up chain vis) (hu : ∀ u, sc.up = some u → u < i) (hv : E.vis = own ++ vis)
    (ht' : TabRep (some ht) ((x, id) :: own)) (hid : id < E.decls.length) :
    SInv { s with scopes := s.scopes.set i { sc with symbols := some ht } } B ⟨(x, id) :: E.vis, E.decls⟩ pend ∧
      Frame s { s with scopes := s.scopes.set i { sc with symbols := some ht } } := by
  have hset : ∀ (j : Nat) (sc' : Scope), s.scopes[j]? = some sc' → s.scope ≠ some j →
      (s.scopes.set i { sc with symbols := some ht })[j]? = some sc' := by
    intro j sc' h1 h2
    rw [getElem?_set_ne' (fun e => h2 (by rw [hs, e])), h1]
  refine ⟨⟨hi.len, ?_, ?_, ?_, ?_, ?_⟩, ⟨by simp, ?_, ?_, .inl rfl, fun id sym h => ⟨sym, h, rfl⟩⟩⟩
  · intro id' sym' h
    obtain ⟨d, h1, h2⟩ := hi.sym id' sym' h
    refine ⟨d, h1, h2.keep (fun j sc' hj hne => ⟨sc', hset j sc' hj hne, sameLook_refl _⟩) (fun i h => .inl h) (Nat.le_refl _)⟩
  · refine ⟨i :: chain, ?_⟩
    simp only [hs, hv]
    have := Walk.scope (scopes := s.scopes.set i { sc with symbols := some ht }) (i := i) (chain := chain) (vis := vis)
      (getElem?_set_self' hsc) ht' hu (hw.keep fun j hj sc' h => ⟨sc', ?_, sameLook_refl _⟩)
    · exact this
    · have := hw.tail_lt hu j hj
      rw [getElem?_set_ne' (by omega), h]
  · intro p hp
    rcases List.mem_cons.1 hp with rfl | hp
    · exact hid
    · exact hi.ids p hp
  · have key : ∀ h par, BlkAt s h par → BlkAt { s with scopes := s.scopes.set i { sc with symbols := some ht } } h par := by
      rintro h par ⟨cur, hsc', h1, h2, h3, h4, h5⟩
      rw [hs] at h1
      cases h1
      have hp : Path (s.scopes.set i { sc with symbols := some ht }) h i := by
        refine h2.keep (fun j sc' _ hj hjs => ?_) (fun sc' hsc' => ?_)
        · rw [getElem?_set_ne' (by omega), hjs]
        · rw [hsc] at hsc'; cases hsc'
          exact ⟨_, getElem?_set_self' hsc, rfl⟩
      by_cases e : h = i
      · subst e
        rw [hsc] at h3; cases h3
        exact ⟨_, _, hs, hp, getElem?_set_self' hsc, h4, h5⟩
      · exact ⟨_, _, hs, hp, by rw [getElem?_set_ne' (fun e' => e e'.symm), h3], h4, h5⟩
    have hb := hi.blk
    match B, hb with
    | none, .inl h => rw [hs] at h; cases h
    | none, .inr ⟨h, hb⟩ => exact .inr ⟨h, key _ _ hb⟩
    | some (h, p), ⟨hb, hp⟩ => exact ⟨key _ _ hb, hp⟩
  · intro j sc' h1 h2
    simp only [hs] at h1
    cases h1
    rw [getElem?_set_self' hsc] at h2
    cases h2
    exact hi.tip i sc hs hsc
  · intro j hj hne
    exact getElem?_set_ne' (fun e => hne (by rw [hs, e]))
  · intro j sc' h1 h2
    rw [hs] at h1
    cases h1
    rw [hsc] at h2
    cases h2
    exact ⟨_, getElem?_set_self' hsc, rfl, rfl⟩

/-- What `scope_add_symbol` does to a symbol whose name is free. -/
theorem scopeAdd_free {s B E pend id sym} (hi : SInv s B E pend) (hsym : s.syms[id]? = some sym) (hf : E.Free sym.name) :
    ∃ s' ok, scopeAddSymbol id s = .ok ok s' ∧ (E.vis.lookup sym.name = none → ok = true) ∧
      (ok = true → SInv s' B ⟨(sym.name, id) :: E.vis, E.decls⟩ pend ∧ Frame s s' ∧ Same s s' ∧ s'.syms = s.syms ∧
        ∀ i, s.scope = some i → s'.scope = some i) := by
  unfold scopeAddSymbol
  rw [bind_of _ (symAt_eq hsym), bind_of _ (alreadyExists_free hi hf)]
  obtain ⟨hi', hfr, hsame, hsyms, i, sc, hs, hsc⟩ := withScope_inv hi
  simp only [Bool.false_eq_true, if_false]
  rw [bind_of _ (currentScope_eq s hs)]
  obtain ⟨chain, hw⟩ := hi'.vis
  rw [hs] at hw
  generalize hvis : E.vis = V at hw
  cases hw with
  | @scope _ sc' own chain vis h1 h2 h3 h4 =>
    rw [hsc] at h1
    cases h1
    obtain ⟨ht, h5, h6⟩ := tabRep_add h2 sym.name id
    have hstep : addToScope i sym.name id s.withScope =
        .ok (own.lookup sym.name).isNone { s.withScope with scopes := s.withScope.scopes.set i { sc with symbols := some ht } } := by
      unfold addToScope
      rw [hsc]
      simp only [h5]
    refine ⟨_, _, hstep, ?_, ?_⟩
    · intro hn
      rw [lookup_append_or] at hn
      cases ho : own.lookup sym.name with
      | none => rfl
      | some v => rw [ho] at hn; cases hn
    · intro hn
      have hn : own.lookup sym.name = none := by simpa using hn
      have hid : id < E.decls.length := by rw [← hi.len]; exact get_lt hsym
      obtain ⟨h7, h8⟩ := inv_add hi' hs hsc h4 h3 hvis (h6 hn) hid
      rw [← hvis]
      refine ⟨h7, hfr.trans h8, ⟨hsame.1, hsame.2.1, hsame.2.2⟩, hsyms, ?_⟩
      intro j hj
      show s.withScope.scope = some j
      rw [withScope_some hj, hj]

theorem scopeAdd_sound {s B E pend id sym s'} (hi : SInv s B E pend) (hsym : s.syms[id]? = some sym)
    (h : scopeAddSymbol id s = .ok true s') :
    E.Free sym.name ∧ SInv s' B ⟨(sym.name, id) :: E.vis, E.decls⟩ pend ∧ Frame s s' ∧ Same s s' ∧ s'.syms = s.syms ∧
      ∀ i, s.scope = some i → s'.scope = some i := by
  have hf : E.Free sym.name := by
    unfold scopeAddSymbol at h
    rw [bind_of _ (symAt_eq hsym)] at h
    obtain ⟨b, s₁, h1, h2⟩ := bind_ok.1 h
    cases b with
    | true => cases h2
    | false => exact (alreadyExists_false hi h1).1
  obtain ⟨s'', ok, h1, _, h3⟩ := scopeAdd_free hi hsym hf
  rw [h] at h1
  cases h1
  exact ⟨hf, h3 rfl⟩

/- ### Opening and closing a block -/

/-- The state in a new block. -/
def opened (s : SS) (i : Nat) (sc : Scope) : SS :=
  { s with
    scopes := s.scopes.set i { sc with child := some s.scopes.length } ++ [{ parent := some i }],
    scope := some s.scopes.length }

theorem makeChild_eq {s B E pend} (hi : SInv s B E pend) {i sc} (hs : s.withScope.scope = some i)
    (hsc : s.withScope.scopes[i]? = some sc) : makeChildScope s = .ok () (opened s.withScope i sc) := by
  have hc := ((withScope_inv hi).1.tip i sc hs hsc).2
  unfold makeChildScope
  cases h : s.scope with
  | some j =>
    rw [withScope_some h] at hs hsc ⊢
    rw [h] at hs; cases hs
    rw [bind_of _ (show parentScope s = .ok i s by unfold parentScope; rw [h])]
    unfold enterChild
    simp only [hsc, hc]
    rfl
  | none =>
    rw [withScope_none h] at hs hsc ⊢
    cases hs
    simp only at hsc
    rw [bind_of _ (show parentScope s = .ok s.scopes.length { s with scopes := s.scopes ++ [{}] } by unfold parentScope; rw [h])]
    unfold enterChild
    simp only [hsc, hc]
    rfl

theorem opened_get {s : SS} {i sc} (hsc : s.scopes[i]? = some sc) :
    (∀ j, j < s.scopes.length → j ≠ i → (opened s i sc).scopes[j]? = s.scopes[j]?) ∧
    (opened s i sc).scopes[i]? = some { sc with child := some s.scopes.length } ∧
    (opened s i sc).scopes[s.scopes.length]? = some { parent := some i } ∧
    (opened s i sc).scopes.length = s.scopes.length + 1 := by
  have hlen : (s.scopes.set i { sc with child := some s.scopes.length }).length = s.scopes.length := by simp
  refine ⟨?_, ?_, ?_, ?_⟩
  · intro j hj hne
    simp only [opened]
    rw [List.getElem?_append_left (by rw [hlen]; exact hj), getElem?_set_ne' (fun e => hne e.symm)]
  · simp only [opened]
    exact getElem?_append_old (getElem?_set_self' hsc)
  · simp only [opened]
    conv => lhs; arg 2; rw [← hlen]
    exact getElem?_append_new _ _
  · simp [opened]

theorem opened_inv {s B E pend i sc} (hi : SInv s B E pend) (hs : s.scope = some i) (hsc : s.scopes[i]? = some sc) :
    SInv (opened s i sc) (some (s.scopes.length, i)) E pend := by
  obtain ⟨g1, g2, g3, g4⟩ := opened_get hsc
  have hlook : ∀ (j : Nat) (sc' : Scope), s.scopes[j]? = some sc' →
      ∃ sc'', (opened s i sc).scopes[j]? = some sc'' ∧ SameLook sc' sc'' := by
    intro j sc' h
    by_cases e : j = i
    · subst e
      rw [hsc] at h; cases h
      exact ⟨_, g2, rfl, rfl, rfl⟩
    · exact ⟨sc', by rw [g1 j (get_lt h) e, h], sameLook_refl _⟩
  have hil := get_lt hsc
  refine ⟨hi.len, ?_, ?_, hi.ids, ⟨⟨_, _, rfl, .head, g3, rfl, rfl⟩, hil⟩, ?_⟩
  · intro id sym h
    obtain ⟨d, h1, h2⟩ := hi.sym id sym h
    exact ⟨d, h1, h2.keep (fun j sc' hj _ => hlook j sc' hj) (fun i e => by cases e; exact .inr (Nat.le_refl _)) (Nat.le_refl _)⟩
  · obtain ⟨chain, hw⟩ := hi.vis
    rw [hs] at hw
    have := Walk.scope (own := []) (chain := chain) (vis := E.vis) g3 (.inl ⟨rfl, rfl⟩) (fun u hu => by cases hu; exact hil)
      (hw.keep fun j _ sc' h => hlook j sc' h)
    exact ⟨_, this⟩
  · intro j sc' h1 h2
    cases h1
    rw [g3] at h2
    cases h2
    exact ⟨rfl, rfl⟩

/-- The state behind a block that was opened in scope `i`. -/
def closed (s : SS) (i : Nat) (si : Scope) : SS :=
  { s with
    scopes := s.scopes.set i { si with next := some s.scopes.length } ++ [{ last := some i }],
    scope := some s.scopes.length }

theorem closed_get {s : SS} {i si} (hsc : s.scopes[i]? = some si) :
    (∀ j, j < s.scopes.length → j ≠ i → (closed s i si).scopes[j]? = s.scopes[j]?) ∧
    (closed s i si).scopes[i]? = some { si with next := some s.scopes.length } ∧
    (closed s i si).scopes[s.scopes.length]? = some { last := some i } ∧
    (closed s i si).scopes.length = s.scopes.length + 1 := by
  have hlen : (s.scopes.set i { si with next := some s.scopes.length }).length = s.scopes.length := by simp
  refine ⟨?_, ?_, ?_, ?_⟩
  · intro j hj hne
    simp only [closed]
    rw [List.getElem?_append_left (by rw [hlen]; exact hj), getElem?_set_ne' (fun e => hne e.symm)]
  · simp only [closed]
    exact getElem?_append_old (getElem?_set_self' hsc)
  · simp only [closed]
    conv => lhs; arg 2; rw [← hlen]
    exact getElem?_append_new _ _
  · simp [closed]

theorem restoreParent_eq {s c i} (hb : BlkAt s c (some i)) : restoreParentScope s = .ok () { s with scope := some i } := by
  unfold restoreParentScope
  have h1 : resetScopeHead s = .ok () { s with scope := some c } := by
    unfold resetScopeHead; rw [hb.findHead]
  rw [bind_of _ h1]
  obtain ⟨cur, sc, h1, h2, h3, h4, h5⟩ := hb
  unfold toParent
  simp [h3, h5]

theorem block_eq {nodes : Chk ATree} {s s₁ s₂ r c i si} (h1 : makeChildScope s = .ok () s₁) (h2 : nodes s₁ = .ok r s₂)
    (hb : BlkAt s₂ c (some i)) (hi : s₂.scopes[i]? = some si) : block nodes s = .ok r (closed s₂ i si) := by
  unfold block
  rw [bind_of _ h1, bind_of _ h2]
  have h3 : resetScopeHead s₂ = .ok () { s₂ with scope := some c } := by
    unfold resetScopeHead; rw [hb.findHead]
  rw [bind_of _ h3]
  have hb' : BlkAt { s₂ with scope := some c } c (some i) := by
    obtain ⟨cur, sc, h1, h2, h3, h4, h5⟩ := hb
    exact ⟨c, sc, rfl, .head, h3, h4, h5⟩
  rw [bind_of _ (restoreParent_eq hb')]
  have h4 : makeAdjacentScope { s₂ with scope := some i } = .ok () (closed s₂ i si) := by
    unfold makeAdjacentScope
    simp only [hi]
    rfl
  have : makeAdjacentScope { ({ s₂ with scope := some c } : SS) with scope := some i } = .ok () (closed s₂ i si) := h4
  rw [bind_of _ this]
  rfl

/-- Inside a block that was opened in state `s`, in its scope `i`. -/
structure Under (s s₂ : SS) (i c : Nat) (si : Scope) : Prop where
  scope : s.scope = some i
  len : s.scopes.length ≤ c
  keep : ∀ j, j < s.scopes.length → j ≠ i → s₂.scopes[j]? = s.scopes[j]?
  old : ∃ sc, s.scopes[i]? = some sc ∧ si = { sc with child := some c }
  cur : s₂.scopes[i]? = some si
  syms : ∀ (id : Nat) (sym : Symbol), s.syms[id]? = some sym → ∃ sym', s₂.syms[id]? = some sym' ∧ sym'.core = sym.core
  more : s.scopes.length ≤ s₂.scopes.length

theorem under_of_frame {s s₂ : SS} {i sc} (hs : s.scope = some i) (hsc : s.scopes[i]? = some sc)
    (hf : Frame (opened s i sc) s₂) : Under s s₂ i s.scopes.length { sc with child := some s.scopes.length } := by
  obtain ⟨g1, g2, g3, g4⟩ := opened_get hsc
  have hil := get_lt hsc
  refine ⟨hs, Nat.le_refl _, ?_, ⟨sc, hsc, rfl⟩, ?_, hf.syms, by have := hf.len; omega⟩
  · intro j hj hne
    rw [hf.keep j (by omega), g1 j hj hne]
    intro e
    simp only [opened, Option.some.injEq] at e
    omega
  · rw [hf.keep i (by omega), g2]
    intro e
    simp only [opened, Option.some.injEq] at e
    omega

theorem closed_inv {s s₂ : SS} {B E E₂ pend pend' i c si} (hi : SInv s B E pend) (hu : Under s s₂ i c si)
    (hi₂ : SInv s₂ (some (c, i)) E₂ pend') :
    SInv (closed s₂ i si) B ⟨E.vis, E₂.decls⟩ pend' ∧ Frame s (closed s₂ i si) := by
  obtain ⟨g1, g2, g3, g4⟩ := closed_get hu.cur
  obtain ⟨sc, hsc, hsi⟩ := hu.old
  have hil := get_lt hsc
  have hmore := hu.more
  have hlook : ∀ (j : Nat) (sc' : Scope), s₂.scopes[j]? = some sc' →
      ∃ sc'', (closed s₂ i si).scopes[j]? = some sc'' ∧ SameLook sc' sc'' := by
    intro j sc' h
    by_cases e : j = i
    · subst e
      rw [hu.cur] at h; cases h
      exact ⟨_, g2, rfl, rfl, rfl⟩
    · exact ⟨sc', by rw [g1 j (get_lt h) e, h], sameLook_refl _⟩
  have hlook' : ∀ (j : Nat) (sc' : Scope), s.scopes[j]? = some sc' →
      ∃ sc'', (closed s₂ i si).scopes[j]? = some sc'' ∧ SameLook sc' sc'' := by
    intro j sc' h
    by_cases e : j = i
    · subst e
      rw [hsc] at h; cases h
      exact ⟨_, g2, by subst hsi; exact ⟨rfl, rfl, rfl⟩⟩
    · have := get_lt h
      exact ⟨sc', by rw [g1 j (by omega) e, hu.keep j this e, h], sameLook_refl _⟩
  have hdl : E.decls.length ≤ E₂.decls.length := by
    rw [← hi.len, ← hi₂.len]
    cases hn : s.syms.length with
    | zero => omega
    | succ n =>
      obtain ⟨sym', h, _⟩ := hu.syms n _ (List.getElem?_eq_getElem (by omega))
      have := get_lt h
      omega
  refine ⟨⟨hi₂.len, ?_, ?_, ?_, ?_, ?_⟩, ⟨by omega, ?_, ?_, ?_, hu.syms⟩⟩
  · intro id sym h
    obtain ⟨d, h1, h2⟩ := hi₂.sym id sym h
    exact ⟨d, h1, h2.keep (fun j sc' hj _ => hlook j sc' hj) (fun i e => by cases e; exact .inr (Nat.le_refl _)) (Nat.le_refl _)⟩
  · obtain ⟨chain, hw⟩ := hi.vis
    rw [hu.scope] at hw
    have := Walk.scope (own := []) (chain := chain) (vis := E.vis) g3 (.inl ⟨rfl, rfl⟩)
      (fun u hu => by cases hu; exact Nat.lt_of_lt_of_le hil hmore) (hw.keep fun j _ sc' h => hlook' j sc' h)
    exact ⟨_, this⟩
  · intro p hp
    exact Nat.lt_of_lt_of_le (hi.ids p hp) hdl
  · have key : ∀ h par, BlkAt s h par → BlkAt (closed s₂ i si) h par := by
      rintro h par ⟨cur, hsc', h1, h2, h3, h4, h5⟩
      rw [hu.scope] at h1
      cases h1
      have hp : Path (closed s₂ i si).scopes h i := by
        refine h2.keep (fun j sc' _ hj hjs => ?_) (fun sc' hsc' => ?_)
        · rw [g1 j (by omega) (by omega), hu.keep j (by omega) (by omega), hjs]
        · rw [hsc] at hsc'; cases hsc'
          exact ⟨_, g2, by subst hsi; rfl⟩
      have hp' : Path (closed s₂ i si).scopes h s₂.scopes.length := .next hp g2 rfl g3 rfl (by omega)
      by_cases e : h = i
      · subst e
        rw [hsc] at h3; cases h3
        subst hsi
        exact ⟨_, _, rfl, hp', g2, h4, h5⟩
      · have := get_lt h3
        exact ⟨_, _, rfl, hp', by rw [g1 h (by omega) e, hu.keep h this e, h3], h4, h5⟩
    have hb := hi.blk
    match B, hb with
    | none, .inl h => rw [hu.scope] at h; cases h
    | none, .inr ⟨h, hb⟩ => exact .inr ⟨h, key _ _ hb⟩
    | some (h, p), ⟨hb, hp⟩ => exact ⟨key _ _ hb, hp⟩
  · intro j sc' h1 h2
    cases h1
    rw [g3] at h2
    cases h2
    exact ⟨rfl, rfl⟩
  · intro j hj hne
    have hne' : j ≠ i := fun e => hne (by rw [hu.scope, e])
    rw [g1 j (by omega) hne', hu.keep j hj hne']
  · intro j sc' h1 h2
    rw [hu.scope] at h1
    cases h1
    rw [hsc] at h2
    cases h2
    subst hsi
    exact ⟨_, g2, rfl, rfl⟩
  · exact .inr ⟨_, rfl, hmore⟩

/-- Where the names of a block that has just been closed are. -/
theorem blockScope_eq {s s₂ : SS} {E₂ pend i c si} (hu : Under s s₂ i c si) (hi₂ : SInv s₂ (some (c, i)) E₂ pend) :
    ∃ cur chain, blockScope (closed s₂ i si) = some (some cur) ∧ Walk (closed s₂ i si).scopes (some cur) chain E₂.vis ∧
      s₂.scopes.length ∉ chain := by
  obtain ⟨g1, g2, g3, g4⟩ := closed_get hu.cur
  obtain ⟨sc, hsc, hsi⟩ := hu.old
  have hil := get_lt hsc
  have hlen := hu.len
  obtain ⟨chain, hw⟩ := hi₂.vis
  obtain ⟨⟨cur, hsc', h1, h2, h3, h4, h5⟩, h6⟩ := hi₂.blk
  rw [h1] at hw
  obtain ⟨cs, hcs⟩ := hw.cur
  have htip := hi₂.tip cur cs h1 hcs
  have hle := h2.le
  refine ⟨cur, chain, ?_, ?_, ?_⟩
  · have hp : Path (closed s₂ i si).scopes c cur := by
      refine h2.keep (fun j sc' hj hjd hjs => ?_) (fun sc' hsc' => ?_)
      · rw [g1 j (get_lt hjs) (by omega), hjs]
      · exact ⟨sc', by rw [g1 cur (get_lt hsc') (by omega), hsc'], rfl⟩
    unfold blockScope
    have e1 : (closed s₂ i si).scope = some s₂.scopes.length := rfl
    simp only [e1, Option.bind_some, g3, g2]
    subst hsi
    exact lastAdjacent_tip hp (by rw [g1 cur (get_lt hcs) (by omega), hcs]) htip.1
  · refine hw.keep fun j hj sc' h => ?_
    by_cases e : j = i
    · subst e
      rw [hu.cur] at h; cases h
      exact ⟨_, g2, rfl, rfl, rfl⟩
    · exact ⟨sc', by rw [g1 j (get_lt h) e, h], sameLook_refl _⟩
  · intro hmem
    have := hw.bounds.2.1 _ hmem
    omega

end Skull
