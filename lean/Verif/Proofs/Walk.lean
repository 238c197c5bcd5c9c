import Verif.Model.Semantic
import Verif.Spec.Typing
import Verif.Proofs.Containers
/-
What a lookup in the graph of scopes finds.
-/
namespace Skull
open Spec

/- ### The monad -/

theorem bind_def (m : Chk α) (f : α → Chk β) (s : SS) :
    (m >>= f) s = match m s with | .ok a s => f a s | .fail s => .fail s | .ub => .ub := rfl

theorem pure_def (a : α) (s : SS) : (pure a : Chk α) s = .ok a s := rfl

theorem bind_ok {m : Chk α} {f : α → Chk β} {s s' : SS} {b : β} :
    (m >>= f) s = .ok b s' ↔ ∃ a s₁, m s = .ok a s₁ ∧ f a s₁ = .ok b s' := by
  rw [bind_def]
  cases h : m s with
  | ok a s₁ =>
    constructor
    · intro h'; exact ⟨a, s₁, rfl, h'⟩
    · rintro ⟨a', s', e, h'⟩; cases e; exact h'
  | fail s₁ => simp
  | ub => simp

theorem bind_ok_unit {m : Chk Unit} {f : Unit → Chk β} {s s' : SS} {b : β} :
    (m >>= f) s = .ok b s' ↔ ∃ s₁, m s = .ok () s₁ ∧ f () s₁ = .ok b s' := by
  rw [bind_ok]
  constructor
  · rintro ⟨_, s₁, h⟩; exact ⟨s₁, h⟩
  · rintro ⟨s₁, h⟩; exact ⟨_, s₁, h⟩

theorem bind_of {m : Chk α} (f : α → Chk β) {s s₁ : SS} {a : α} (h : m s = .ok a s₁) : (m >>= f) s = f a s₁ := by
  rw [bind_def, h]

theorem pure_ok {a b : α} {s s' : SS} : (pure a : Chk α) s = .ok b s' ↔ a = b ∧ s = s' := by
  simp [pure_def]

/- ### Tables -/

/-- The table holds the names `own`. -/
def TabRep (symbols : Option (HashTable Nat)) (own : List (List Char × Nat)) : Prop :=
  (symbols = none ∧ own = []) ∨ ∃ ht ins, symbols = some ht ∧ HRep ht ins ∧ ∀ k, firstValue ins k = own.lookup k

theorem tabRep_get {symbols own} (h : TabRep symbols own) (k : List Char) : htGet symbols k = some (own.lookup k) := by
  rcases h with ⟨rfl, rfl⟩ | ⟨ht, ins, rfl, h1, h2⟩
  · rfl
  · rw [hrep_get h1, h2]

theorem lookup_cons_pair (k k' : List Char) (v : Nat) (l : List (List Char × Nat)) :
    List.lookup k' ((k, v) :: l) = if k' = k then some v else l.lookup k' := by
  by_cases h : k' = k
  · subst h; simp
  · simp only [List.lookup_cons, h, if_false]
    have : (k' == k) = false := by simpa using h
    rw [this]

theorem lookup_append_or (k : List Char) (l l' : List (List Char × Nat)) :
    (l ++ l').lookup k = (l.lookup k).or (l'.lookup k) := by
  induction l with
  | nil => simp
  | cons p l ih =>
    obtain ⟨x, v⟩ := p
    rw [List.cons_append, lookup_cons_pair, lookup_cons_pair, ih]
    split <;> simp

theorem mem_of_lookup {k : List Char} {v : Nat} {l : List (List Char × Nat)} (h : l.lookup k = some v) : (k, v) ∈ l := by
  induction l with
  | nil => simp at h
  | cons p l ih =>
    obtain ⟨x, w⟩ := p
    rw [lookup_cons_pair] at h
    split at h
    · rename_i e; subst e; cases h; simp
    · exact List.mem_cons_of_mem _ (ih h)

theorem tabRep_add {symbols own} (h : TabRep symbols own) (k : List Char) (v : Nat) :
    ∃ ht, htAdd (some (refsOrNew symbols)) k (some v) = some (some ht, (own.lookup k).isNone) ∧
      (own.lookup k = none → TabRep (some ht) ((k, v) :: own)) := by
  have h' : ∃ ins, HRep (refsOrNew symbols) ins ∧ ∀ k, firstValue ins k = own.lookup k := by
    rcases h with ⟨rfl, rfl⟩ | ⟨ht, ins, rfl, h1, h2⟩
    · exact ⟨[], hrep_make, fun k => rfl⟩
    · exact ⟨ins, h1, h2⟩
  obtain ⟨ins, h1, h2⟩ := h'
  obtain ⟨ht, h3, h4⟩ := hrep_add h1 k v
  rw [h2] at h3
  refine ⟨ht, h3, fun hn => .inr ⟨ht, _, rfl, h4, fun k' => ?_⟩⟩
  rw [firstValue_append_single, lookup_cons_pair, h2]
  by_cases hk : k' = k
  · subst hk; rw [hn]
  · have : k ≠ k' := fun e => hk e.symm
    simp [hk, this]
    cases own.lookup k' <;> rfl

/- ### Walking up -/

/-- Where a lookup goes on. -/
def Scope.up (sc : Scope) : Option Nat :=
  match sc.parent with
  | some p => some p
  | none => sc.last

/-- The names seen from a scope, and the scopes they are in. -/
inductive Walk (scopes : List Scope) : Option Nat → List Nat → List (List Char × Nat) → Prop
  | none : Walk scopes none [] []
  | scope {i sc own chain vis} : scopes[i]? = some sc → TabRep sc.symbols own → (∀ u, sc.up = some u → u < i) →
      Walk scopes sc.up chain vis → Walk scopes (some i) (i :: chain) (own ++ vis)

theorem Walk.bounds {scopes o chain vis} (h : Walk scopes o chain vis) :
    chain.length ≤ scopes.length ∧ (∀ j ∈ chain, j < scopes.length) ∧ ∀ i, o = some i → chain.length ≤ i + 1 ∧ ∀ j ∈ chain, j ≤ i := by
  induction h with
  | none => simp
  | @scope i sc own chain vis h1 h2 h3 h4 ih =>
    have hi : i < scopes.length := by
      rcases Nat.lt_or_ge i scopes.length with h | h
      · exact h
      · rw [List.getElem?_eq_none h] at h1; cases h1
    have key : chain.length ≤ i ∧ ∀ j ∈ chain, j < i := by
      cases hu : sc.up with
      | none =>
        rw [hu] at h4
        cases h4
        simp
      | some u =>
        have := h3 u hu
        have h5 := ih.2.2 u hu
        refine ⟨by omega, fun j hj => ?_⟩
        have := h5.2 j hj
        omega
    refine ⟨by simp only [List.length_cons]; omega, ?_, ?_⟩
    · intro j hj
      rcases List.mem_cons.1 hj with rfl | hj
      · exact hi
      · exact ih.2.1 j hj
    · intro k hk
      cases hk
      refine ⟨by simp only [List.length_cons]; omega, fun j hj => ?_⟩
      rcases List.mem_cons.1 hj with rfl | hj
      · omega
      · have := key.2 j hj; omega

/-- Two scopes that look the same to a lookup. -/
def SameLook (sc sc' : Scope) : Prop := sc'.symbols = sc.symbols ∧ sc'.parent = sc.parent ∧ sc'.last = sc.last

theorem Walk.keep {scopes scopes' o chain vis} (h : Walk scopes o chain vis)
    (hk : ∀ j ∈ chain, ∀ sc, scopes[j]? = some sc → ∃ sc', scopes'[j]? = some sc' ∧ SameLook sc sc') :
    Walk scopes' o chain vis := by
  induction h with
  | none => exact .none
  | @scope i sc own chain vis h1 h2 h3 h4 ih =>
    obtain ⟨sc', h5, h6, h7, h8⟩ := hk i (by simp) sc h1
    have hu : sc'.up = sc.up := by simp [Scope.up, h7, h8]
    refine .scope h5 (h6 ▸ h2) (hu ▸ h3) ?_
    rw [hu]
    exact ih fun j hj sc hsc => hk j (List.mem_cons_of_mem _ hj) sc hsc

/- ### Names with and without dots -/

theorem splitDot_none {x : List Char} (h : splitDot x = none) : path x = [x] := by
  induction x with
  | nil => rfl
  | cons c s ih =>
    unfold splitDot at h
    split at h
    · cases h
    · rename_i hc
      have hs : splitDot s = none := by
        cases hs : splitDot s with
        | none => rfl
        | some p => rw [hs] at h; cases h
      unfold path
      rw [if_neg hc, ih hs]

theorem path_ne_nil (x : List Char) : path x ≠ [] := by
  cases x with
  | nil => simp [path]
  | cons c s =>
    unfold path
    split
    · simp
    · split <;> simp

theorem splitDot_some {x pre post : List Char} (h : splitDot x = some (pre, post)) :
    path x = pre :: path post ∧ splitDot pre = none ∧ post.length < x.length := by
  induction x generalizing pre with
  | nil => cases h
  | cons c s ih =>
    unfold splitDot at h
    split at h
    · rename_i hc
      cases h
      refine ⟨?_, rfl, by simp⟩
      conv => lhs; unfold path
      rw [if_pos hc]
    · rename_i hc
      cases hs : splitDot s with
      | none => rw [hs] at h; cases h
      | some p =>
        rw [hs] at h
        obtain ⟨p1, p2⟩ := p
        cases h
        obtain ⟨h1, h2, h3⟩ := ih hs
        simp only at h1 h3
        refine ⟨?_, ?_, by simp only [List.length_cons]; omega⟩
        · conv => lhs; unfold path
          rw [if_neg hc, h1]
        · unfold splitDot
          rw [if_neg hc, h2]
          rfl

theorem path_length (x : List Char) : (path x).length ≤ x.length + 1 := by
  induction x with
  | nil => simp [path]
  | cons c s ih =>
    unfold path
    split
    · simp; omega
    · split
      · simp
      · rename_i y ys h
        rw [h] at ih
        simp only [List.length_cons] at ih ⊢
        omega

/-- The only thing a lookup has to know about symbols: which are namespaces. -/
structure NsRep (scopes : List Scope) (syms : List Symbol) (decls : List Decl) : Prop where
  len : syms.length = decls.length
  ns : ∀ (id : Nat) (sym : Symbol), syms[id]? = some sym →
    match sym.kind with
    | .ns none => decls[id]? = some (.ns [])
    | .ns (some j) => ∃ chain members, decls[id]? = some (.ns members) ∧ Walk scopes (some j) chain members ∧
        ∀ p ∈ members, p.2 < decls.length
    | _ => ∀ members, decls[id]? ≠ some (.ns members)

theorem findName_plain {scopes syms o chain vis x f} (hw : Walk scopes o chain vis) (hx : splitDot x = none)
    (hf : chain.length + 1 ≤ f) : findName f scopes syms o x = some (vis.lookup x) := by
  induction hw generalizing f with
  | none =>
    match f, hf with
    | f + 1, _ => rfl
  | @scope i sc own chain vis h1 h2 h3 h4 ih =>
    match f, hf with
    | f + 1, hf =>
      simp only [List.length_cons] at hf
      have hr := ih (f := f) (by omega)
      unfold findName
      simp only [h1]
      rw [lookup_append_or]
      split
      · rename_i hn
        simp only [Bool.not_eq_true', Bool.or_eq_false_iff, Option.isSome_eq_false_iff, Option.isNone_iff_eq_none] at hn
        obtain ⟨⟨e1, e2⟩, e3⟩ := hn
        have : own = [] := by
          rcases h2 with ⟨_, rfl⟩ | ⟨ht, ins, e, _⟩
          · rfl
          · rw [e1] at e; cases e
        subst this
        have hu : sc.up = none := by simp [Scope.up, e2, e3]
        rw [hu] at h4
        cases h4
        rfl
      · have hg := tabRep_get h2 x
        have hs : splitName sc.symbols x = none := by unfold splitName; split <;> simp [hx]
        simp only [hs, hg]
        cases hown : own.lookup x with
        | some v => rfl
        | none =>
          simp only [Option.none_or]
          cases hp : sc.parent with
          | some p =>
            have hu : sc.up = some p := by simp [Scope.up, hp]
            rw [hu] at hr
            exact hr
          | none =>
            simp only
            cases hl : sc.last with
            | some l =>
              have hu : sc.up = some l := by simp [Scope.up, hp, hl]
              rw [hu] at hr
              exact hr
            | none =>
              have hu : sc.up = none := by simp [Scope.up, hp, hl]
              rw [hu] at h4
              cases h4
              rfl

theorem follow_nil (decls : List Decl) : ∀ p, follow decls [] p = none
  | [] => rfl
  | [_] => rfl
  | x :: y :: more => by simp [follow]

/-- A lookup finds what the path of the name leads to. -/
theorem findName_eq {scopes syms decls} (hn : NsRep scopes syms decls) :
    ∀ (k : Nat) (o : Option Nat) (chain : List Nat) (vis : List (List Char × Nat)) (x : List Char) (f : Nat),
      (path x).length ≤ k → Walk scopes o chain vis → (∀ p ∈ vis, p.2 < decls.length) →
      chain.length + 1 + (k - 1) * (scopes.length + 2) ≤ f →
      findName f scopes syms o x = some (follow decls vis (path x)) := by
  intro k
  induction k with
  | zero =>
    intro o chain vis x f hk
    have := path_ne_nil x
    cases hp : path x with
    | nil => exact absurd hp this
    | cons a b => rw [hp] at hk; simp at hk
  | succ k ih =>
    intro o chain vis x f hk hw hids hf
    cases hd : splitDot x with
    | none =>
      rw [findName_plain hw hd (by simp only [Nat.add_sub_cancel] at hf; omega), splitDot_none hd]
      rfl
    | some pp =>
      obtain ⟨pre, post⟩ := pp
      obtain ⟨hp1, hp2, hp3⟩ := splitDot_some hd
      have hk1 : 1 ≤ k := by
        rw [hp1] at hk
        have := path_ne_nil post
        cases hpost : path post with
        | nil => exact absurd hpost this
        | cons a b => rw [hpost] at hk; simp at hk; omega
      have hkpost : (path post).length ≤ k := by rw [hp1] at hk; simpa using hk
      have hmul : k * (scopes.length + 2) = (k - 1) * (scopes.length + 2) + (scopes.length + 2) := by
        obtain ⟨m, rfl⟩ : ∃ m, k = m + 1 := ⟨k - 1, by omega⟩
        simp only [Nat.add_sub_cancel]
        rw [Nat.add_mul]
        omega
      simp only [Nat.add_sub_cancel] at hf
      rw [hmul] at hf
      generalize hM : (k - 1) * (scopes.length + 2) = M at hf
      clear hk
      induction hw generalizing f with
      | none =>
        match f, hf with
        | f + 1, _ => rw [follow_nil]; rfl
      | @scope i sc own chain vis h1 h2 h3 h4 ihw =>
        match f, hf with
        | f + 1, hf =>
          simp only [List.length_cons] at hf
          have hr := ihw (f := f) (fun p hp => hids p (by simp [hp])) (by omega)
          unfold findName
          simp only [h1]
          split
          · rename_i hnone
            simp only [Bool.not_eq_true', Bool.or_eq_false_iff, Option.isSome_eq_false_iff, Option.isNone_iff_eq_none] at hnone
            obtain ⟨⟨e1, e2⟩, e3⟩ := hnone
            have : own = [] := by
              rcases h2 with ⟨_, rfl⟩ | ⟨ht, ins, e, _⟩
              · rfl
              · rw [e1] at e; cases e
            subst this
            have hu : sc.up = none := by simp [Scope.up, e2, e3]
            rw [hu] at h4
            cases h4
            rw [List.append_nil, follow_nil]
          · rename_i hsome
            cases hs : sc.symbols with
            | none =>
              have : own = [] := by
                rcases h2 with ⟨_, rfl⟩ | ⟨ht, ins, e, _⟩
                · rfl
                · rw [hs] at e; cases e
              subst this
              simp only [splitName, htGet, List.nil_append]
              cases hp : sc.parent with
              | some p =>
                have hu : sc.up = some p := by simp [Scope.up, hp]
                rw [hu] at hr
                exact hr
              | none =>
                simp only
                cases hl : sc.last with
                | some l =>
                  have hu : sc.up = some l := by simp [Scope.up, hp, hl]
                  rw [hu] at hr
                  exact hr
                | none => simp [hs, hp, hl] at hsome
            | some ht =>
              simp only [splitName, hd]
              have hw' : Walk scopes (some i) (i :: chain) (own ++ vis) := .scope h1 h2 h3 h4
              rw [findName_plain hw' hp2 (by simp only [List.length_cons]; omega), hp1]
              obtain ⟨y, more, hpost⟩ : ∃ y more, path post = y :: more := by
                cases hpost : path post with
                | nil => exact absurd hpost (path_ne_nil post)
                | cons y more => exact ⟨y, more, rfl⟩
              rw [hpost]
              simp only [follow]
              cases hlook : (own ++ vis).lookup pre with
              | none => rfl
              | some id =>
                have hid : id < decls.length := hids _ (mem_of_lookup hlook)
                simp only [Option.bind_some]
                obtain ⟨sym, hsym⟩ : ∃ sym, syms[id]? = some sym :=
                  ⟨_, List.getElem?_eq_getElem (by rw [hn.len]; exact hid)⟩
                have hns := hn.ns id sym hsym
                simp only [hsym]
                split
                · rename_i j hkind
                  rw [hkind] at hns
                  cases j with
                  | none =>
                    simp only at hns
                    rw [hns]
                    match f, hf with
                    | f + 1, _ =>
                      simp only [findName, follow_nil]
                  | some j =>
                    obtain ⟨chain', members, hm1, hm2, hm3⟩ := hns
                    rw [hm1]
                    simp only
                    rw [← hpost]
                    refine ih (some j) chain' members post f hkpost hm2 hm3 ?_
                    have := hm2.bounds.1
                    rw [hM]
                    omega
                · rename_i hkind
                  cases hkk : sym.kind with
                  | ns j => exact absurd hkk (hkind j)
                  | var v =>
                    rw [hkk] at hns
                    cases hdd : decls[id]? with
                    | none => rfl
                    | some d =>
                      cases d with
                      | ns m => exact absurd hdd (hns m)
                      | _ => rfl
                  | func v =>
                    rw [hkk] at hns
                    cases hdd : decls[id]? with
                    | none => rfl
                    | some d =>
                      cases d with
                      | ns m => exact absurd hdd (hns m)
                      | _ => rfl
                  | alias =>
                    rw [hkk] at hns
                    cases hdd : decls[id]? with
                    | none => rfl
                    | some d =>
                      cases d with
                      | ns m => exact absurd hdd (hns m)
                      | _ => rfl

end Skull
