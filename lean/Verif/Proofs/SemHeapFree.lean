import Verif.Proofs.SemHeapStmt
/-
Freeing.
-/
namespace Skull.SemHeap

open Skull.Heap
open Skull.Spec (MemEvent Life memRun memStep setLife)

/-- The events free the blocks `bs`, use nothing else, and are all right when these are allocated. -/
def Sweeps (es : List Event) (bs : List Block) : Prop :=
  ∀ m : Lives, bs.Nodup → (∀ b ∈ bs, m b = .live) → memRun m es = some fun b => if b ∈ bs then .freed else m b

theorem Sweeps.nil : Sweeps [] [] := fun m _ _ => by simp [memRun]

theorem Sweeps.free (b : Block) : Sweeps [.free b] [b] := by
  intro m _ h
  rw [run_free (h b (List.mem_singleton.mpr rfl))]
  show some _ = some _
  congr 1
  funext c
  simp [setLife]

theorem Sweeps.use {es : List Event} {bs : List Block} (h : Sweeps es bs) {b : Block} (hb : b ∈ bs) : Sweeps (.use b :: es) bs := by
  intro m hn hl
  rw [run_use (hl b hb)]
  exact h m hn hl

theorem Sweeps.append {es es' : List Event} {bs bs' : List Block} (h : Sweeps es bs) (h' : Sweeps es' bs') :
    Sweeps (es ++ es') (bs ++ bs') := by
  intro m hn hl
  obtain ⟨h1, h2, h3⟩ := List.nodup_append.mp hn
  rw [memRun_append, h m h1 fun b hb => hl b (List.mem_append_left _ hb)]
  show memRun _ es' = _
  rw [h' _ h2]
  · congr 1
    funext b
    by_cases hb : b ∈ bs <;> by_cases hb' : b ∈ bs' <;> simp [hb, hb']
  · intro b hb
    have : b ∉ bs := fun hc => h3 b hc b hb rfl
    rw [if_neg this]
    exact hl b (List.mem_append_right _ hb)

theorem Sweeps.perm {es : List Event} {bs bs' : List Block} (h : Sweeps es bs) (hp : bs.Perm bs') : Sweeps es bs' := by
  intro m hn hl
  rw [h m (hp.nodup_iff.mpr hn) fun b hb => hl b (hp.mem_iff.mp hb)]
  congr 1
  funext b
  simp [hp.mem_iff]

/- ### Symbols -/

/-- The blocks of a symbol. -/
def symBlocks (sh : Shape) (id : Nat) : List Block :=
  [.name id] ++ (if sh.hasLink then [.link id] else []) ++ (if sh.hasTypes then [.types id] else []) ++
    (if sh.hasData then [.data id] else []) ++ [.sym id]

theorem symBlocks_owner {sh : Shape} {id : Nat} {b : Block} (h : b ∈ symBlocks sh id) : ownerOf b = some id := by
  unfold symBlocks at h
  simp only [List.mem_append, List.mem_singleton] at h
  rcases h with (((h | h) | h) | h) | h
  · subst h; rfl
  · split at h <;> simp at h; subst h; rfl
  · split at h <;> simp at h; subst h; rfl
  · split at h <;> simp at h; subst h; rfl
  · subst h; rfl

theorem symBlocks_nodup (sh : Shape) (id : Nat) : (symBlocks sh id).Nodup := by
  unfold symBlocks
  cases sh.hasLink <;> cases sh.hasTypes <;> cases sh.hasData <;> simp

theorem mem_symBlocks {sh : Shape} {id : Nat} {b : Block} : b ∈ symBlocks sh id ↔
    b = .name id ∨ b = .sym id ∨ (b = .link id ∧ sh.hasLink = true) ∨ (b = .types id ∧ sh.hasTypes = true) ∨
      (b = .data id ∧ sh.hasData = true) := by
  unfold symBlocks
  cases sh.hasLink <;> cases sh.hasTypes <;> cases sh.hasData <;> simp <;> grind

theorem sweeps_if (p : Prop) [Decidable p] (q : Bool) (h : q = true ↔ p) (b : Block) :
    Sweeps (if p then [.free b] else []) (if q = true then [b] else []) := by
  by_cases hp : p
  · rw [if_pos hp, if_pos (h.mpr hp)]; exact Sweeps.free b
  · rw [if_neg hp, if_neg (fun hq => hp (h.mp hq))]; exact Sweeps.nil

theorem sweeps_func (id : Nat) (f : Func) :
    Sweeps (freeFunctionDeclaration f id) (symBlocks (.func f.isExport (decide (f.numParams ≠ 0))) id) := by
  unfold freeFunctionDeclaration symBlocks
  refine Sweeps.use (Sweeps.use ?_ (by simp [Shape.hasData])) (by simp)
  show Sweeps ([.free (.name id)] ++ _ ++ _ ++ ([.free (.data id)] ++ [.free (.sym id)])) _
  rw [List.append_assoc (([Block.name id] ++ _) ++ _)]
  refine (((Sweeps.free (.name id)).append ?_).append ?_).append ((Sweeps.free (.data id)).append (Sweeps.free (.sym id)))
  · exact sweeps_if _ _ Iff.rfl _
  · exact sweeps_if _ _ (by simp [Shape.hasTypes]) _

theorem sweeps_symbol (id : Nat) (sym : Symbol) : Sweeps (freeSymbol id sym) (symBlocks (shape sym) id) := by
  unfold freeSymbol shape shapeOf
  cases sym.kind with
  | var v =>
    unfold freeVariable symBlocks
    cases hv : v.isExported
    · simp only [Shape.hasLink, Shape.hasTypes, Shape.hasData, hv, Bool.false_eq_true, if_false, if_true, List.append_nil]
      refine Sweeps.use (Sweeps.use ?_ (by simp)) (by simp)
      exact (Sweeps.free (.name id)).append ((Sweeps.free (.data id)).append (Sweeps.free (.sym id)))
    · simp only [Shape.hasLink, Shape.hasTypes, Shape.hasData, hv, Bool.false_eq_true, if_false, if_true, List.append_nil]
      refine Sweeps.use (Sweeps.use ?_ (by simp)) (by simp)
      exact (Sweeps.free (.name id)).append ((Sweeps.free (.link id)).append ((Sweeps.free (.data id)).append (Sweeps.free (.sym id))))
  | func f => exact sweeps_func id f
  | alias => exact Sweeps.use ((Sweeps.free (.name id)).append (Sweeps.free (.sym id))) (by simp)
  | ns o => exact Sweeps.use ((Sweeps.free (.name id)).append (Sweeps.free (.sym id))) (by simp)

/-- The blocks of the symbol `id`. -/
def blocksOf (shs : List Shape) (id : Nat) : List Block :=
  match shs[id]? with
  | some sh => symBlocks sh id
  | none => []

theorem blocksOf_owner {shs : List Shape} {id : Nat} {b : Block} (h : b ∈ blocksOf shs id) : ownerOf b = some id := by
  unfold blocksOf at h
  split at h
  · exact symBlocks_owner h
  · simp at h

theorem sweeps_symbols (syms : List Symbol) (ids : List Nat) (h : ∀ id ∈ ids, id < syms.length) :
    ∃ es, freeSymbols syms ids = some es ∧ Sweeps es (ids.flatMap (blocksOf (syms.map shape))) := by
  induction ids with
  | nil => exact ⟨[], rfl, Sweeps.nil⟩
  | cons id ids ih =>
    obtain ⟨es, h1, h2⟩ := ih fun i hi => h i (List.mem_cons_of_mem _ hi)
    have hlt := h id List.mem_cons_self
    have hg : syms[id]? = some syms[id] := List.getElem?_eq_getElem hlt
    refine ⟨freeSymbol id syms[id] ++ es, by simp only [freeSymbols, hg, h1], ?_⟩
    rw [List.flatMap_cons]
    have : blocksOf (syms.map shape) id = symBlocks (shape syms[id]) id := by
      unfold blocksOf
      rw [List.getElem?_map, hg]
      rfl
    rw [this]
    exact (sweeps_symbol id _).append h2

/- ### Tables and scopes -/

def tableBlocks (shs : List Shape) (i : Nat) (t : Option (HashTable Nat)) : List Block :=
  (idsOf t).flatMap (blocksOf shs) ++ if t.isSome then [.table i] else []

theorem sweeps_table (syms : List Symbol) (i : Nat) {t : Option (HashTable Nat)} (hg : ∀ ht, t = some ht → GoodHt ht)
    (h : ∀ id ∈ idsOf t, id < syms.length) :
    ∃ es, freeTable syms i t = some es ∧ Sweeps es (tableBlocks (syms.map shape) i t) := by
  cases t with
  | none => exact ⟨[], rfl, Sweeps.nil⟩
  | some ht =>
    obtain ⟨ids, hi⟩ := slotItems_good (hg ht rfl).2
    have hids : idsOf (some ht) = ids := by simp [idsOf, hi]
    rw [hids] at h
    obtain ⟨es, h1, h2⟩ := sweeps_symbols syms ids h
    refine ⟨[.use (.table i)] ++ es ++ [.free (.table i)], ?_, ?_⟩
    · simp only [freeTable, hi, Option.bind_some, h1]
    · unfold tableBlocks
      rw [hids]
      exact Sweeps.use (h2.append (Sweeps.free (.table i))) (by simp)

def scopeBlocks (scopes : List Scope) (shs : List Shape) (i : Nat) : List Block :=
  match scopes[i]? with
  | some sc => tableBlocks shs i sc.symbols ++ [.scope i]
  | none => []

/-- The scopes `free_scope` gets to. -/
def visit (scopes : List Scope) : Nat → Option Nat → List Nat
  | _, none => []
  | 0, some _ => []
  | f + 1, some i =>
    match scopes[i]? with
    | none => []
    | some sc => i :: (visit scopes f sc.child ++ visit scopes f sc.next)

theorem edge_child {scopes : List Scope} {i : Nat} {sc : Scope} (hi : scopes[i]? = some sc) {c : Nat} (hc : sc.child = some c) :
    Edge scopes i true c := ⟨sc, hi, hc⟩
theorem edge_next {scopes : List Scope} {i : Nat} {sc : Scope} (hi : scopes[i]? = some sc) {c : Nat} (hc : sc.next = some c) :
    Edge scopes i false c := ⟨sc, hi, hc⟩

theorem sweeps_scope {s : SS} (hb : Base s) : ∀ (f : Nat) (o : Option Nat), (∀ i, o = some i → i < s.scopes.length ∧ s.scopes.length ≤ f + i) →
    ∃ es, freeScope s.scopes s.syms f o = some es ∧ Sweeps es ((visit s.scopes f o).flatMap (scopeBlocks s.scopes (shapes s)))
  | f, none, _ => ⟨[], by cases f <;> rfl, by cases f <;> exact Sweeps.nil⟩
  | 0, some i, h => by have := h i rfl; omega
  | f + 1, some i, h => by
    obtain ⟨hlt, hf⟩ := h i rfl
    have hi : s.scopes[i]? = some s.scopes[i] := List.getElem?_eq_getElem hlt
    generalize s.scopes[i] = sc at hi
    have hids : ∀ id ∈ idsOf sc.symbols, id < s.syms.length := by
      intro id hid
      exact (hb.range id (List.mem_flatMap.mpr ⟨sc, List.mem_of_getElem? hi, hid⟩)).2
    obtain ⟨es, h1, h2⟩ := sweeps_table s.syms i (hb.good i sc hi) hids
    obtain ⟨cs, h3, h4⟩ := sweeps_scope hb f sc.child (by
      intro c hc
      have := hb.graph.down _ _ _ (edge_child hi hc)
      omega)
    obtain ⟨ns, h5, h6⟩ := sweeps_scope hb f sc.next (by
      intro c hc
      have := hb.graph.down _ _ _ (edge_next hi hc)
      omega)
    refine ⟨[.use (.scope i)] ++ es ++ cs ++ ns ++ [.free (.scope i)], ?_, ?_⟩
    · simp only [freeScope, hi, h1, h3, h5]
    · simp only [visit, hi, List.flatMap_cons, List.flatMap_append]
      have hsb : scopeBlocks s.scopes (shapes s) i = tableBlocks (shapes s) i sc.symbols ++ [.scope i] := by
        simp only [scopeBlocks, hi]
      rw [hsb]
      have := (((h2.append h4).append h6).append (Sweeps.free (.scope i)))
      refine Sweeps.use (b := .scope i) (this.perm ?_) (by simp)
      simp only [List.append_assoc]
      refine List.Perm.append_left _ ?_
      rw [← List.append_assoc]
      exact List.perm_append_comm

/- ### Every scope once -/

/-- From scope `i` one gets to scope `x`. -/
inductive Reach (scopes : List Scope) (i : Nat) : Nat → Prop
  | refl : Reach scopes i i
  | step {y k x} : Reach scopes i y → Edge scopes y k x → Reach scopes i x

theorem Reach.le {scopes : List Scope} (hg : Graph scopes) {i x : Nat} (h : Reach scopes i x) : i ≤ x := by
  induction h with
  | refl => exact Nat.le_refl _
  | step _ he ih => have := hg.down _ _ _ he; omega

theorem Reach.head {scopes : List Scope} {i c x : Nat} {k : Bool} (he : Edge scopes i k c) (h : Reach scopes c x) : Reach scopes i x := by
  induction h with
  | refl => exact .step .refl he
  | step _ he' ih => exact .step ih he'

theorem Reach.linear {scopes : List Scope} (hg : Graph scopes) {c n x : Nat} (h : Reach scopes c x) (h' : Reach scopes n x) :
    Reach scopes c n ∨ Reach scopes n c := by
  induction h with
  | refl => exact .inr h'
  | @step y k x hy he ih =>
    cases h' with
    | refl => exact .inl (.step hy he)
    | @step z l _ hz he' =>
      obtain ⟨rfl, -⟩ := hg.uniq _ _ _ _ _ he he'
      exact ih hz

theorem Reach.not_sibling {scopes : List Scope} (hg : Graph scopes) {i c n : Nat} {k l : Bool} (hc : Edge scopes i k c)
    (hn : Edge scopes i l n) (hne : c ≠ n) : ¬ Reach scopes c n := by
  intro h
  cases h with
  | refl => exact hne rfl
  | @step y m _ hy he =>
    obtain ⟨rfl, -⟩ := hg.uniq _ _ _ _ _ hn he
    have := hy.le hg
    have := (hg.down _ _ _ hc).1
    omega

theorem Reach.disjoint {scopes : List Scope} (hg : Graph scopes) {i c n x : Nat} (hc : Edge scopes i true c)
    (hn : Edge scopes i false n) (h : Reach scopes c x) : ¬ Reach scopes n x := by
  intro h'
  have hne : c ≠ n := by
    rintro rfl
    obtain ⟨-, e⟩ := hg.uniq _ _ _ _ _ hc hn
    cases e
  rcases h.linear hg h' with h | h
  · exact h.not_sibling hg hc hn hne
  · exact h.not_sibling hg hn hc (Ne.symm hne)

theorem visit_reach {scopes : List Scope} : ∀ (f : Nat) (o : Option Nat) (x : Nat), x ∈ visit scopes f o → ∃ i, o = some i ∧ Reach scopes i x
  | f, none, x, h => by cases f <;> simp [visit] at h
  | 0, some i, x, h => by simp [visit] at h
  | f + 1, some i, x, h => by
    refine ⟨i, rfl, ?_⟩
    unfold visit at h
    split at h
    · simp at h
    · rename_i sc hi
      simp only [List.mem_cons, List.mem_append] at h
      rcases h with rfl | h | h
      · exact .refl
      · obtain ⟨c, hc, hr⟩ := visit_reach f sc.child x h
        exact hr.head (edge_child hi hc)
      · obtain ⟨c, hc, hr⟩ := visit_reach f sc.next x h
        exact hr.head (edge_next hi hc)

theorem visit_nodup {scopes : List Scope} (hg : Graph scopes) : ∀ (f : Nat) (o : Option Nat), (visit scopes f o).Nodup
  | f, none => by cases f <;> simp [visit]
  | 0, some i => by simp [visit]
  | f + 1, some i => by
    unfold visit
    split
    · simp
    · rename_i sc hi
      rw [List.nodup_cons, List.nodup_append]
      refine ⟨?_, visit_nodup hg f sc.child, visit_nodup hg f sc.next, ?_⟩
      · rw [List.mem_append]
        rintro (h | h)
        · obtain ⟨c, hc, hr⟩ := visit_reach f _ _ h
          have := hr.le hg
          have := (hg.down _ _ _ (edge_child hi hc)).1
          omega
        · obtain ⟨c, hc, hr⟩ := visit_reach f _ _ h
          have := hr.le hg
          have := (hg.down _ _ _ (edge_next hi hc)).1
          omega
      · rintro a ha b hb rfl
        obtain ⟨c, hc, hr⟩ := visit_reach f _ _ ha
        obtain ⟨n, hn, hr'⟩ := visit_reach f _ _ hb
        exact hr.disjoint hg (edge_child hi hc) (edge_next hi hn) hr'

theorem visit_step {scopes : List Scope} (hg : Graph scopes) : ∀ (f : Nat) (o : Option Nat),
    (∀ i, o = some i → i < scopes.length ∧ scopes.length ≤ f + i) → ∀ y k x, y ∈ visit scopes f o → Edge scopes y k x → x ∈ visit scopes f o
  | f, none, _, y, k, x, h, _ => by cases f <;> simp [visit] at h
  | 0, some i, _, y, k, x, h, _ => by simp [visit] at h
  | f + 1, some i, hf, y, k, x, h, he => by
    obtain ⟨hlt, hf⟩ := hf i rfl
    unfold visit at h ⊢
    split at h
    · simp at h
    · rename_i sc hi
      have hc : ∀ c, sc.child = some c → c < scopes.length ∧ scopes.length ≤ f + c := by
        intro c hc
        have := hg.down _ _ _ (edge_child hi hc)
        omega
      have hn : ∀ c, sc.next = some c → c < scopes.length ∧ scopes.length ≤ f + c := by
        intro c hc
        have := hg.down _ _ _ (edge_next hi hc)
        omega
      have hroot : ∀ (o : Option Nat), (∀ c, o = some c → c < scopes.length ∧ scopes.length ≤ f + c) → ∀ c, o = some c → c ∈ visit scopes f o := by
        intro o ho c hoc
        subst hoc
        obtain ⟨h1, h2⟩ := ho c rfl
        by_cases hz : f = 0
        · omega
        · obtain ⟨g, rfl⟩ := Nat.exists_eq_succ_of_ne_zero hz
          have : scopes[c]? = some scopes[c] := List.getElem?_eq_getElem h1
          simp only [visit, this]
          exact List.mem_cons_self
      simp only [List.mem_cons, List.mem_append] at h ⊢
      rcases h with rfl | h | h
      · obtain ⟨sc', h1, h2⟩ := he
        rw [hi] at h1
        cases h1
        cases k with
        | true => exact .inr (.inl (hroot _ hc x h2))
        | false => exact .inr (.inr (hroot _ hn x h2))
      · exact .inr (.inl (visit_step hg f _ hc y k x h he))
      · exact .inr (.inr (visit_step hg f _ hn y k x h he))

theorem reach_all {scopes : List Scope} (hg : Graph scopes) (hc : Covered scopes) (x : Nat) (hx : x < scopes.length) : Reach scopes 0 x := by
  induction x using Nat.strongRecOn with
  | ind x ih =>
    by_cases h0 : x = 0
    · subst h0; exact .refl
    · obtain ⟨i, k, he⟩ := hc x (by omega) hx
      have := hg.down _ _ _ he
      exact .step (ih i this.1 (by omega)) he

theorem visit_all {scopes : List Scope} (hg : Graph scopes) (hc : Covered scopes) (x : Nat) (hx : x < scopes.length) :
    x ∈ visit scopes scopes.length (some 0) := by
  have hr := reach_all hg hc x hx
  have hf : ∀ i, (some 0 : Option Nat) = some i → i < scopes.length ∧ scopes.length ≤ scopes.length + i := by
    intro i hi; cases hi; omega
  induction hr with
  | refl =>
    have hn : scopes.length ≠ 0 := by omega
    obtain ⟨g, hg'⟩ := Nat.exists_eq_succ_of_ne_zero hn
    have : scopes[0]? = some scopes[0] := List.getElem?_eq_getElem hx
    rw [hg']
    simp only [visit, this]
    exact List.mem_cons_self
  | @step y k x _ he ih =>
    have := hg.down _ _ _ he
    exact visit_step hg _ _ hf y k x (ih (by omega)) he

/- ### The whole state -/

theorem blocksOf_nodup (shs : List Shape) (id : Nat) : (blocksOf shs id).Nodup := by
  unfold blocksOf
  split
  · exact symBlocks_nodup _ _
  · simp

theorem ids_nodup (shs : List Shape) {ids : List Nat} (h : ids.Nodup) : (ids.flatMap (blocksOf shs)).Nodup := by
  unfold List.Nodup
  rw [List.pairwise_flatMap]
  refine ⟨fun id _ => blocksOf_nodup shs id, h.imp ?_⟩
  rintro a b hne x hx y hy rfl
  have h1 := blocksOf_owner hx
  rw [blocksOf_owner hy] at h1
  cases h1
  exact hne rfl

theorem ids_owner {shs : List Shape} {ids : List Nat} {b : Block} (h : b ∈ ids.flatMap (blocksOf shs)) : ∃ id ∈ ids, ownerOf b = some id := by
  obtain ⟨id, h1, h2⟩ := List.mem_flatMap.mp h
  exact ⟨id, h1, blocksOf_owner h2⟩

theorem mem_scopeBlocks {scopes : List Scope} {shs : List Shape} {i : Nat} {b : Block} (h : b ∈ scopeBlocks scopes shs i) :
    ∃ sc, scopes[i]? = some sc ∧ ((∃ id ∈ idsOf sc.symbols, ownerOf b = some id) ∨ (b = .table i ∧ sc.symbols.isSome) ∨ b = .scope i) := by
  unfold scopeBlocks at h
  split at h
  · rename_i sc hi
    refine ⟨sc, hi, ?_⟩
    unfold tableBlocks at h
    simp only [List.mem_append, List.mem_singleton] at h
    rcases h with (h | h) | h
    · exact .inl (ids_owner h)
    · split at h
      · rename_i hs
        exact .inr (.inl ⟨by simpa using h, hs⟩)
      · simp at h
    · exact .inr (.inr h)
  · simp at h

theorem ids_disjoint {scopes : List Scope} (hn : (allIds scopes).Nodup) {i j : Nat} {si sj : Scope} (hi : scopes[i]? = some si)
    (hj : scopes[j]? = some sj) (hne : i ≠ j) {id : Nat} (h : id ∈ idsOf si.symbols) : id ∉ idsOf sj.symbols := by
  unfold allIds List.Nodup at hn
  rw [List.pairwise_flatMap] at hn
  have hp := List.pairwise_iff_getElem.mp hn.2
  obtain ⟨hil, rfl⟩ := List.getElem?_eq_some_iff.mp hi
  obtain ⟨hjl, rfl⟩ := List.getElem?_eq_some_iff.mp hj
  intro h'
  rcases Nat.lt_or_gt_of_ne hne with hlt | hlt
  · exact hp i j hil hjl hlt id h id h' rfl
  · exact hp j i hjl hil hlt id h' id h rfl

theorem scopeBlocks_nodup {scopes : List Scope} (shs : List Shape) (hn : (allIds scopes).Nodup) (i : Nat) : (scopeBlocks scopes shs i).Nodup := by
  unfold scopeBlocks
  split
  · rename_i sc hi
    have hids : (idsOf sc.symbols).Nodup := by
      unfold allIds List.Nodup at hn
      rw [List.pairwise_flatMap] at hn
      exact hn.1 sc (List.mem_of_getElem? hi)
    unfold tableBlocks
    rw [List.nodup_append, List.nodup_append]
    refine ⟨⟨ids_nodup shs hids, by split <;> simp, ?_⟩, by simp, ?_⟩
    · rintro a ha b hb rfl
      obtain ⟨id, -, h⟩ := ids_owner ha
      split at hb
      · simp at hb; subst hb; cases h
      · simp at hb
    · rintro a ha b hb rfl
      simp only [List.mem_singleton] at hb
      subst hb
      rcases List.mem_append.mp ha with ha | ha
      · obtain ⟨id, -, h⟩ := ids_owner ha
        cases h
      · split at ha <;> simp at ha
  · simp

theorem visited_nodup {scopes : List Scope} (shs : List Shape) (hn : (allIds scopes).Nodup) {v : List Nat} (hv : v.Nodup) :
    (v.flatMap (scopeBlocks scopes shs)).Nodup := by
  unfold List.Nodup
  rw [List.pairwise_flatMap]
  refine ⟨fun i _ => scopeBlocks_nodup shs hn i, hv.imp ?_⟩
  rintro i j hne x hx y hy rfl
  obtain ⟨si, hi, h1⟩ := mem_scopeBlocks hx
  obtain ⟨sj, hj, h2⟩ := mem_scopeBlocks hy
  rcases h1 with ⟨id, hid, h1⟩ | ⟨rfl, -⟩ | rfl
  · rcases h2 with ⟨id', hid', h2⟩ | ⟨rfl, -⟩ | rfl
    · rw [h1] at h2
      cases h2
      exact ids_disjoint hn hi hj hne hid hid'
    · cases h1
    · cases h1
  · rcases h2 with ⟨id', hid', h2⟩ | ⟨h2, -⟩ | h2
    · cases h2
    · cases h2; exact hne rfl
    · cases h2
  · rcases h2 with ⟨id', hid', h2⟩ | ⟨h2, -⟩ | h2
    · cases h2
    · cases h2
    · cases h2; exact hne rfl

/-- The blocks `free_semantic_state` frees. -/
def allBlocks (s : SS) : List Block :=
  (visit s.scopes s.scopes.length (if s.scopes = [] then none else some 0)).flatMap (scopeBlocks s.scopes (shapes s)) ++
    symBlocks (.func false false) 0 ++ [.state]

theorem allBlocks_nodup {s : SS} (hb : Base s) : (allBlocks s).Nodup := by
  unfold allBlocks
  have hown : ∀ b ∈ (visit s.scopes s.scopes.length (if s.scopes = [] then none else some 0)).flatMap (scopeBlocks s.scopes (shapes s)),
      (∃ id, 0 < id ∧ ownerOf b = some id) ∨ (∃ i, b = .table i) ∨ ∃ i, b = .scope i := by
    intro b hm
    obtain ⟨i, -, h⟩ := List.mem_flatMap.mp hm
    obtain ⟨sc, hi, h⟩ := mem_scopeBlocks h
    rcases h with ⟨id, hid, h⟩ | ⟨h, -⟩ | h
    · exact .inl ⟨id, (hb.range id (List.mem_flatMap.mpr ⟨sc, List.mem_of_getElem? hi, hid⟩)).1, h⟩
    · exact .inr (.inl ⟨i, h⟩)
    · exact .inr (.inr ⟨i, h⟩)
  rw [List.nodup_append, List.nodup_append]
  refine ⟨⟨visited_nodup _ hb.nodup (visit_nodup hb.graph _ _), symBlocks_nodup _ _, ?_⟩, by simp, ?_⟩
  · rintro a ha b hm rfl
    have h0 := symBlocks_owner hm
    rcases hown a ha with ⟨id, h1, h2⟩ | ⟨i, h⟩ | ⟨i, h⟩
    · rw [h0] at h2; cases h2; omega
    · subst h; cases h0
    · subst h; cases h0
  · rintro a ha b hm rfl
    simp only [List.mem_singleton] at hm
    subst hm
    rcases List.mem_append.mp ha with ha | ha
    · rcases hown _ ha with ⟨id, h1, h2⟩ | ⟨i, h⟩ | ⟨i, h⟩
      · cases h2
      · cases h
      · cases h
    · cases symBlocks_owner ha

theorem findHead_lvl {s : SS} (hg : Graph s.scopes) (hl : Lvl s 0) :
    findScopeHead s = some (if s.scopes = [] then none else some 0) := by
  unfold Lvl at hl
  cases hc : s.scope with
  | none =>
    rw [hc] at hl
    rw [if_pos hl.2]
    unfold findScopeHead
    rw [hc]
  | some c =>
    rw [hc] at hl
    have : s.scopes ≠ [] := by
      intro e
      obtain ⟨sc, h⟩ := hl.exists
      rw [e] at h
      simp at h
    rw [if_neg this]
    exact Chain.findHead hg hl hc

theorem sweeps_state {s : SS} (hb : Base s) (hl : Lvl s 0) : ∃ es, freeSemanticState s = some es ∧ Sweeps es (allBlocks s) := by
  obtain ⟨es, h1, h2⟩ := sweeps_scope hb s.scopes.length (if s.scopes = [] then none else some 0) (by
    intro i hi
    split at hi
    · cases hi
    · rename_i hne
      cases hi
      have := List.length_pos_iff.mpr hne
      omega)
  have hmain := hb.main
  unfold shapes at hmain
  rw [List.getElem?_map] at hmain
  cases h0 : s.syms[0]? with
  | none => rw [h0] at hmain; cases hmain
  | some main =>
    rw [h0] at hmain
    simp only [Option.map_some, Option.some.injEq] at hmain
    refine ⟨[.use .state] ++ es ++ [.use (.sym 0), .use (.data 0)] ++ freeSymbol 0 main ++ [.free .state], ?_, ?_⟩
    · simp only [freeSemanticState, findHead_lvl hb.graph hl, h1, h0]
    · unfold allBlocks
      have h3 := sweeps_symbol 0 main
      rw [hmain] at h3
      have h4 : Sweeps ([.use (.sym 0), .use (.data 0)] ++ freeSymbol 0 main) (symBlocks (.func false false) 0) :=
        Sweeps.use (Sweeps.use h3 (by simp [symBlocks, Shape.hasData])) (by simp [symBlocks])
      have h5 := (h2.append h4).append (Sweeps.free .state)
      have h6 := Sweeps.use (b := .state) h5 (by simp)
      simpa [List.append_assoc] using h6

theorem held_all {s : SS} (hb : Base s) {m : Lives} (hh : Held s m) : ∀ b ∈ allBlocks s, m b = .live := by
  intro b hm
  unfold allBlocks at hm
  have hsym : ∀ id, id = 0 ∨ id ∈ allIds s.scopes → ∀ sh, (shapes s)[id]? = some sh → ∀ b ∈ symBlocks sh id, m b = .live := by
    intro id hid sh hsh b hb
    obtain ⟨h1, h2, h3, h4, h5⟩ := hh.syms id hid sh hsh
    rcases mem_symBlocks.mp hb with rfl | rfl | ⟨rfl, h⟩ | ⟨rfl, h⟩ | ⟨rfl, h⟩
    · exact h2
    · exact h1
    · exact h4 h
    · exact h5 h
    · exact h3 h
  simp only [List.mem_append, List.mem_singleton] at hm
  rcases hm with (hm | hm) | rfl
  · obtain ⟨i, -, h⟩ := List.mem_flatMap.mp hm
    unfold scopeBlocks at h
    split at h
    · rename_i sc hi
      unfold tableBlocks at h
      simp only [List.mem_append, List.mem_singleton] at h
      rcases h with (h | h) | rfl
      · obtain ⟨id, h1, h2⟩ := List.mem_flatMap.mp h
        unfold blocksOf at h2
        split at h2
        · rename_i sh hsh
          exact hsym id (.inr (List.mem_flatMap.mpr ⟨sc, List.mem_of_getElem? hi, h1⟩)) sh hsh b h2
        · simp at h2
      · split at h
        · rename_i hs
          simp only [List.mem_singleton] at h
          subst h
          exact hh.table i sc hi hs
        · simp at h
      · exact hh.scope i (lt_of_get hi)
    · simp at h
  · exact hsym 0 (.inl rfl) _ hb.main b hm
  · exact hh.state

/-- What is allocated is freed. -/
theorem owned_freed {s : SS} (hb : Base s) (hc : Covered s.scopes) (ha : AllIn s []) {b : Block} (h : lifeOf s b = .live) : b ∈ allBlocks s := by
  have hown : owns (shapes s) s.scopes b = true := by
    unfold lifeOf lifeB at h
    split at h
    · assumption
    · cases h
  have hlen : (shapes s).length = s.syms.length := by simp [shapes]
  have hvis : ∀ i sc, s.scopes[i]? = some sc → ∀ x ∈ scopeBlocks s.scopes (shapes s) i, x ∈ allBlocks s := by
    intro i sc hi x hx
    unfold allBlocks
    refine List.mem_append_left _ (List.mem_append_left _ (List.mem_flatMap.mpr ⟨i, ?_, hx⟩))
    rw [if_neg (by rintro e; rw [e] at hi; simp at hi)]
    exact visit_all hb.graph hc i (lt_of_get hi)
  have hsym : ∀ id sh, (shapes s)[id]? = some sh → ∀ x ∈ symBlocks sh id, x ∈ allBlocks s := by
    intro id sh hsh x hx
    by_cases h0 : id = 0
    · subst h0
      rw [hb.main] at hsh
      cases hsh
      exact List.mem_append_left _ (List.mem_append_right _ hx)
    · have hlt := lt_of_get hsh
      rcases ha id (by omega) (by omega) with h | h
      · obtain ⟨sc, hsc, hid⟩ := List.mem_flatMap.mp h
        obtain ⟨i, hi⟩ := List.getElem?_of_mem hsc
        refine hvis i sc hi x ?_
        simp only [scopeBlocks, hi, tableBlocks]
        refine List.mem_append_left _ (List.mem_append_left _ (List.mem_flatMap.mpr ⟨id, hid, ?_⟩))
        simp only [blocksOf, hsh]
        exact hx
      · simp at h
  cases b with
  | state => exact List.mem_append_right _ (by simp)
  | scope i =>
    simp only [owns, decide_eq_true_eq] at hown
    have hi : s.scopes[i]? = some s.scopes[i] := List.getElem?_eq_getElem hown
    refine hvis i _ hi _ ?_
    simp only [scopeBlocks, hi]
    simp
  | table i =>
    simp only [owns] at hown
    cases hi : s.scopes[i]? with
    | none => rw [hi] at hown; cases hown
    | some sc =>
      rw [hi] at hown
      refine hvis i _ hi _ ?_
      have hown : sc.symbols.isSome = true := hown
      simp only [scopeBlocks, hi, tableBlocks, hown, if_true]
      simp
  | sym j =>
    simp only [owns] at hown
    obtain ⟨sh, hsh⟩ := Option.isSome_iff_exists.mp hown
    exact hsym j sh hsh _ (mem_symBlocks.mpr (by simp))
  | name j =>
    simp only [owns] at hown
    obtain ⟨sh, hsh⟩ := Option.isSome_iff_exists.mp hown
    exact hsym j sh hsh _ (mem_symBlocks.mpr (by simp))
  | link j =>
    simp only [owns] at hown
    cases hsh : (shapes s)[j]? with
    | none => rw [hsh] at hown; cases hown
    | some sh => rw [hsh] at hown; exact hsym j sh hsh _ (mem_symBlocks.mpr (by simpa using hown))
  | data j =>
    simp only [owns] at hown
    cases hsh : (shapes s)[j]? with
    | none => rw [hsh] at hown; cases hown
    | some sh => rw [hsh] at hown; exact hsym j sh hsh _ (mem_symBlocks.mpr (by simpa using hown))
  | types j =>
    simp only [owns] at hown
    cases hsh : (shapes s)[j]? with
    | none => rw [hsh] at hown; cases hown
    | some sh => rw [hsh] at hown; exact hsym j sh hsh _ (mem_symBlocks.mpr (by simpa using hown))

/- ### The end -/

theorem run_params {h : HS} (hb : BoundOk h) {m : Lives} (hh : Held h.s m) : memRun m (freeParams h.bound) = some m := by
  unfold BoundOk at hb
  unfold freeParams
  generalize h.bound = ids at hb
  induction ids with
  | nil => rfl
  | cons id ids ih =>
    obtain ⟨h1, e, h2⟩ := hb id List.mem_cons_self
    obtain ⟨h3, -, h4, -, -⟩ := hh.syms id (.inr h1) _ h2
    rw [List.flatMap_cons]
    show memRun m (.use (.sym id) :: .use (.data id) :: _) = _
    rw [run_use h3, run_use (h4 rfl)]
    exact ih fun i hi => hb i (List.mem_cons_of_mem _ hi)

theorem cleanUp_ok {h : HS} (hb : Bad 0 h) {m : Lives} (hr : Run h.evs m) (hh : Held h.s m) :
    ∃ es, cleanUp h = some es ∧ Run (h.evs ++ es) (fun b => if b ∈ allBlocks h.s then .freed else m b) := by
  obtain ⟨es, h1, h2⟩ := sweeps_state hb.base hb.lvl
  refine ⟨freeParams h.bound ++ es, by simp only [cleanUp, h1, Option.map_some], ?_⟩
  refine Run.append hr ?_
  rw [memRun_append, run_params hb.bound hh]
  exact h2 m (allBlocks_nodup hb.base) (held_all hb.base hh)

theorem reset_same {hd : Nat} {h : HS} (hb : Bad hd h) : ∃ o, resetScopeHead h.s = .ok () { h.s with scope := o } ∧
    Bad hd { h with s := { h.s with scope := o } } ∧ (Ok hd h → Ok hd { h with s := { h.s with scope := o } }) := by
  have hl := hb.lvl
  unfold Lvl at hl
  have hst : ∀ o, Lvl { h.s with scope := o } hd → Bad hd { h with s := { h.s with scope := o } } ∧
      (Ok hd h → Ok hd { h with s := { h.s with scope := o } }) := by
    intro o hl
    obtain ⟨m, h1, h2⟩ := hb.held
    exact ⟨⟨⟨hb.base.graph, hb.base.good, hb.base.nodup, hb.base.range, hb.base.main⟩,
      ⟨m, h1, ⟨h2.state, h2.scope, h2.table, h2.syms⟩⟩, hb.bound, hl⟩, fun ho =>
      ⟨⟨hb.base.graph, hb.base.good, hb.base.nodup, hb.base.range, hb.base.main⟩, ho.covered, ho.all, ho.run, ho.bound, hl⟩⟩
  cases hc : h.s.scope with
  | none =>
    rw [hc] at hl
    refine ⟨none, ?_, hst none hl⟩
    have : { h.s with scope := none } = h.s := by
      cases hh : h.s
      rw [hh] at hc
      cases hc
      rfl
    rw [this]
    simp only [resetScopeHead, findScopeHead, hc]
  | some c =>
    rw [hc] at hl
    obtain ⟨sc, h1, h2⟩ := hl.root
    exact ⟨some hd, by simp only [resetScopeHead, Chain.findHead hb.base.graph hl hc], hst _ (Chain.head h1 h2)⟩

theorem ok_setup (cfg : Cfg) {h : HS} (he : setupStateH cfg = some h) : Ok 0 h ∧ Tip h.s ∧ setupState cfg = some h.s := by
  unfold setupStateH at he
  cases e : setupState cfg with
  | none => rw [e] at he; cases he
  | some s =>
    rw [e] at he
    simp only [Option.map_some, Option.some.injEq] at he
    subst he
    unfold setupState at e
    cases e2 : createMainFuncName cfg.filename with
    | none => rw [e2] at e; cases e
    | some name =>
      rw [e2] at e
      simp only [Option.map_some, Option.some.injEq] at e
      subst e
      refine ⟨⟨⟨⟨?_, ?_, ?_, ?_⟩, ?_, List.nodup_nil, ?_, rfl⟩, ?_, ?_, ?_, ?_, rfl, rfl⟩, ?_, rfl⟩
      · rintro i k x ⟨sc, h, -⟩; simp at h
      · rintro i j k l x ⟨sc, h, -⟩; simp at h
      · intro i sc c h; simp at h
      · intro i sc c h; simp at h
      · intro i sc h; simp at h
      · intro id h; simp [allIds] at h
      · intro x h0 h1; simp at h1
      · intro id h0 h1; simp at h1; omega
      · have := run_allocs (m := fun _ => .fresh) (bs := [.data 0, .name 0, .sym 0, .state]) (by simp) (fun _ _ => rfl)
        unfold Run
        rw [show [MemEvent.alloc (Block.data 0), .alloc (.name 0), .alloc (.sym 0), .alloc .state] =
          [.data 0, .name 0, .sym 0, .state].map .alloc from rfl, this]
        congr 1
        funext b
        cases b with
        | state => simp [lifeOf, lifeB, owns]
        | scope i => simp [lifeOf, lifeB, owns]
        | table i => simp [lifeOf, lifeB, owns]
        | sym j => cases j <;> simp [lifeOf, lifeB, owns, shapes]
        | name j => cases j <;> simp [lifeOf, lifeB, owns, shapes]
        | data j => cases j <;> simp [lifeOf, lifeB, owns, shapes, shape, shapeOf, Shape.hasData]
        | link j => cases j <;> simp [lifeOf, lifeB, owns, shapes, shape, shapeOf, Shape.hasLink]
        | types j => cases j <;> simp [lifeOf, lifeB, owns, shapes, shape, shapeOf, Shape.hasTypes]
      · intro id hid; cases hid
      · intro i sc h; cases h

theorem top_ok (cfg : Cfg) (t : Tree) (hp : ParamsOk t) {h : HS} (ho : Ok 0 h) (ht : Tip h.s) :
    Outcome (topNodes cfg t h) ((do let a ← validateNodes cfg [] t; resetScopeHead; resetScopeHead; pure a : Chk ATree) h.s)
      (fun _ => Ok 0) (Bad 0) := by
  have hn := nodes_ok cfg t [] hp 0 h ho ht
  unfold topNodes
  show Outcome _ (Chk.bind (validateNodes cfg [] t) _ h.s) _ _
  unfold Chk.bind
  cases e1 : validateNodesH cfg [] t h with
  | ok a h1 =>
    cases e2 : validateNodes cfg [] t h.s with
    | ok b s =>
      rw [e1, e2] at hn
      obtain ⟨rfl, rfl, hg⟩ := hn
      obtain ⟨o, h2, h3, h4⟩ := reset_same hg.ok.bad
      obtain ⟨o', h5, h6, h7⟩ := reset_same h3
      have ea : (do lift resetScopeHead; lift resetScopeHead; pure a : HChk ATree) h1 = .ok a { h1 with s := { h1.s with scope := o' } } := by
        simp only [bind, HChk.bind, Heap.lift, h2, h5]; rfl
      have eb : (do resetScopeHead; resetScopeHead; pure a : Chk ATree) h1.s = .ok a { h1.s with scope := o' } := by
        simp only [bind, Chk.bind, h2, h5]; rfl
      show Outcome ((do lift resetScopeHead; lift resetScopeHead; pure a : HChk ATree) h1)
        ((do resetScopeHead; resetScopeHead; pure a : Chk ATree) h1.s) _ _
      rw [ea, eb]
      exact ⟨rfl, rfl, h7 (h4 hg.ok)⟩
    | fail s => rw [e1, e2] at hn; exact hn.elim
    | ub => rw [e1, e2] at hn; exact hn.elim
  | fail h1 =>
    cases e2 : validateNodes cfg [] t h.s with
    | ok b s => rw [e1, e2] at hn; exact hn.elim
    | fail s =>
      rw [e1, e2] at hn
      obtain ⟨o, h2, h3, -⟩ := reset_same hn.bad
      have ea : (do lift resetScopeHead; stop : HChk ATree) h1 = .fail { h1 with s := { h1.s with scope := o } } := by
        simp only [bind, HChk.bind, Heap.lift, h2]; rfl
      show Outcome ((do lift resetScopeHead; stop : HChk ATree) h1) (SRes.fail s) _ _
      rw [ea]
      exact h3
    | ub => rw [e1, e2] at hn; exact hn.elim
  | ub =>
    cases e2 : validateNodes cfg [] t h.s with
    | ok b s => rw [e1, e2] at hn; exact hn.elim
    | fail s => rw [e1, e2] at hn; exact hn.elim
    | ub => trivial

/-- The check with the log and the one without end in the same way, with the memory in order. -/
theorem semantic_heap (cfg : Cfg) (t : Tree) (hp : ParamsOk t) :
    Outcome (semanticH cfg t) (semantic cfg t) (fun _ => Ok 0) (Bad 0) := by
  unfold semanticH semantic
  cases e : setupStateH cfg with
  | none =>
    have : setupState cfg = none := by
      unfold setupStateH at e
      cases e2 : setupState cfg with
      | none => rfl
      | some s => rw [e2] at e; cases e
    rw [this]
    trivial
  | some h =>
    obtain ⟨ho, ht, hs⟩ := ok_setup cfg e
    rw [hs]
    show Outcome (validateAstTreeH cfg t h) (validateAstTree cfg t h.s) _ _
    have hassoc : validateAstTree cfg t = ((do let a ← validateNodes cfg [] t; resetScopeHead; resetScopeHead; pure a : Chk ATree) >>= fun a =>
        if cfg.quiet then pure a
        else do
          let err ← checkUnused cfg false a
          if err then Chk.stop else pure a) := by
      unfold validateAstTree
      simp only [chk_assoc, chk_pure]
    rw [hassoc]
    refine Outcome.bind (top_ok cfg t hp ho ht) ?_
    intro a h1 ho1
    by_cases hq : cfg.quiet
    · rw [if_pos hq, if_pos hq]
      exact ⟨rfl, rfl, ho1⟩
    · rw [if_neg hq, if_neg hq]
      refine Outcome.bind ((Outcome.lift (mild_checkUnused cfg false a) h1).weaken (Q' := fun _ => Ok 0) (R' := Bad 0)
        (fun _ _ hs => ho1.same hs.1) fun _ hs => ho1.bad.same hs) ?_
      intro err h2 ho2
      cases err with
      | true => exact ho2.bad
      | false => exact ⟨rfl, rfl, ho2⟩

/- ### Facts about logs -/

theorem freed_stays {es : List Event} {m m' : Lives} (h : memRun m es = some m') {b : Block} (hb : m b = .freed) : m' b = .freed := by
  induction es generalizing m with
  | nil => cases h; exact hb
  | cons e es ih =>
    unfold memRun at h
    cases hs : memStep m e with
    | none => rw [hs] at h; cases h
    | some m1 =>
      rw [hs] at h
      refine ih h ?_
      cases e with
      | alloc c =>
        simp only [memStep] at hs
        split at hs
        · rename_i hf
          cases hs
          rw [setLife_ne]
          · exact hb
          · rintro rfl; rw [hf] at hb; cases hb
        · cases hs
      | use c =>
        simp only [memStep] at hs
        split at hs
        · cases hs; exact hb
        · cases hs
      | free c =>
        simp only [memStep] at hs
        split at hs
        · cases hs
          by_cases hc : b = c
          · subst hc; exact setLife_same _ _ _
          · rw [setLife_ne hc]; exact hb
        · cases hs

theorem free_freed {es : List Event} {m m' : Lives} (h : memRun m es = some m') {b : Block} (hb : .free b ∈ es) : m' b = .freed := by
  induction es generalizing m with
  | nil => cases hb
  | cons e es ih =>
    unfold memRun at h
    cases hs : memStep m e with
    | none => rw [hs] at h; cases h
    | some m1 =>
      rw [hs] at h
      rcases List.mem_cons.mp hb with hb | hb
      · subst hb
        refine freed_stays h ?_
        simp only [memStep] at hs
        split at hs
        · cases hs; exact setLife_same _ _ _
        · cases hs
      · exact ih h hb

theorem ok_frees_nothing {hd : Nat} {h : HS} (ho : Ok hd h) (b : Block) : .free b ∉ h.evs := by
  intro hb
  have := free_freed ho.run hb
  unfold lifeOf lifeB at this
  split at this <;> cases this

end Skull.SemHeap
