import Verif.Proofs.SemHeapBlock
/-
Statements.
-/
namespace Skull.SemHeap

open Skull.Heap
open Skull.Spec (MemEvent Life memRun memStep setLife)

theorem run_allocs {m : Lives} {bs : List Block} (hn : bs.Nodup) (hf : ∀ b ∈ bs, m b = .fresh) :
    memRun m (bs.map .alloc) = some fun b => if b ∈ bs then .live else m b := by
  induction bs generalizing m with
  | nil => simp [memRun]
  | cons b bs ih =>
    obtain ⟨h1, h2⟩ := List.nodup_cons.mp hn
    rw [List.map_cons, run_alloc (hf b List.mem_cons_self), ih h2]
    · congr 1
      funext c
      by_cases hc : c = b
      · subst hc
        simp [h1, setLife_same]
      · simp [hc, setLife_ne hc]
    · intro c hc
      have hne : c ≠ b := fun e => h1 (e ▸ hc)
      rw [setLife_ne hne]
      exact hf c (List.mem_cons_of_mem _ hc)

/-- The blocks of a new symbol. -/
def newBlocks (sh : Shape) (id : Nat) : Block → Bool
  | .sym j => decide (j = id)
  | .name j => decide (j = id)
  | .data j => decide (j = id) && sh.hasData
  | .link j => decide (j = id) && sh.hasLink
  | _ => false

theorem any_append (a : List Shape) (sh : Shape) (f : Shape → Bool) (j : Nat) :
    ((a ++ [sh])[j]?).any f = (decide (j = a.length) && f sh || (a[j]?).any f) := by
  by_cases hj : j < a.length
  · rw [List.getElem?_append_left hj, List.getElem?_eq_getElem hj]
    have : j ≠ a.length := by omega
    simp [this]
  · rw [List.getElem?_append_right (by omega), List.getElem?_eq_none (l := a) (by omega)]
    by_cases e : j = a.length
    · simp [e]
    · rw [List.getElem?_eq_none (by simp; omega)]
      simp [e]

theorem run_new {s s' : SS} {sh : Shape} (h1 : shapes s' = shapes s ++ [sh]) (h2 : s'.scopes = s.scopes) {bs : List Block}
    (hn : bs.Nodup) (hb : ∀ b, b ∈ bs ↔ newBlocks sh s.syms.length b = true) :
    memRun (lifeOf s) (bs.map .alloc) = some (lessTypes s' s.syms.length) := by
  have hlen : (shapes s).length = s.syms.length := by simp [shapes]
  have hnone : (shapes s)[s.syms.length]? = none := List.getElem?_eq_none (by omega)
  rw [run_allocs hn]
  · congr 1
    funext b
    have hb := hb b
    unfold lessTypes lifeOf
    rw [h1, h2]
    cases b with
    | state => simp_all [newBlocks, owns]
    | scope i => simp_all [newBlocks, owns]
    | table i => simp_all [newBlocks, owns]
    | sym j =>
      have e := any_append (shapes s) sh (fun _ => true) j
      rw [hlen] at e
      simp only [Option.any_true, Bool.and_true] at e
      simp only [newBlocks, decide_eq_true_eq] at hb
      simp only [hb, owns, e]
      by_cases hj : j = s.syms.length <;> simp [hj, lifeB]
    | name j =>
      have e := any_append (shapes s) sh (fun _ => true) j
      rw [hlen] at e
      simp only [Option.any_true, Bool.and_true] at e
      simp only [newBlocks, decide_eq_true_eq] at hb
      simp only [hb, owns, e]
      by_cases hj : j = s.syms.length <;> simp [hj, lifeB]
    | data j =>
      have e := any_append (shapes s) sh Shape.hasData j
      rw [hlen] at e
      simp only [newBlocks, Bool.and_eq_true, decide_eq_true_eq] at hb
      simp only [hb, owns, e]
      by_cases hj : j = s.syms.length <;> cases hs : sh.hasData <;> simp [hj, hnone, lifeB]
    | link j =>
      have e := any_append (shapes s) sh Shape.hasLink j
      rw [hlen] at e
      simp only [newBlocks, Bool.and_eq_true, decide_eq_true_eq] at hb
      simp only [hb, owns, e]
      by_cases hj : j = s.syms.length <;> cases hs : sh.hasLink <;> simp [hj, hnone, lifeB]
    | types j =>
      have e := any_append (shapes s) sh Shape.hasTypes j
      rw [hlen] at e
      simp only [newBlocks, Bool.false_eq_true, iff_false] at hb
      simp only [hb, owns, e]
      by_cases hj : j = s.syms.length <;> simp [hj, hnone, lifeB]
  · intro b hm
    have hm := (hb b).mp hm
    cases b <;> simp_all [newBlocks, lifeOf, lifeB, owns]

/- ### Steps inside a statement that began in the state `s0` -/

/-- All is well. -/
structure Good (hd : Nat) (s0 : SS) (h : HS) : Prop where
  ok : Ok hd h
  tip : Tip h.s
  moved : Moved s0 h.s

/-- The check failed. -/
structure Fail (hd : Nat) (s0 : SS) (h : HS) : Prop where
  bad : Bad hd h
  keep : Keep s0 h.s

theorem Good.same {hd : Nat} {s0 : SS} {h h' : HS} (hg : Good hd s0 h) (hs : SameH h h') : Good hd s0 h' :=
  ⟨hg.ok.same hs, hg.tip.same hs.s, hg.moved.trans (.of_same hs.s)⟩

theorem Good.fail {hd : Nat} {s0 : SS} {h : HS} (hg : Good hd s0 h) : Fail hd s0 h := ⟨hg.ok.bad, hg.moved.keep⟩

theorem Fail.same {hd : Nat} {s0 : SS} {h h' : HS} (hg : Fail hd s0 h) (hs : SameH h h') : Fail hd s0 h' :=
  ⟨hg.bad.same hs, hg.keep.trans (.of_same hs.s)⟩

theorem Outcome.liftAt {c : Chk α} {h : HS} (h1 : After (c h.s) (Same h.s)) :
    Outcome (Heap.lift c h) (c h.s) (fun a h' => SameH h h' ∧ c h.s = .ok a h'.s) (SameH h) := by
  unfold Skull.Heap.lift
  cases e : c h.s with
  | ok a s => rw [e] at h1; exact ⟨rfl, rfl, ⟨h1, rfl, rfl⟩, rfl⟩
  | fail s => rw [e] at h1; exact ⟨h1, rfl, rfl⟩
  | ub => trivial

theorem Good.lift {hd : Nat} {s0 : SS} {h : HS} (hg : Good hd s0 h) {c : Chk α} (hm : Mild c) :
    Outcome (Heap.lift c h) (c h.s) (fun a h' => Good hd s0 h' ∧ c h.s = .ok a h'.s) (Fail hd s0) :=
  (Outcome.lift hm h).weaken (fun _ _ hs => ⟨hg.same hs.1, hs.2⟩) fun _ hs => hg.fail.same hs

/-- A new symbol that is not yet in a table. -/
structure New (hd : Nat) (s0 : SS) (sym : Symbol) (id : Nat) (h : HS) : Prop where
  pend : Pend hd id (shape sym) h
  moved : Moved s0 h.s
  tip : Tip h.s
  sym : h.s.syms[id]? = some sym

theorem Good.new {hd : Nat} {s0 : SS} {h : HS} (hg : Good hd s0 h) (sym : Symbol) {es : Nat → List Event} {bs : Nat → List Block}
    (he : ∀ id, es id = (bs id).map .alloc) (hn : ∀ id, (bs id).Nodup) (hb : ∀ id b, b ∈ bs id ↔ newBlocks (shape sym) id b = true) :
    Outcome (newSymH sym es h) (newSym sym h.s) (New hd s0 sym) (Fail hd s0) := by
  refine (pend_new hg.ok sym es ?_ (Fail hd s0)).weaken ?_ fun _ h => h
  · rintro m s' h1 h2 rfl
    rw [he]
    exact run_new h1 h2 (hn _) (hb _)
  · rintro id h' ⟨h1, h2, h3, h4, -⟩
    exact ⟨h1, hg.moved.trans h2, h3 hg.tip, h4⟩

/-- The new symbol is in a table. -/
structure There (hd : Nat) (s0 : SS) (sh : Shape) (id : Nat) (h : HS) : Prop where
  added : Added hd id sh h
  moved : Moved s0 h.s
  tip : Tip h.s

theorem There.good {hd id : Nat} {s0 : SS} {sh : Shape} {h : HS} (ht : There hd s0 sh id h) (hs : sh.hasTypes = false) : Good hd s0 h := by
  refine ⟨⟨ht.added.base, ht.added.covered, ht.added.all, ?_, ht.added.bound, ht.added.lvl⟩, ht.tip, ht.moved⟩
  have : lessTypes h.s id = lifeOf h.s := by
    funext b
    unfold lessTypes
    split
    · rename_i e
      subst e
      simp [lifeOf, owns, ht.added.shape, hs, lifeB]
    · rfl
  rw [← this]
  exact ht.added.run

theorem There.types {hd id : Nat} {s0 : SS} {sh : Shape} {h : HS} (ht : There hd s0 sh id h) (hs : sh.hasTypes = true) :
    Good hd s0 { h with evs := h.evs ++ [.alloc (.types id)] } := by
  refine ⟨⟨ht.added.base, ht.added.covered, ht.added.all, ?_, ht.added.bound, ht.added.lvl⟩, ht.tip, ht.moved⟩
  refine Run.append ht.added.run ?_
  rw [run_alloc (by simp [lessTypes])]
  show some _ = some _
  congr 1
  funext b
  unfold setLife lessTypes
  split
  · rename_i e
    subst e
    simp [lifeOf, owns, ht.added.shape, hs, lifeB]
  · rfl

theorem New.add {hd id : Nat} {s0 : SS} {sym : Symbol} {h : HS} (hn : New hd s0 sym id h) {es : List Event}
    (hes : Frees id (shape sym) False es) :
    Outcome (mustAddH id es h) (mustAdd id h.s) (fun _ => There hd s0 (shape sym) id) (Fail hd s0) := by
  refine (pend_mustAdd hn.pend hn.sym hes (R := Fail hd s0) fun h' h1 h2 => ⟨h1, hn.moved.keep.trans h2⟩).weaken ?_ fun _ h => h
  rintro _ h' ⟨h1, h2, h3, h4⟩
  exact ⟨h1, hn.moved.trans h2, h3 hn.tip⟩

theorem good_block {hd : Nat} {s0 : SS} {h : HS} (ht : Tip s0) (ho : Ok hd h) (hr : Ready h.s) (hm : Moved s0 h.s)
    {nodes : HChk ATree} {cnodes : Chk ATree}
    (hn : ∀ c h1, Ok c h1 → Tip h1.s → Outcome (nodes h1) (cnodes h1.s) (fun _ => Good c h1.s) (Fail c h1.s)) :
    Outcome (blockH nodes h) (block cnodes h.s) (fun _ h' => Good hd s0 h' ∧ Keep h.s h'.s) (Fail hd s0) := by
  refine (block_ok ho hr fun c h1 h2 h3 => (hn c h1 h2 h3).weaken (fun _ _ h => ⟨h.ok, h.moved⟩) fun _ h => ⟨h.bad, h.keep⟩).weaken
    ?_ ?_
  · rintro _ h' ⟨h1, h2, h3, h4⟩
    exact ⟨⟨h1, h2, hm.keep.trans h3, h4.trans ht hm ho.base.graph⟩, h3⟩
  · rintro h' ⟨h1, h2⟩
    exact ⟨h1, hm.keep.trans h2⟩

/- ### What is freed when a symbol cannot be added -/

theorem frees_sym (id : Nat) : Frees id .plain False [.free (.sym id)] := by
  intro m h1 _ _
  refine ⟨_, by rw [run_free h1]; rfl, fun b hb => setLife_ne ?_⟩
  rintro rfl
  exact hb rfl

theorem frees_func (id : Nat) (e t : Bool) : Frees id (.func e t) False [.free (.data id), .free (.sym id)] := by
  intro m h1 h2 _
  refine ⟨_, by rw [run_free (h2 rfl), run_free (by rw [setLife_ne (by simp)]; exact h1)]; rfl, fun b hb => ?_⟩
  rw [setLife_ne, setLife_ne]
  · rintro rfl; exact hb rfl
  · rintro rfl; exact hb rfl

theorem frees_var (id : Nat) (e : Bool) : Frees id (.var e) False [.use (.data id), .free (.data id), .free (.sym id)] := by
  intro m h1 h2 _
  refine ⟨_, by rw [run_use (h2 rfl), run_free (h2 rfl), run_free (by rw [setLife_ne (by simp)]; exact h1)]; rfl, fun b hb => ?_⟩
  rw [setLife_ne, setLife_ne]
  · rintro rfl; exact hb rfl
  · rintro rfl; exact hb rfl

theorem frees_param (id : Nat) (e : Bool) : Frees id (.var e) True
    [.use (.sym id), .use (.data id), .use (.name id), .free (.name id), .free (.data id), .free (.sym id)] := by
  intro m h1 h2 h3
  refine ⟨_, by
    rw [run_use h1, run_use (h2 rfl), run_use (h3 trivial), run_free (h3 trivial),
      run_free (by rw [setLife_ne (by simp)]; exact h2 rfl),
      run_free (by rw [setLife_ne (by simp), setLife_ne (by simp)]; exact h1)]
    rfl, fun b hb => ?_⟩
  rw [setLife_ne, setLife_ne, setLife_ne]
  all_goals rintro rfl; exact hb rfl

/- ### Statements that make a symbol -/

theorem good_alias {hd : Nat} {s0 : SS} {h : HS} (hg : Good hd s0 h) (isConst : Bool) (expr : Expr) (tok : List Token) :
    Outcome (validateTypeAliasH isConst expr tok h) (validateTypeAlias isConst expr tok h.s) (fun _ => Good hd s0) (Fail hd s0) := by
  unfold validateTypeAliasH validateTypeAlias
  split
  · refine Outcome.bind (hg.lift (mild_headTok _)) ?_
    rintro t h1 ⟨hg1, -⟩
    exact (hg1.lift (mild_error _ _)).weaken (fun _ _ h => h.1) fun _ h => h
  · split
    · refine Outcome.bind (hg.lift (mild_headTok _)) ?_
      rintro t h1 ⟨hg1, -⟩
      exact (hg1.lift (mild_error _ _)).weaken (fun _ _ h => h.1) fun _ h => h
    · refine Outcome.bind (hg.lift (mild_tokenToType _)) ?_
      rintro type h1 ⟨hg1, -⟩
      refine Outcome.bind (hg1.lift (mild_headTok _)) ?_
      rintro first h2 ⟨hg2, -⟩
      refine Outcome.bind (hg2.lift (mild_tokName _)) ?_
      rintro alias h3 ⟨hg3, -⟩
      refine Outcome.bind (hg3.new _ (bs := fun id => [.name id, .sym id]) (fun _ => rfl) (by simp) ?_) ?_
      · intro id b
        cases b <;> simp [newBlocks, shape, shapeOf, Shape.hasData, Shape.hasLink]
      · intro id h4 hn
        exact (hn.add (frees_sym id)).weaken (fun _ _ ht => ht.good rfl) fun _ h => h

theorem good_var {hd : Nat} {s0 : SS} {h : HS} (hg : Good hd s0 h) (cfg : Cfg) (name : List Token)
    (isConst isImplicit isExported : Bool) (e : AExpr) :
    Outcome (nodeToVarH cfg name isConst isImplicit isExported e h) (nodeToVar cfg name isConst isImplicit isExported e h.s)
      (fun _ => Good hd s0) (Fail hd s0) := by
  refine Outcome.bind (hg.lift (mild_notVoidFuncAssign _)) ?_
  rintro _ h1 ⟨hg1, -⟩
  refine Outcome.bind (hg1.lift (mild_declaredType _ _ _)) ?_
  rintro type h1 ⟨hg1, -⟩
  refine Outcome.bind (hg1.lift (mild_headTok _)) ?_
  rintro t h1 ⟨hg1, -⟩
  refine Outcome.bind (hg1.lift (mild_tokName _)) ?_
  rintro str h1 ⟨hg1, -⟩
  refine Outcome.bind (hg1.lift (mild_makeVariable _ _ _)) ?_
  rintro var h1 ⟨hg1, -⟩
  refine Outcome.bind (hg1.lift (mild_linkageName _ _ _)) ?_
  rintro link h1 ⟨hg1, -⟩
  refine Outcome.bind (hg1.new _ (bs := fun id => [.data id, .name id, .sym id] ++ if isExported then [.link id] else []) ?_ ?_ ?_) ?_
  · intro id; cases isExported <;> rfl
  · intro id; cases isExported <;> simp
  · intro id b
    cases isExported <;> cases b <;> simp [newBlocks, shape, shapeOf, Shape.hasData, Shape.hasLink]
  · intro id h4 hn
    refine Outcome.bind (hn.add (frees_var id isExported)) ?_
    intro _ h5 ht
    exact ⟨rfl, rfl, ht.good rfl⟩

theorem good_validateVar {hd : Nat} {s0 : SS} {h : HS} (hg : Good hd s0 h) (cfg : Cfg) (name : List Token)
    (isConst isImplicit isExported : Bool) (e : Expr) :
    Outcome (validateVarH cfg name isConst isImplicit isExported e h) (validateVar cfg name isConst isImplicit isExported e h.s)
      (fun _ => Good hd s0) (Fail hd s0) := by
  refine Outcome.bind (hg.lift (mild_validateExpr _ _)) ?_
  rintro e h1 ⟨hg1, -⟩
  refine Outcome.bind (good_var hg1 cfg name isConst isImplicit isExported e) ?_
  intro id h1 hg1
  refine Outcome.bind (hg1.lift (mild_updVar _ fun _ => rfl)) ?_
  rintro _ h1 ⟨hg1, -⟩
  refine Outcome.bind (hg1.lift (mild_varAt _)) ?_
  rintro v h1 ⟨hg1, -⟩
  refine Outcome.bind (hg1.lift (mild_compatible _ _)) ?_
  rintro _ h1 ⟨hg1, -⟩
  refine Outcome.bind (hg1.lift (mild_warnTrivial _ _ _)) ?_
  rintro _ h1 ⟨hg1, -⟩
  exact ⟨rfl, rfl, hg1⟩

theorem good_varDef {hd : Nat} {s0 : SS} {h : HS} (hg : Good hd s0 h) (cfg : Cfg) (name : List Token)
    (isConst isImplicit isExported : Bool) (e : Expr) (tok tokEnd : List Token) :
    Outcome (validateVarDefH cfg name isConst isImplicit isExported e tok tokEnd h)
      (validateVarDef cfg name isConst isImplicit isExported e tok tokEnd h.s) (fun _ => Good hd s0) (Fail hd s0) := by
  refine Outcome.bind (hg.lift (mild_tokenToType _)) ?_
  rintro o h1 ⟨hg1, -⟩
  cases o with
  | some _ =>
    refine Outcome.bind (good_alias hg1 isConst e tok) ?_
    intro _ h2 hg2
    exact ⟨rfl, rfl, hg2⟩
  | none => exact good_validateVar hg1 cfg name isConst isImplicit isExported e

theorem good_namespace {hd : Nat} {s0 : SS} {h : HS} (hg : Good hd s0 h) (tok : List Token) :
    Outcome (declareNamespaceH tok h) (declareNamespace tok h.s)
      (fun id h' => Good hd s0 h' ∧ (shapes h'.s)[id]? = some .plain) (Fail hd s0) := by
  refine Outcome.bind (hg.lift (mild_headTok _)) ?_
  rintro t h1 ⟨hg1, -⟩
  refine Outcome.bind (hg1.lift (mild_tokName _)) ?_
  rintro str h1 ⟨hg1, -⟩
  refine Outcome.bind (hg1.new _ (bs := fun id => [.sym id, .name id]) (fun _ => rfl) (by simp) ?_) ?_
  · intro id b
    cases b <;> simp [newBlocks, shape, shapeOf, Shape.hasData, Shape.hasLink]
  · intro id h4 hn
    refine Outcome.bind (hn.add (frees_sym id)) ?_
    intro _ h5 ht
    exact ⟨rfl, rfl, ht.good rfl, ht.added.shape⟩

theorem close_after {s : SS} {id : Nat} (h : (shapes s)[id]? = some .plain) : After (closeNamespace id s) (Same s) := by
  unfold closeNamespace
  cases blockScope s with
  | none => trivial
  | some scope =>
    show After (updSym id _ s) _
    unfold updSym
    cases e : s.syms[id]? with
    | none => trivial
    | some sym =>
      refine ⟨rfl, rfl, ?_⟩
      show (s.syms.set id _).map shape = _
      rw [List.map_set]
      apply List.ext_getElem?
      intro j
      rw [List.getElem?_set]
      split
      · rename_i hj
        subst hj
        have h' : (s.syms.map shape)[id]? = some .plain := h
        rw [h']
        split
        · rfl
        · rename_i hl
          rw [List.getElem?_eq_none (by omega)] at h'
          cases h'
      · rfl

theorem keep_shape {s s' : SS} (hk : Keep s s') {id : Nat} {sh : Shape} (h : (shapes s)[id]? = some sh) :
    (shapes s')[id]? = some sh := by
  obtain ⟨ext, he⟩ := hk.syms
  rw [he, List.getElem?_append_left (lt_of_get h)]
  exact h

/- ### Functions -/

/-- No parameter has the name of a builtin type. -/
def ParamOk (p : Param) : Prop := ∀ (s s' : SS) str, tokName p.name s = .ok str s' → findBuiltinType str = none

structure InParams (c : Nat) (s0 : SS) (h : HS) : Prop where
  good : Good c s0 h
  cur : h.s.scope = some c

theorem InParams.lift {c : Nat} {s0 : SS} {h : HS} (hg : InParams c s0 h) {k : Chk α} (hm : Mild k) :
    Outcome (Heap.lift k h) (k h.s) (fun a h' => InParams c s0 h' ∧ k h.s = .ok a h'.s) (Fail c s0) :=
  (Outcome.lift hm h).weaken (fun _ _ hs => ⟨⟨hg.good.same hs.1, by rw [hs.1.s.scope]; exact hg.cur⟩, hs.2⟩)
    fun _ hs => hg.good.fail.same hs

theorem params_ok (isExternal : Bool) (ps : List Param) (hps : ∀ p ∈ ps, ParamOk p) : ∀ {c : Nat} {s0 : SS} {h : HS}, InParams c s0 h →
    Outcome (validateParamsH isExternal ps h) (validateParams isExternal ps h.s) (fun _ => InParams c s0) (Fail c s0) := by
  induction ps with
  | nil => intro c s0 h hi; exact ⟨rfl, rfl, hi⟩
  | cons p ps ih =>
    intro c s0 h hi
    unfold validateParamsH validateParams
    refine Outcome.bind (hi.lift (mild_tokenToType _)) ?_
    rintro o h1 ⟨hi1, -⟩
    cases o with
    | none => exact (hi1.lift (mild_error _ _)).weaken (fun _ _ h => h.1) fun _ h => h
    | some ty =>
      refine Outcome.bind (hi1.lift (mild_tokName _)) ?_
      rintro str h2 ⟨hi2, hstr⟩
      have hname := hps p List.mem_cons_self _ _ _ hstr
      refine Outcome.bind (hi2.lift (mild_makeVariable _ _ _)) ?_
      rintro var h3 ⟨hi3, hvar⟩
      have hexp : var.isExported = false := by
        unfold makeVariable at hvar
        split at hvar
        · simp only [pure, SRes.ok.injEq] at hvar
          rw [← hvar.1]
        · cases hvar
      have hnew := pend_new hi3.good.ok
          { name := str, exprType := some ty, loc := some p.name,
            kind := .var { var with isDefined := true, wasReassigned := isExternal, wasRead := isExternal } }
          (fun id => [.alloc (.data id), .alloc (.name id), .alloc (.sym id)]) (by
            rintro m s' e1 e2 rfl
            refine run_new (bs := [.data _, .name _, .sym _]) e1 e2 (by simp) ?_
            intro b
            cases b <;> simp [newBlocks, shape, shapeOf, Shape.hasData, Shape.hasLink, hexp]) (Fail c s0)
      refine Outcome.bind hnew ?_
      rintro id h4 ⟨hp, hm4, ht4, hs4, hc4⟩
      refine Outcome.bind (pend_addVar hp hs4 (R := Fail c s0) fun h' h1 h2 => ⟨h1, (hi3.good.moved.trans hm4).keep.trans h2⟩) ?_
      rintro b h5 ⟨hyes, hno⟩
      cases b with
      | true =>
        obtain ⟨ha, hm5, ht5, hc5, hsh⟩ := hyes rfl
        have hg : Good c s0 h5 := There.good (id := id) (sh := .var var.isExported)
          ⟨ha, (hi3.good.moved.trans hm4).trans hm5, ht5 (ht4 hi3.good.tip)⟩ rfl
        have hcur : h5.s.scope = some c := hc5 c (hc4.trans hi3.cur)
        have hb : InParams c s0 { h5 with bound := h5.bound ++ [id] } := by
          refine ⟨⟨⟨hg.ok.base, hg.ok.covered, hg.ok.all, hg.ok.run, ?_, hg.ok.lvl⟩, hg.tip, hg.moved⟩, hcur⟩
          intro j hj
          rcases List.mem_append.mp hj with hj | hj
          · exact hg.ok.bound j hj
          · rw [List.mem_singleton] at hj
            subst hj
            exact ⟨ha.mem, _, ha.shape⟩
        have hrest := ih (fun q hq => hps q (List.mem_cons_of_mem _ hq)) hb
        show Outcome ((do let rest ← validateParamsH isExternal ps; pure ((ty, id) :: rest) : HChk (List (Ty × Nat)))
          { h5 with bound := h5.bound ++ [id] }) ((do let rest ← validateParams isExternal ps; pure ((ty, id) :: rest) : Chk (List (Ty × Nat))) h5.s) _ _
        refine Outcome.bind hrest ?_
        intro rest h6 h7
        exact ⟨rfl, rfl, h7⟩
      | false =>
        obtain ⟨hr, hk⟩ := hno rfl
        have hbad := (hr.imp (c' := True) fun _ => hname).free (frees_param id var.isExported)
        have hf : Fail c s0 _ := ⟨hbad, (hi3.good.moved.trans hm4).keep.trans hk⟩
        exact (Outcome.lift (mild_error (α := List (Ty × Nat)) .errShadowVar (some p.name)) _).weaken
          (Q := fun _ _ => False) (fun _ _ h => h.elim) fun _ hs => hf.same hs

theorem funcParams_ok {hd id : Nat} {s0 : SS} {h : HS} (ht0 : Tip s0) (p : FuncProto) (hps : ∀ q ∈ p.params, ParamOk q) {e : Bool}
    (ht : There hd s0 (.func e (decide (p.numParams ≠ 0))) id h) :
    Outcome (validateFuncParamsH p id h) (validateFuncParams p id h.s) (fun _ h' => Ok hd h' ∧ Ready h'.s ∧ Moved s0 h'.s)
      (Fail hd s0) := by
  unfold validateFuncParamsH validateFuncParams
  by_cases hn : p.numParams = 0
  · rw [if_pos hn, if_pos hn]
    have hg := ht.good (by simp [Shape.hasTypes, hn])
    exact ⟨rfl, rfl, hg.ok, hg.tip.ready, hg.moved⟩
  · rw [if_neg hn, if_neg hn]
    have hg := ht.types (by simp [Shape.hasTypes, hn])
    show Outcome ((do makeChildScopeH; restoring _ : HChk (List Nat)) { h with evs := h.evs ++ [.alloc (.types id)] }) _ _ _
    refine Outcome.bind (h := { h with evs := h.evs ++ [.alloc (.types id)] }) (child_ok hg.ok hg.tip.ready _) ?_
    rintro _ h1 ⟨c, i, he⟩
    have hrest := restoring_ok (Q := fun _ h2 => Tip h2.s ∧ h2.s.scope = some c) he
      (m := do
        let ps ← validateParamsH p.isExternal (p.params.take p.numParams)
        Heap.lift (updFunc id fun f => { f with paramTypes := ps.map Prod.fst })
        pure (ps.map Prod.snd))
      (k := do
        let ps ← validateParams p.isExternal (p.params.take p.numParams)
        updFunc id fun f => { f with paramTypes := ps.map Prod.fst }
        pure (ps.map Prod.snd)) (by
        have hi : InParams c h1.s h1 := ⟨⟨he.ok, he.tip, .refl _⟩, he.cur⟩
        have hpar := params_ok p.isExternal (p.params.take p.numParams) (fun q hq => hps q (List.mem_of_mem_take hq)) hi
        refine Outcome.weaken (Q := fun _ => InParams c h1.s) (R := Fail c h1.s) ?_
          (fun _ _ h => ⟨h.good.ok, h.good.moved, h.good.tip, h.cur⟩) fun _ h => ⟨h.bad, h.keep⟩
        refine Outcome.bind hpar ?_
        intro ps h2 hi2
        refine Outcome.bind (hi2.lift (mild_updFunc _ (fun _ => rfl) fun _ => rfl)) ?_
        rintro _ h3 ⟨hi3, -⟩
        exact ⟨rfl, rfl, hi3⟩)
    simp only [chk_assoc, chk_pure] at hrest
    refine hrest.weaken ?_ fun _ h => ⟨h.1, hg.moved.keep.trans h.2⟩
    rintro _ h3 ⟨h2, ho2, hm2, ⟨ht2, hc2⟩, rfl, ho3⟩
    obtain ⟨⟨sc, h4, h5, h6⟩, hfb⟩ := after_block he he.ok.base.graph hm2
    refine ⟨ho3, ?_, ?_, hfb.trans ht0 hg.moved hg.ok.base.graph⟩
    · intro j sj hj hgj
      cases hj
      have hgj : h2.s.scopes[i]? = some sj := hgj
      rw [h4] at hgj
      cases hgj
      refine ⟨h5, fun c' cs hc' hcs => ?_⟩
      rw [h6] at hc'
      cases hc'
      exact ht2 c cs hc2 hcs
    · exact keep_at (hg.moved.keep.trans (he.keep.trans hm2.keep)) _

theorem New.enter {hd id : Nat} {s0 : SS} {sym : Symbol} {h : HS} (hn : New hd s0 sym id h) :
    Outcome (Heap.lift (enterFunc id) h) (enterFunc id h.s) (fun _ => New hd s0 sym id) (Fail hd s0) :=
  ⟨rfl, rfl, Pend.same (h := h) ⟨⟨rfl, rfl, rfl⟩, rfl, rfl⟩ hn.pend, hn.moved.trans (.of_same ⟨rfl, rfl, rfl⟩), hn.tip, hn.sym⟩

theorem funcDecl_ok {hd : Nat} {s0 : SS} {h : HS} (ht0 : Tip s0) (hg : Good hd s0 h) (cfg : Cfg) (p : FuncProto)
    (hps : ∀ q ∈ p.params, ParamOk q) :
    Outcome (validateFuncDeclH cfg p h) (validateFuncDecl cfg p h.s) (fun _ h' => Ok hd h' ∧ Ready h'.s ∧ Moved s0 h'.s)
      (Fail hd s0) := by
  refine Outcome.bind (hg.lift (mild_notNested _)) ?_
  rintro _ h1 ⟨hg1, -⟩
  refine Outcome.bind (hg1.lift (mild_validateReturnType _)) ?_
  rintro ret h1 ⟨hg1, -⟩
  refine Outcome.bind (hg1.lift (mild_tokName _)) ?_
  rintro str h1 ⟨hg1, -⟩
  refine Outcome.bind (hg1.lift (mild_linkageName _ _ _)) ?_
  rintro link h1 ⟨hg1, -⟩
  refine Outcome.bind (hg1.new _ (bs := fun id => [.data id, .sym id, .name id] ++ if p.isExport then [.link id] else []) ?_ ?_ ?_) ?_
  · intro id; cases p.isExport <;> rfl
  · intro id; cases p.isExport <;> simp
  · intro id b
    cases he : p.isExport <;> cases b <;> simp [newBlocks, shape, shapeOf, Shape.hasData, Shape.hasLink, he]
  · intro id h4 hn
    refine Outcome.bind hn.enter ?_
    intro _ h5 hn5
    refine Outcome.bind (hn5.add (frees_func id _ _)) ?_
    intro _ h6 ht6
    refine Outcome.bind (funcParams_ok ht0 p hps ht6) ?_
    intro ps h7 h8
    exact ⟨rfl, rfl, h8⟩

/- ### All statements -/

/-- No parameter in the tree has the name of a builtin type. -/
def ParamsOk : Tree → Prop
  | .nil => True
  | .node stmt _ _ child next => (∀ p, stmt = .funcProto p → ∀ q ∈ p.params, ParamOk q) ∧ ParamsOk child ∧ ParamsOk next

theorem stmt_ok (cfg : Cfg) (before : List Stmt) (stmt : Stmt) (tok tokEnd : List Token) (child next : Tree)
    (hps : ∀ p, stmt = .funcProto p → ∀ q ∈ p.params, ParamOk q) {nodes : HChk ATree} {cnodes : Chk ATree}
    (hn : ∀ c h1, Ok c h1 → Tip h1.s → Outcome (nodes h1) (cnodes h1.s) (fun _ => Good c h1.s) (Fail c h1.s))
    {hd : Nat} {h : HS} (ho : Ok hd h) (ht : Tip h.s) :
    Outcome (validateStmtH cfg before stmt tok tokEnd child next nodes h) (validateStmt cfg before stmt tok tokEnd child next cnodes h.s)
      (fun _ => Good hd h.s) (Fail hd h.s) := by
  have hg : Good hd h.s h := ⟨ho, ht, .refl _⟩
  have hbl : ∀ {h1 : HS}, Good hd h.s h1 → Outcome (blockH nodes h1) (block cnodes h1.s)
      (fun _ h' => Good hd h.s h' ∧ Keep h1.s h'.s) (Fail hd h.s) :=
    fun hg1 => good_block ht hg1.ok hg1.tip.ready hg1.moved hn
  cases stmt with
  | funcProto p =>
    simp only [validateStmtH, validateStmt]
    refine Outcome.bind (hg.lift mild_get) ?_
    rintro s h1 ⟨hg1, -⟩
    refine Outcome.bind (hg1.lift (mild_setDepth _)) ?_
    rintro _ h1 ⟨hg1, -⟩
    refine Outcome.bind (funcDecl_ok ht hg1 cfg p (hps p rfl)) ?_
    rintro r h2 ⟨ho2, hr2, hm2⟩
    refine Outcome.bind (good_block ht ho2 hr2 hm2 hn) ?_
    rintro body h3 ⟨hg3, -⟩
    refine Outcome.bind (hg3.lift (mild_postValidateFunc _)) ?_
    rintro _ h1 ⟨hg1, -⟩
    refine Outcome.bind (hg1.lift (mild_setDepth _)) ?_
    rintro _ h1 ⟨hg1, -⟩
    exact ⟨rfl, rfl, hg1⟩
  | varDef name isConst isImplicit isExported e =>
    simp only [validateStmtH, validateStmt]
    refine Outcome.bind (good_varDef hg cfg name isConst isImplicit isExported e tok tokEnd) ?_
    rintro a h1 hg1
    exact ⟨rfl, rfl, hg1⟩
  | ifs c =>
    simp only [validateStmtH, validateStmt]
    refine Outcome.bind (hg.lift (mild_needBlock _ _)) ?_
    rintro _ h1 ⟨hg1, -⟩
    refine Outcome.bind (hg1.lift (mild_condition _ _)) ?_
    rintro e h1 ⟨hg1, -⟩
    refine Outcome.bind (hbl hg1) ?_
    rintro body h1 ⟨hg1, -⟩
    exact ⟨rfl, rfl, hg1⟩
  | elses =>
    simp only [validateStmtH, validateStmt]
    refine Outcome.bind (hg.lift (mild_needIf _ _)) ?_
    rintro _ h1 ⟨hg1, -⟩
    refine Outcome.bind (hg1.lift (mild_needBlock _ _)) ?_
    rintro _ h1 ⟨hg1, -⟩
    refine Outcome.bind (hbl hg1) ?_
    rintro body h1 ⟨hg1, -⟩
    exact ⟨rfl, rfl, hg1⟩
  | elifs c =>
    simp only [validateStmtH, validateStmt]
    refine Outcome.bind (hg.lift (mild_needBlock _ _)) ?_
    rintro _ h1 ⟨hg1, -⟩
    refine Outcome.bind (hg1.lift (mild_needIf _ _)) ?_
    rintro _ h1 ⟨hg1, -⟩
    refine Outcome.bind (hg1.lift (mild_condition _ _)) ?_
    rintro e h1 ⟨hg1, -⟩
    refine Outcome.bind (hbl hg1) ?_
    rintro body h1 ⟨hg1, -⟩
    exact ⟨rfl, rfl, hg1⟩
  | whiles c =>
    simp only [validateStmtH, validateStmt]
    refine Outcome.bind (hg.lift mild_get) ?_
    rintro s h1 ⟨hg1, -⟩
    refine Outcome.bind (hg1.lift (mild_setDepth _)) ?_
    rintro _ h1 ⟨hg1, -⟩
    refine Outcome.bind (hg1.lift (mild_needBlock _ _)) ?_
    rintro _ h1 ⟨hg1, -⟩
    refine Outcome.bind (hg1.lift (mild_condition _ _)) ?_
    rintro e h1 ⟨hg1, -⟩
    refine Outcome.bind (hbl hg1) ?_
    rintro body h1 ⟨hg1, -⟩
    refine Outcome.bind (hg1.lift mild_get) ?_
    rintro s h1 ⟨hg1, -⟩
    refine Outcome.bind (hg1.lift (mild_setDepth _)) ?_
    rintro _ h1 ⟨hg1, -⟩
    exact ⟨rfl, rfl, hg1⟩
  | namespaces =>
    simp only [validateStmtH, validateStmt]
    refine Outcome.bind (good_namespace hg tok) ?_
    rintro id h1 ⟨hg1, hsh⟩
    refine Outcome.bind (hbl hg1) ?_
    rintro body h2 ⟨hg2, hk2⟩
    refine Outcome.bind ((Outcome.liftAt (close_after (keep_shape hk2 hsh))).weaken (Q' := fun _ => Good hd h.s) (R' := Fail hd h.s)
      (fun _ _ hs => hg2.same hs.1) fun _ hs => hg2.fail.same hs) ?_
    rintro _ h3 hg3
    exact ⟨rfl, rfl, hg3⟩
  | ret e =>
    simp only [validateStmtH, validateStmt]
    exact (hg.lift (mild_bind (mild_validateReturn _ _ _ _) fun _ => mild_pure _)).weaken (fun _ _ h => h.1) fun _ h => h
  | unreachable =>
    simp only [validateStmtH, validateStmt]
    exact (hg.lift (mild_bind (mild_noDeadCodeBelow _) fun _ => mild_pure _)).weaken (fun _ _ h => h.1) fun _ h => h
  | varAssign e =>
    simp only [validateStmtH, validateStmt]
    exact (hg.lift (mild_bind (mild_validateVarAssign _ _ _) fun _ => mild_pure _)).weaken (fun _ _ h => h.1) fun _ h => h
  | expr e =>
    have hm : Mild (validateStmt cfg before (.expr e) tok tokEnd child next Chk.ub) := by
      cases e <;> simp only [validateStmt]
      all_goals first
        | exact mild_ub
        | exact mild_bind (mild_headTok _) fun _ => mild_error _ _
        | exact mild_bind (mild_validateExpr _ _) fun _ => mild_pure _
    have he : validateStmt cfg before (.expr e) tok tokEnd child next cnodes = validateStmt cfg before (.expr e) tok tokEnd child next Chk.ub := by
      cases e <;> simp only [validateStmt]
    simp only [validateStmtH]
    rw [he]
    exact (hg.lift hm).weaken (fun _ _ h => h.1) fun _ h => h
  | breaks =>
    simp only [validateStmtH, validateStmt]
    exact (hg.lift (mild_bind (mild_validateJump _ _ _) fun _ => mild_pure _)).weaken (fun _ _ h => h.1) fun _ h => h
  | continues =>
    simp only [validateStmtH, validateStmt]
    exact (hg.lift (mild_bind (mild_validateJump _ _ _) fun _ => mild_pure _)).weaken (fun _ _ h => h.1) fun _ h => h
  | imports =>
    simp only [validateStmtH, validateStmt]
    exact (hg.lift (mild_bind (mild_validateImport _ _) fun _ => mild_pure _)).weaken (fun _ _ h => h.1) fun _ h => h
  | unknown =>
    simp only [validateStmtH, validateStmt]
    exact (hg.lift (mild_pure _)).weaken (fun _ _ h => h.1) fun _ h => h
  | comment =>
    simp only [validateStmtH, validateStmt]
    exact (hg.lift (mild_pure _)).weaken (fun _ _ h => h.1) fun _ h => h
  | noop =>
    simp only [validateStmtH, validateStmt]
    exact (hg.lift (mild_pure _)).weaken (fun _ _ h => h.1) fun _ h => h

theorem nodes_ok (cfg : Cfg) : ∀ (t : Tree) (before : List Stmt), ParamsOk t → ∀ c h1, Ok c h1 → Tip h1.s →
    Outcome (validateNodesH cfg before t h1) (validateNodes cfg before t h1.s) (fun _ => Good c h1.s) (Fail c h1.s)
  | .nil, _, _, c, h1, ho, ht => ⟨rfl, rfl, ho, ht, .refl _⟩
  | .node stmt tok tokEnd child next, before, hp, c, h1, ho, ht => by
    obtain ⟨hp1, hp2, hp3⟩ := hp
    have hg : Good c h1.s h1 := ⟨ho, ht, .refl _⟩
    unfold validateNodesH validateNodes
    refine Outcome.bind (hg.lift (mild_assertSaneChild _)) ?_
    rintro _ h2 ⟨hg2, -⟩
    refine Outcome.bind ((stmt_ok cfg before stmt tok tokEnd child next hp1 (nodes_ok cfg child [] hp2) hg2.ok hg2.tip).weaken
      (Q' := fun _ => Good c h1.s) (R' := Fail c h1.s) (fun _ _ h => ⟨h.ok, h.tip, hg2.moved.trans h.moved⟩)
      fun _ h => ⟨h.bad, hg2.moved.keep.trans h.keep⟩) ?_
    rintro r h3 hg3
    refine Outcome.bind ((nodes_ok cfg next (stmt :: before) hp3 c h3 hg3.ok hg3.tip).weaken
      (Q' := fun _ => Good c h1.s) (R' := Fail c h1.s) (fun _ _ h => ⟨h.ok, h.tip, hg3.moved.trans h.moved⟩)
      fun _ h => ⟨h.bad, hg3.moved.keep.trans h.keep⟩) ?_
    rintro rest h4 hg4
    exact ⟨rfl, rfl, hg4⟩

end Skull.SemHeap
