import Verif.Proofs.SemHeapStep
import Verif.Proofs.Walk
/-
Adding symbols, and blocks.
-/
namespace Skull.SemHeap

open Skull.Heap
open Skull.Spec (MemEvent Life memRun memStep setLife)

theorem lessTypes_same {s s' : SS} (h : Same s s') (id : Nat) : lessTypes s' id = lessTypes s id := by
  unfold lessTypes
  rw [lifeOf_same h]

theorem Pend.same {hd id : Nat} {sh : Shape} {h h' : HS} (hs : SameH h h') (hp : Pend hd id sh h) : Pend hd id sh h' := by
  have hm : shapes h'.s = shapes h.s := hs.s.syms
  refine ⟨hp.base.same hs.s, by rw [hs.s.scopes]; exact hp.covered, hp.all.same hs.s, by rw [hs.s.scopes]; exact hp.out, hp.pos,
    by rw [hm]; exact hp.shape, ?_, hp.bound.same hs, hp.lvl.same hs.s⟩
  rw [hs.evs, lessTypes_same hs.s]
  exact hp.run

theorem Rejected.bad {hd id : Nat} {sh : Shape} {c : Prop} {h : HS} (hr : Rejected hd id sh c h) : Bad hd h := by
  obtain ⟨m, h1, h2, -⟩ := hr.held
  exact ⟨hr.base, ⟨m, h1, h2⟩, hr.bound, hr.lvl⟩

theorem Pend.bad {hd id : Nat} {sh : Shape} {h : HS} (hp : Pend hd id sh h) : Bad hd h := (hp.rejected True).bad

theorem Pend.report {hd id : Nat} {sh : Shape} {h : HS} (hp : Pend hd id sh h) :
    Rejected hd id sh False { h with evs := h.evs ++ [.use (.sym id), .use (.name id), .free (.name id)] } := by
  obtain ⟨m, h1, h2, h3, h4, h5⟩ := (hp.rejected True).held
  refine ⟨hp.base, hp.out, hp.pos, ⟨setLife m (.name id) .freed, ?_, ?_, ?_, ?_, False.elim⟩, hp.bound, hp.lvl⟩
  · refine Run.append h1 ?_
    rw [run_use h3, run_use (h5 trivial), run_free (h5 trivial)]
    rfl
  · exact held_set h2 hp.out hp.pos rfl _
  · rw [setLife_ne (by simp)]; exact h3
  · intro hd; rw [setLife_ne (by simp)]; exact h4 hd

theorem Rejected.imp {hd id : Nat} {sh : Shape} {c c' : Prop} {h : HS} (hc : c' → c) (hr : Rejected hd id sh c h) :
    Rejected hd id sh c' h := by
  obtain ⟨m, h1, h2, h3, h4, h5⟩ := hr.held
  exact ⟨hr.base, hr.out, hr.pos, ⟨m, h1, h2, h3, h4, h5 ∘ hc⟩, hr.bound, hr.lvl⟩

/-- The name of the symbol is new. -/
def Unknown (s : SS) (name : List Char) : Prop := ∃ s1, findSymbolType name s = .ok .unknown s1

theorem exists_ok {hd id : Nat} {sh : Shape} {h : HS} (hp : Pend hd id sh h) (sym : Symbol) {R : HS → Prop}
    (hR : ∀ h', Bad hd h' → Keep h.s h'.s → R h') :
    Outcome (symbolAlreadyExistsH sym id h) (symbolAlreadyExists sym h.s)
      (fun b h' => (b = false → SameH h h') ∧ (b = true → Rejected hd id sh (Unknown h.s sym.name) h' ∧ Keep h.s h'.s)) R := by
  refine Outcome.bind (Outcome.weaken (Outcome.lift (mild_findSymbolType _) h) (fun _ _ h => h)
    fun h' hs => hR h' (hp.same hs).bad (.of_same hs.s)) ?_
  rintro ty h1 ⟨hs1, he1⟩
  by_cases hty : ty = .unknown
  · rw [if_pos hty, if_pos hty]
    exact ⟨rfl, rfl, fun _ => hs1, by simp⟩
  · rw [if_neg hty, if_neg hty]
    have hcl : ¬ Unknown h.s sym.name := by
      rintro ⟨s1, e⟩
      rw [e] at he1
      cases he1
      exact hty rfl
    have hp1 := hp.same hs1
    refine Outcome.bind (Q := fun _ h2 => Rejected hd id sh (Unknown h.s sym.name) h2 ∧ Keep h.s h2.s) ?_ ?_
    · unfold reportExistingH
      have hl := Outcome.lift (mild_reportExisting ty sym) h1
      cases e : reportExisting ty sym h1.s with
      | ub =>
        have : lift (reportExisting ty sym) h1 = .ub := by simp only [Heap.lift, e]
        simp only [bind, HChk.bind, this]
        trivial
      | fail s =>
        have e2 : lift (reportExisting ty sym) h1 = .fail { h1 with s := s } := by simp only [Heap.lift, e]
        simp only [bind, HChk.bind, e2]
        rw [e, e2] at hl
        exact hR _ (hp1.same hl).bad (.trans (.of_same hs1.s) (.of_same hl.s))
      | ok u s =>
        have e2 : lift (reportExisting ty sym) h1 = .ok u { h1 with s := s } := by simp only [Heap.lift, e]
        rw [e, e2] at hl
        obtain ⟨-, -, hl, -⟩ := hl
        have hp2 := hp1.same hl
        have hk2 : Keep h.s s := .trans (.of_same hs1.s) (.of_same hl.s)
        simp only [bind, HChk.bind, e2]
        split
        · exact ⟨rfl, rfl, hp2.report.imp hcl, hk2⟩
        · exact ⟨rfl, rfl, hp2.rejected _, hk2⟩
    · intro _ h2 h3
      exact ⟨rfl, rfl, by simp, fun _ => h3⟩

theorem sameH_eq {h h' : HS} (hs : SameH h h') (he : h'.s = h.s) : h' = h := by
  cases h
  cases h'
  have h1 := hs.evs
  have h2 := hs.bound
  simp_all

theorem pend_add {hd id : Nat} {sh : Shape} {h : HS} (hp : Pend hd id sh h) {sym : Symbol} (hsym : h.s.syms[id]? = some sym)
    {R : HS → Prop} (hR : ∀ h', Bad hd h' → Keep h.s h'.s → R h') :
    Outcome (scopeAddSymbolH id h) (scopeAddSymbol id h.s) (AddRes hd id sh (Unknown h.s sym.name) h) R := by
  refine Outcome.bind (Outcome.weaken (Outcome.lift (mild_symAt _) h) (fun _ _ h => h)
    fun h' hs => hR h' (hp.same hs).bad (.of_same hs.s)) ?_
  rintro sym' h1 ⟨hs1, he⟩
  have hh : sym = sym' ∧ h1 = h := by
    simp only [symAt, hsym, SRes.ok.injEq] at he
    exact ⟨he.1, sameH_eq hs1 he.2.symm⟩
  obtain ⟨rfl, rfl⟩ := hh
  refine Outcome.bind (exists_ok hp sym hR) ?_
  rintro b h2 ⟨hno, hyes⟩
  cases b with
  | true =>
    obtain ⟨h3, h4⟩ := hyes rfl
    exact ⟨rfl, rfl, by simp, fun _ => ⟨h3, h4⟩⟩
  | false =>
    have hs2 := hno rfl
    have hp2 := hp.same hs2
    have hk2 : Moved h1.s h2.s := .of_same hs2.s
    rw [if_neg (by simp), if_neg (by simp)]
    refine Outcome.bind (pend_current hp2 R) ?_
    rintro i h3 ⟨hp3, hc3, hm3, ht3, hy3, hcc⟩
    refine Outcome.weaken (pend_addTo hp3 sym.name hc3 R (Unknown h1.s sym.name)) ?_ (fun _ h => h)
    intro b h4 h5
    constructor
    · intro hb
      obtain ⟨h6, h7, h8, h9, h10⟩ := h5.1 hb
      refine ⟨h6, hk2.trans (hm3.trans h7), fun ht => h8 (ht3 (ht.same hs2.s)), fun c hc => h9 c (hcc c ?_), ?_⟩
      · rw [hs2.s.scope]; exact hc
      · rw [h10]
        unfold shapes
        rw [hy3, hs2.s.syms]
    · intro hb
      obtain ⟨h6, h7⟩ := h5.2 hb
      exact ⟨h6, hk2.keep.trans (hm3.keep.trans h7)⟩

/-- What may be freed of a symbol that was not added. -/
def Frees (id : Nat) (sh : Shape) (name : Prop) (es : List Event) : Prop :=
  ∀ m : Lives, m (.sym id) = .live → (sh.hasData → m (.data id) = .live) → (name → m (.name id) = .live) →
    ∃ m', memRun m es = some m' ∧ ∀ b, ownerOf b ≠ some id → m' b = m b

theorem held_other {s : SS} {m m' : Lives} {id : Nat} (hh : Held s m) (hid : id ∉ allIds s.scopes) (h0 : 0 < id)
    (hm : ∀ b, ownerOf b ≠ some id → m' b = m b) : Held s m' := by
  refine ⟨?_, ?_, ?_, ?_⟩
  · rw [hm _ (by simp [ownerOf])]; exact hh.state
  · intro i hi; rw [hm _ (by simp [ownerOf])]; exact hh.scope i hi
  · intro i sc hi ht; rw [hm _ (by simp [ownerOf])]; exact hh.table i sc hi ht
  · intro j hj sh hs
    have hji : j ≠ id := by
      rintro rfl
      rcases hj with hj | hj
      · omega
      · exact hid hj
    obtain ⟨h1, h2, h3, h4, h5⟩ := hh.syms j hj sh hs
    refine ⟨?_, ?_, fun h => ?_, fun h => ?_, fun h => ?_⟩
    · rw [hm _ (by simpa [ownerOf] using hji)]; exact h1
    · rw [hm _ (by simpa [ownerOf] using hji)]; exact h2
    · rw [hm _ (by simpa [ownerOf] using hji)]; exact h3 h
    · rw [hm _ (by simpa [ownerOf] using hji)]; exact h4 h
    · rw [hm _ (by simpa [ownerOf] using hji)]; exact h5 h

theorem Rejected.free {hd id : Nat} {sh : Shape} {c : Prop} {h : HS} (hr : Rejected hd id sh c h) {es : List Event}
    (hes : Frees id sh c es) : Bad hd { h with evs := h.evs ++ es } := by
  obtain ⟨m, h1, h2, h3, h4, h5⟩ := hr.held
  obtain ⟨m', h6, h7⟩ := hes m h3 h4 h5
  exact ⟨hr.base, ⟨m', Run.append h1 h6, held_other h2 hr.out hr.pos h7⟩, hr.bound, hr.lvl⟩

theorem pend_mustAdd {hd id : Nat} {sh : Shape} {h : HS} (hp : Pend hd id sh h) {sym : Symbol} (hsym : h.s.syms[id]? = some sym)
    {es : List Event} (hes : Frees id sh False es) {R : HS → Prop} (hR : ∀ h', Bad hd h' → Keep h.s h'.s → R h') :
    Outcome (mustAddH id es h) (mustAdd id h.s)
      (fun _ h' => Added hd id sh h' ∧ Moved h.s h'.s ∧ (Tip h.s → Tip h'.s) ∧ shapes h'.s = shapes h.s) R := by
  refine Outcome.bind (pend_add hp hsym hR) ?_
  rintro b h1 ⟨hyes, hno⟩
  cases b with
  | true =>
    obtain ⟨h2, h3, h4, -, h5⟩ := hyes rfl
    exact ⟨rfl, rfl, h2, h3, h4, h5⟩
  | false =>
    obtain ⟨h2, h3⟩ := hno rfl
    exact hR _ ((h2.imp False.elim).free hes) h3

theorem pend_addVar {hd id : Nat} {sh : Shape} {h : HS} (hp : Pend hd id sh h) {sym : Symbol} (hsym : h.s.syms[id]? = some sym)
    {R : HS → Prop} (hR : ∀ h', Bad hd h' → Keep h.s h'.s → R h') :
    Outcome (scopeAddVarH id h) (scopeAddVar id h.s) (AddRes hd id sh (findBuiltinType sym.name = none) h) R := by
  refine Outcome.bind (Outcome.weaken (Outcome.lift (mild_symAt _) h) (fun _ _ h => h)
    fun h' hs => hR h' (hp.same hs).bad (.of_same hs.s)) ?_
  rintro sym' h1 ⟨hs1, he⟩
  have hh : sym = sym' ∧ h1 = h := by
    simp only [symAt, hsym, SRes.ok.injEq] at he
    exact ⟨he.1, sameH_eq hs1 he.2.symm⟩
  obtain ⟨rfl, rfl⟩ := hh
  refine Outcome.bind (Outcome.weaken (Outcome.lift (mild_lookup _) h1) (fun _ _ h => h)
    fun h' hs => hR h' (hp.same hs).bad (.of_same hs.s)) ?_
  rintro found h2 ⟨hs2, he⟩
  have hf : h1.s.find sym.name = some found ∧ h2 = h1 := by
    unfold lookup at he
    cases e : h1.s.find sym.name with
    | none => rw [e] at he; cases he
    | some r =>
      rw [e] at he
      simp only [SRes.ok.injEq] at he
      exact ⟨by rw [he.1], sameH_eq hs2 he.2.symm⟩
  obtain ⟨hf, rfl⟩ := hf
  cases found with
  | some j => exact ⟨rfl, rfl, by simp, fun _ => ⟨hp.rejected _, .refl _⟩⟩
  | none =>
    refine Outcome.weaken (pend_add hp hsym hR) ?_ (fun _ h => h)
    rintro b h3 ⟨hyes, hno⟩
    refine ⟨hyes, fun hb => ⟨(hno hb).1.imp fun hn => ?_, (hno hb).2⟩⟩
    refine ⟨h2.s, ?_⟩
    have hl : lookup sym.name h2.s = .ok none h2.s := by simp only [lookup, hf]
    have hff : findFuncByName sym.name h2.s = .ok none h2.s := by
      simp only [findFuncByName, bind, Chk.bind, hl]; rfl
    have hft : findType sym.name h2.s = .ok none h2.s := by
      simp only [findType, bind, Chk.bind, hl, hn]; rfl
    have hfa : funcOrAlias sym.name h2.s = .ok .unknown h2.s := by
      simp only [funcOrAlias, bind, Chk.bind, hff, hft]; rfl
    simp only [findSymbolType, bind, Chk.bind, hl, directType]
    exact hfa

/- ### Attaching a scope -/

def setLink (k : Bool) (sc : Scope) (n : Nat) : Scope := if k then { sc with child := some n } else { sc with next := some n }
def newScope (k : Bool) (i : Nat) : Scope := if k then { parent := some i } else { last := some i }

/-- A new scope inside or behind the scope `i`. -/
def attach (scopes : List Scope) (k : Bool) (i : Nat) (sc : Scope) : List Scope :=
  scopes.set i (setLink k sc scopes.length) ++ [newScope k i]

theorem attach_len (scopes : List Scope) (k : Bool) (i : Nat) (sc : Scope) :
    (attach scopes k i sc).length = scopes.length + 1 := by simp [attach]

theorem attach_get {scopes : List Scope} {i : Nat} {sc : Scope} (hi : scopes[i]? = some sc) (k : Bool) (j : Nat) :
    (attach scopes k i sc)[j]? = if j = scopes.length then some (newScope k i)
      else if j = i then some (setLink k sc scopes.length) else scopes[j]? := by
  have hlt := lt_of_get hi
  unfold attach
  by_cases hj : j = scopes.length
  · subst hj
    rw [if_pos rfl, List.getElem?_append_right (by simp), List.length_set, Nat.sub_self]
    rfl
  · rw [if_neg hj]
    by_cases hl : j < scopes.length
    · rw [List.getElem?_append_left (by simpa using hl), set_get hlt]
    · rw [List.getElem?_eq_none (by simp; omega), if_neg (by omega), List.getElem?_eq_none (by omega)]

theorem setLink_last (k : Bool) (sc : Scope) (n : Nat) : (setLink k sc n).last = sc.last := by cases k <;> rfl
theorem setLink_parent (k : Bool) (sc : Scope) (n : Nat) : (setLink k sc n).parent = sc.parent := by cases k <;> rfl
theorem setLink_symbols (k : Bool) (sc : Scope) (n : Nat) : (setLink k sc n).symbols = sc.symbols := by cases k <;> rfl
theorem setLink_link (k l : Bool) (sc : Scope) (n : Nat) : link l (setLink k sc n) = if l = k then some n else link l sc := by
  cases k <;> cases l <;> rfl
theorem newScope_link (k l : Bool) (i : Nat) : link l (newScope k i) = none := by cases k <;> cases l <;> rfl
theorem newScope_symbols (k : Bool) (i : Nat) : (newScope k i).symbols = none := by cases k <;> rfl

section Attach
variable {s s' : SS} {i : Nat} {sc : Scope} {k : Bool} (hi : s.scopes[i]? = some sc) (hk : link k sc = none)
  (h' : s'.scopes = attach s.scopes k i sc) (hsy : s'.syms = s.syms)
include hi hk h'

theorem attach_edge (hg : Graph s.scopes) (a : Nat) (l : Bool) (x : Nat) :
    Edge s'.scopes a l x ↔ (a = i ∧ l = k ∧ x = s.scopes.length) ∨ Edge s.scopes a l x := by
  have hlt := lt_of_get hi
  rw [h']
  unfold Edge
  rw [attach_get hi]
  constructor
  · rintro ⟨sa, h1, h2⟩
    split at h1
    · cases h1
      rw [newScope_link] at h2
      cases h2
    · split at h1
      · rename_i e
        subst e
        cases h1
        rw [setLink_link] at h2
        split at h2
        · cases h2
          exact .inl ⟨rfl, by assumption, rfl⟩
        · exact .inr ⟨sc, hi, h2⟩
      · exact .inr ⟨sa, h1, h2⟩
  · rintro (⟨rfl, rfl, rfl⟩ | ⟨sa, h1, h2⟩)
    · refine ⟨setLink l sc s.scopes.length, ?_, ?_⟩
      · rw [if_neg (by omega), if_pos rfl]
      · rw [setLink_link, if_pos rfl]
    · have hal := lt_of_get h1
      rw [if_neg (by omega)]
      by_cases e : a = i
      · subst e
        rw [hi] at h1
        cases h1
        rw [if_pos rfl]
        refine ⟨_, rfl, ?_⟩
        rw [setLink_link, if_neg ?_]
        · exact h2
        · rintro rfl
          rw [hk] at h2
          cases h2
      · rw [if_neg e]
        exact ⟨sa, h1, h2⟩

theorem attach_graph (hg : Graph s.scopes) : Graph s'.scopes := by
  have hlt := lt_of_get hi
  have he := attach_edge hi hk h' hg
  have hlen : s'.scopes.length = s.scopes.length + 1 := by rw [h']; exact attach_len _ _ _ _
  refine ⟨?_, ?_, ?_, ?_⟩
  · intro a l x hx
    rcases (he a l x).mp hx with ⟨rfl, rfl, rfl⟩ | hx
    · omega
    · have := hg.down _ _ _ hx
      omega
  · intro a b l l' x h1 h2
    rcases (he a l x).mp h1 with ⟨rfl, rfl, rfl⟩ | h1
    · rcases (he b l' _).mp h2 with ⟨rfl, rfl, -⟩ | h2
      · exact ⟨rfl, rfl⟩
      · have := hg.down _ _ _ h2
        omega
    · rcases (he b l' x).mp h2 with ⟨rfl, rfl, rfl⟩ | h2
      · have := hg.down _ _ _ h1
        omega
      · exact hg.uniq _ _ _ _ _ h1 h2
  · intro a sa c ha hc
    have hed : Edge s'.scopes a true c := ⟨sa, ha, hc⟩
    rcases (he a true c).mp hed with ⟨rfl, rfl, rfl⟩ | ⟨sa', h1, h2⟩
    · refine ⟨newScope true a, ?_, rfl, rfl⟩
      rw [h', attach_get hi, if_pos rfl]
    · obtain ⟨cs, h3, h4, h5⟩ := hg.up a sa' c h1 h2
      have hcl := lt_of_get h3
      rw [h', attach_get hi, if_neg (by omega)]
      by_cases e : c = i
      · subst e
        rw [hi] at h3
        cases h3
        exact ⟨_, if_pos rfl, (setLink_parent _ _ _).trans h4, (setLink_last _ _ _).trans h5⟩
      · rw [if_neg e]
        exact ⟨cs, h3, h4, h5⟩
  · intro a sa l ha hl
    rw [h', attach_get hi] at ha
    split at ha
    · cases ha
      cases k with
      | true => cases hl
      | false =>
        cases hl
        omega
    · split at ha
      · rename_i e
        subst e
        cases ha
        rw [setLink_last] at hl
        exact hg.back _ _ _ hi hl
      · exact hg.back _ _ _ ha hl

theorem attach_covered (hg : Graph s.scopes) (hc : Covered s.scopes) : Covered s'.scopes := by
  have he := attach_edge hi hk h' hg
  have hlen : s'.scopes.length = s.scopes.length + 1 := by rw [h']; exact attach_len _ _ _ _
  intro x h0 h1
  by_cases hx : x = s.scopes.length
  · exact ⟨i, k, (he i k x).mpr (.inl ⟨rfl, rfl, hx⟩)⟩
  · obtain ⟨a, l, h2⟩ := hc x h0 (by omega)
    exact ⟨a, l, (he a l x).mpr (.inr h2)⟩

omit hk in
theorem attach_ids : allIds s'.scopes = allIds s.scopes := by
  rw [h']
  unfold attach
  rw [allIds_append, allIds_set_same hi (by rw [setLink_symbols])]
  have : allIds [newScope k i] = [] := by cases k <;> rfl
  rw [this, List.append_nil]

omit hk in
theorem attach_life (hs : shapes s' = shapes s) : setLife (lifeOf s) (.scope s.scopes.length) .live = lifeOf s' := by
  have hlt := lt_of_get hi
  have hlen : s'.scopes.length = s.scopes.length + 1 := by rw [h']; exact attach_len _ _ _ _
  funext b
  unfold setLife
  by_cases hb : b = .scope s.scopes.length
  · rw [if_pos hb]
    subst hb
    simp [lifeOf, lifeB, owns, hlen]
  · rw [if_neg hb]
    unfold lifeOf
    rw [hs]
    refine congrArg lifeB ?_
    cases b with
    | scope j =>
      have : j ≠ s.scopes.length := fun e => hb (by rw [e])
      simp only [owns, hlen]
      by_cases hj : j < s.scopes.length
      · rw [decide_eq_true hj, decide_eq_true (by omega)]
      · rw [decide_eq_false hj, decide_eq_false (by omega)]
    | table j =>
      simp only [owns]
      rw [h', attach_get hi]
      by_cases hj : j = s.scopes.length
      · subst hj
        rw [if_pos rfl, List.getElem?_eq_none (Nat.le_refl _)]
        simp [newScope_symbols]
      · rw [if_neg hj]
        by_cases e : j = i
        · subst e; rw [if_pos rfl, hi]; simp [setLink_symbols]
        · rw [if_neg e]
    | _ => rfl

include hsy in
theorem attach_base (hb : Base s) : Base s' := by
  have hids := attach_ids hi h'
  refine ⟨attach_graph hi hk h' hb.graph, ?_, by rw [hids]; exact hb.nodup, by rw [hids, hsy]; exact hb.range,
    by unfold shapes; rw [hsy]; exact hb.main⟩
  intro j sj hj ht he
  rw [h', attach_get hi] at hj
  split at hj
  · cases hj
    rw [newScope_symbols] at he
    cases he
  · split at hj
    · cases hj
      rw [setLink_symbols] at he
      exact hb.good i sc hi ht he
    · exact hb.good j sj hj ht he

include hsy in
theorem attach_keep (hg : Graph s.scopes) : Keep s s' := by
  have he := attach_edge hi hk h' hg
  have hlen : s'.scopes.length = s.scopes.length + 1 := by rw [h']; exact attach_len _ _ _ _
  refine ⟨by omega, ?_, ?_, [], by unfold shapes; rw [hsy]; simp⟩
  · intro j sj hj
    have := lt_of_get hj
    rw [h', attach_get hi, if_neg (by omega)]
    by_cases e : j = i
    · subst e
      rw [hi] at hj
      cases hj
      exact ⟨_, if_pos rfl, setLink_last _ _ _, setLink_parent _ _ _⟩
    · rw [if_neg e]
      exact ⟨sj, hj, rfl, rfl⟩
  · intro a l x hx hl
    rcases (he a l x).mp hx with ⟨rfl, rfl, rfl⟩ | hx
    · omega
    · exact hx

end Attach

/-- A new scope, and the check goes on in it or at `cur`. -/
theorem attach_ok {s s' : SS} {evs : List Event} {bound : List Nat} {i : Nat} {sc : Scope} {k : Bool} (hi : s.scopes[i]? = some sc)
    (hk : link k sc = none) (h' : s'.scopes = attach s.scopes k i sc) (hsy : s'.syms = s.syms) (hb : Base s)
    (hc : Covered s.scopes) (ha : AllIn s []) (hr : Run evs (lifeOf s)) (hbo : BoundOk { s := s, evs := evs, bound := bound })
    {hd : Nat} (hl : Lvl s' hd) : Ok hd { s := s', evs := evs ++ [.alloc (.scope s.scopes.length)], bound := bound } := by
  have hsh : shapes s' = shapes s := by unfold shapes; rw [hsy]
  refine ⟨attach_base hi hk h' hsy hb, attach_covered hi hk h' hb.graph hc, ?_, ?_, ?_, hl⟩
  · intro id h0 hlt
    have hlt : id < s'.syms.length := hlt
    show id ∈ allIds s'.scopes ∨ _
    rw [attach_ids hi h']
    exact ha id h0 (by rw [← hsy]; exact hlt)
  · refine Run.append hr ?_
    rw [run_alloc]
    · show some _ = some _
      rw [attach_life hi h' hsh]
    · simp [lifeOf, lifeB, owns]
  · intro id hid
    show id ∈ allIds s'.scopes ∧ ∃ e, (shapes s')[id]? = _
    rw [attach_ids hi h', hsh]
    exact hbo id hid

end Skull.SemHeap
