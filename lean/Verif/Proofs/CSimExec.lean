import Verif.Proofs.CSimStmt
/-
The C form of statements does what the statements do.
-/
namespace Skull.CSim
open Spec Spec.C

section
variable {ω : Type} {c : RunCtx ω} {d : CRunCtx ω} {fmtA : Nat → List Char} {F : Floats}

/- ### Declarations -/

theorem KOk.addTop {K : CScope} {id} (hk : KOk c K) (hs : K.self = none) (hid : id ∈ topIds c) : KOk c (K.addObj id) := by
  have e : K.addObj id = { K with tops := id :: K.tops } := by unfold CScope.addObj; rw [hs]; rfl
  rw [e]
  exact ⟨hk.self, hk.autos, hk.autosNot, hk.nodup, fun i hi => by
    rcases List.mem_cons.1 hi with rfl | hi
    · exact hid
    · exact hk.tops i hi, hk.top, hk.ownTop, hk.ownAuto, hk.ownObj, hk.ownSep, hk.ownKind⟩

theorem KOk.addOwn {K : CScope} {id} (hk : KOk c K) (hs : K.self.isSome = true) (h1 : id ∉ topIds c) (h2 : id ∉ K.autos) (h3 : IsObj c id)
    (h4 : ∀ id', Chg c K.count id' → nameOf c.syms id' ≠ nameOf c.syms id) (h5 : isKnownConst c.syms id = true ∨ Chg c (K.count + 1) id) :
    KOk c (K.addObj id) := by
  have e : K.addObj id = { K with own := id :: K.own } := by unfold CScope.addObj; rw [hs]; rfl
  rw [e]
  refine ⟨hk.self, hk.autos, hk.autosNot, hk.nodup, hk.tops, fun h => ?_, ?_, ?_, ?_, ?_, ?_⟩
  · have h : K.self = none := h
    rw [h] at hs
    cases hs
  · exact List.forall_mem_cons.2 ⟨h1, hk.ownTop⟩
  · exact List.forall_mem_cons.2 ⟨h2, hk.ownAuto⟩
  · exact List.forall_mem_cons.2 ⟨h3, hk.ownObj⟩
  · exact List.forall_mem_cons.2 ⟨h4, hk.ownSep⟩
  · exact List.forall_mem_cons.2 ⟨h5, hk.ownKind⟩

theorem KOk.push {K : CScope} {id} (hk : KOk c K) (h1 : id ∉ topIds c) (h2 : id ∉ K.autos) (h3 : id ∉ K.own) (h4 : nameOf c.syms id ∉ runTimeNames) :
    KOk c (K.push id) :=
  ⟨hk.self, List.forall_mem_cons.2 ⟨h1, hk.autos⟩, List.forall_mem_cons.2 ⟨h4, hk.autosNot⟩, List.nodup_cons.2 ⟨h2, hk.nodup⟩, hk.tops, hk.top,
    hk.ownTop, fun i hi h => by
      rcases List.mem_cons.1 h with rfl | h
      · exact h3 hi
      · exact hk.ownAuto i hi h, hk.ownObj, hk.ownSep, hk.ownKind⟩

theorem rel_addTop {K : CScope} {L S a T} {T' : Store ω} {id v} (hk : KOk c K) (hr : RelL c K L S a T) (hs : K.self = none) (h2 : id ∉ K.autos) :
    RelL c (K.addObj id) L { S with vars := S.vars.set id v } a T' := by
  have e : K.addObj id = { K with tops := id :: K.tops } := by unfold CScope.addObj; rw [hs]; rfl
  rw [e]
  refine ⟨autos_of_vals hr.autos fun i hi => valOf_setS (by rintro rfl; exact h2 hi), ?_, hr.dom, ?_, hr.typed⟩
  · intro i hi
    have hi : i ∈ K.own := hi
    rw [hk.top hs] at hi
    cases hi
  · intro _ i h3 h4
    have h4 : i ∉ id :: K.tops := h4
    rw [List.mem_cons, not_or] at h4
    show S.vars.set id v i = none
    rw [set_other h4.1]
    exact hr.undef hs i h3 h4.2

theorem rel_addOwn (hl : Linked c d fmtA F) {K : CScope} {L S a T} {T' : Store ω} {id v cu var} (hk : KOk c K) (hr : RelL c K L S a T) (hs : K.self.isSome = true)
    (h1 : id ∉ K.own) (h2 : id ∉ K.autos) (h3 : IsObj c id) (hv : varOf c.syms id = some var) (ht : Typed var.type v) (hc : cval v = some cu)
    (ho : T'.objs (nameOf c.syms id) = some cu) (hoth : ∀ y, y ≠ nameOf c.syms id → T'.objs y = T.objs y) :
    RelL c (K.addObj id) (L.set id v) S a T' := by
  have e : K.addObj id = { K with own := id :: K.own } := by unfold CScope.addObj; rw [hs]; rfl
  rw [e]
  refine ⟨autos_of_vals hr.autos fun i hi => valOf_setL (by rintro rfl; exact h2 hi), ?_, ?_, ?_, hr.typed.set hv ht⟩
  · intro i hi
    rcases List.mem_cons.1 hi with rfl | hi'
    · exact ⟨v, cu, set_same .., hc, ho⟩
    · have hne : i ≠ id := by rintro rfl; exact h1 hi'
      obtain ⟨u, cu', h4, h5, h6⟩ := hr.own i hi'
      exact ⟨u, cu', by rw [set_other hne]; exact h4, h5, by
        rw [hoth _ fun he => hne (hl.inj _ _ (hk.ownObj i hi') h3 he)]; exact h6⟩
  · intro i
    by_cases hi : i = id
    · subst hi
      rw [set_same]
      exact ⟨fun _ => ⟨hs, .inr (List.mem_cons_self ..)⟩, fun _ => rfl⟩
    · rw [set_other hi, hr.dom i]
      show _ ↔ (K.self.isSome = true ∧ (i ∈ K.autos ∨ i ∈ id :: K.own))
      simp [hi]
  · intro h
    have h : K.self = none := h
    rw [h] at hs
    cases hs

theorem rel_push {K : CScope} {L S a T} {id v cu var k} (hr : RelL c K L S a T) (h2 : id ∉ K.autos) (h3 : id ∉ K.own) (hnt : id ∉ topIds c)
    (hv : varOf c.syms id = some var) (ht : Typed var.type v) (hc : cval v = some cu) (hk : k = true → var.isConst = true) :
    (K.self.isSome = true → RelL c (K.push id) (L.set id v) S (⟨nameOf c.syms id, k, cType var.type, cu⟩ :: a) T) ∧
      (K.self = none → RelL c (K.push id) L { S with vars := S.vars.set id v } (⟨nameOf c.syms id, k, cType var.type, cu⟩ :: a) T) := by
  constructor
  · intro hs
    refine ⟨.cons ⟨var, v, hv, rfl, hk, rfl, ?_, hc⟩ (autos_of_vals hr.autos fun i hi => valOf_setL (by rintro rfl; exact h2 hi)), ?_, ?_, ?_,
      hr.typed.set hv ht⟩
    · unfold valOf; rw [set_same]
    · intro i hi
      have hi : i ∈ K.own := hi
      obtain ⟨u, cu', h4, h5, h6⟩ := hr.own i hi
      exact ⟨u, cu', by rw [set_other (by rintro rfl; exact h3 hi)]; exact h4, h5, h6⟩
    · intro i
      by_cases hi : i = id
      · subst hi
        rw [set_same]
        exact ⟨fun _ => ⟨hs, .inl (List.mem_cons_self ..)⟩, fun _ => rfl⟩
      · rw [set_other hi, hr.dom i]
        show _ ↔ (K.self.isSome = true ∧ (i ∈ id :: K.autos ∨ i ∈ K.own))
        simp [hi]
    · intro h
      have h : K.self = none := h
      rw [h] at hs
      cases hs
  · intro hs
    have hL : ∀ i, L i = none := fun i => by
      cases hL : L i with
      | none => rfl
      | some u => have := (hr.dom i).1 (by rw [hL]; rfl); rw [hs] at this; cases this.1
    refine ⟨.cons ⟨var, v, hv, rfl, hk, rfl, ?_, hc⟩ (autos_of_vals hr.autos fun i hi => valOf_setS (by rintro rfl; exact h2 hi)), ?_, ?_, ?_, hr.typed⟩
    · unfold valOf; rw [hL id]; exact set_same ..
    · intro i hi
      obtain ⟨u, cu', h4, _⟩ := hr.own i hi
      rw [hL i] at h4
      cases h4
    · intro i
      rw [hL i]
      show _ ↔ (K.self.isSome = true ∧ _)
      rw [hs]
      simp
    · intro _ i h4 h5
      show S.vars.set id v i = none
      rw [set_other (by rintro rfl; exact hnt h4)]
      exact hr.undef hs i h4 h5

theorem CScope.addObj_ext {K : CScope} {id} : Ext K (K.addObj id) false := by
  unfold CScope.addObj
  split <;> exact ⟨⟨[], rfl⟩, rfl, fun h => (by cases h), fun h => (by cases h)⟩

theorem CScope.addObj_same {K : CScope} {id} : (K.addObj id).ret = K.ret ∧ (K.addObj id).count = K.count ∧ (K.addObj id).self = K.self := by
  unfold CScope.addObj
  split <;> exact ⟨rfl, rfl, rfl⟩

theorem CScope.push_ext {K : CScope} {id deep} : Ext K (K.push id) deep := ⟨⟨[id], rfl⟩, rfl, fun _ => rfl, fun _ => rfl⟩

theorem known_eq {syms : List Symbol} {id var} (hv : varOf syms id = some var) :
    isKnownConst syms id = (var.isConst && var.constExpr = some true) := by
  obtain ⟨sym, h1, h2⟩ := varOf_some hv
  unfold isKnownConst
  rw [h1]
  simp only [h2]

/- ### Assignment -/

theorem assign_rel (hl : Linked c d fmtA F) {K : CScope} {L S a T id v x var} (hk : KOk c K) (hg : RelG c d S T) (hr : RelL c K L S a T)
    (hres : resolves c.syms K id = true) (hv : varOf c.syms id = some var) (hcon : var.isConst = false) (ht : Typed var.type v) (hx : Stands v x)
    {L1 : Vars} {S1 : SState ω} (hsrc : ((L id).isSome = true ∧ L1 = L.set id v ∧ S1 = S) ∨
      (L id = none ∧ (S.vars id).isSome = true ∧ L1 = L ∧ S1 = { S with vars := S.vars.set id v })) :
    ∃ a1 T1, assignTo d a T (nameOf c.syms id) x = some (a1, T1) ∧ RelG c d S1 T1 ∧ RelL c K L1 S1 a1 T1 ∧
      (K.self.isSome = true → Frame c (K.count + 1) S T S1 T1) := by
  obtain ⟨cu, hc, hconv⟩ := convert_stands hx ht
  unfold resolves at hres
  by_cases hm : id ∈ K.autos
  · rw [if_pos hm] at hres
    have hfind := of_decide_eq_true hres
    obtain ⟨b, hb, w, u, h3, h4, h5, h6, h7, h8⟩ := (getAuto_rel hr.autos).1 id hfind
    rw [hv] at h3
    cases h3
    have hbc : b.isConst = false := by
      cases hbc : b.isConst with
      | false => rfl
      | true => rw [h5 hbc] at hcon; cases hcon
    have hA : assignTo d a T (nameOf c.syms id) x = some (setAuto a (nameOf c.syms id) cu, T) := by
      unfold assignTo
      rw [hb]
      simp only [hbc, Bool.false_eq_true, if_false, h6, hconv]
    refine ⟨_, T, hA, ?_⟩
    rcases hsrc with ⟨hL, rfl, rfl⟩ | ⟨hL, hS, rfl, rfl⟩
    · have hself := ((hr.dom id).1 hL).1
      refine ⟨hg, ⟨autos_set hr.autos hfind hk.nodup (fun i _ hi => valOf_setL hi) (by unfold valOf; rw [set_same]) hc, ?_, ?_, hr.undef, hr.typed.set hv ht⟩,
        fun _ => .refl⟩
      · intro i hi
        obtain ⟨u', cu', h9, h10, h11⟩ := hr.own i hi
        exact ⟨u', cu', by rw [set_other (by rintro rfl; exact hk.ownAuto _ hi hm)]; exact h9, h10, h11⟩
      · intro i
        by_cases hi : i = id
        · subst hi
          rw [set_same]
          exact ⟨fun _ => ⟨hself, .inl hm⟩, fun _ => rfl⟩
        · rw [set_other hi]
          exact hr.dom i
    · have hself : K.self = none := by
        cases hs : K.self with
        | none => rfl
        | some j => have := (hr.dom id).2 ⟨by rw [hs]; rfl, .inl hm⟩; rw [hL] at this; cases this
      have hnt := hk.autos id hm
      refine ⟨relG_deep hg hnt hv ht, ⟨autos_set hr.autos hfind hk.nodup (fun i _ hi => valOf_setS hi)
        (by unfold valOf; rw [hL]; exact set_same ..) hc, hr.own, hr.dom, ?_, hr.typed⟩, fun h => by rw [hself] at h; cases h⟩
      intro h i h1 h2
      show S.vars.set id v i = none
      rw [set_other (by rintro rfl; exact hnt h1)]
      exact hr.undef h i h1 h2
  · rw [if_neg hm] at hres
    simp only [Bool.and_eq_true, Bool.or_eq_true, decide_eq_true_eq, Bool.not_eq_true'] at hres
    have hn := (getAuto_rel hr.autos).2 hres.2
    have hobj := hk.isObj hres.1
    obtain ⟨w, h1, ⟨init, h2⟩⟩ := hl.obj id hobj
    rw [hv] at h1
    cases h1
    have hA : assignTo d a T (nameOf c.syms id) x = some (a, putObj T (nameOf c.syms id) cu) := by
      unfold assignTo
      rw [hn, h2]
      simp only [hcon, Bool.false_and, Bool.false_eq_true, if_false, hconv, putObj]
    refine ⟨a, _, hA, ?_⟩
    by_cases ho : id ∈ K.own
    · have hnt := hk.ownTop id ho
      have hL : (L id).isSome = true := by
        obtain ⟨u, _, h, _⟩ := hr.own id ho
        rw [h]; rfl
      have hself := ((hr.dom id).1 hL).1
      have hchg : Chg c (K.count + 1) id := by
        rcases hk.ownKind id ho with h | h
        · rw [known_eq hv, hcon] at h; cases h
        · exact h
      have hne : ∀ w, varOf c.syms id = some w → w.constExpr ≠ some true := by
        intro w hw
        rcases hchg with h | ⟨i, _, h⟩
        · exact absurd h hnt
        · rw [(hl.unknown i id h).2 w hw]
          intro h; cases h
      rcases hsrc with ⟨_, rfl, rfl⟩ | ⟨hL', _⟩
      · refine ⟨relG_own hl hg hobj hnt hne rfl fun y hy => putObj_other hy, ⟨autos_of_vals hr.autos fun i hi =>
          valOf_setL (by rintro rfl; exact hm hi), ?_, ?_, hr.undef, hr.typed.set hv ht⟩, fun _ => ⟨fun _ _ => rfl, fun _ h => h, fun y hy =>
            putObj_other fun he => hy id hchg he.symm⟩⟩
        · intro i hi
          by_cases hii : i = id
          · subst hii
            exact ⟨v, cu, set_same .., hc, putObj_same⟩
          · obtain ⟨u', cu', h9, h10, h11⟩ := hr.own i hi
            exact ⟨u', cu', by rw [set_other hii]; exact h9, h10, by
              rw [putObj_other fun he => hii (hl.inj _ _ (hk.ownObj i hi) hobj he)]; exact h11⟩
        · intro i
          by_cases hi : i = id
          · subst hi
            rw [set_same]
            exact ⟨fun _ => ⟨hself, .inr ho⟩, fun _ => rfl⟩
          · rw [set_other hi]
            exact hr.dom i
      · rw [hL'] at hL; cases hL
    · have ht' := hres.1.resolve_left ho
      have htop := hk.tops id ht'
      have hL : L id = none := by
        cases hL : L id with
        | none => rfl
        | some u => exact (((hr.dom id).1 (by rw [hL]; rfl)).2.elim hm ho).elim
      rcases hsrc with ⟨hL', _⟩ | ⟨_, hS, rfl, rfl⟩
      · rw [hL] at hL'; cases hL'
      · refine ⟨relG_top hl hg htop hv ht hc rfl putObj_same fun y hy => putObj_other hy, ⟨autos_of_vals hr.autos fun i hi =>
          valOf_setS (by rintro rfl; exact hm hi), ?_, hr.dom, ?_, hr.typed⟩, fun _ => ⟨?_, ?_, fun y hy =>
            putObj_other fun he => hy id (.inl htop) he.symm⟩⟩
        · intro i hi
          obtain ⟨u', cu', h9, h10, h11⟩ := hr.own i hi
          exact ⟨u', cu', h9, h10, by rw [putObj_other fun he => hk.ownSep i hi id (.inl htop) he.symm]; exact h11⟩
        · intro h i h1 h2'
          show S.vars.set id v i = none
          rw [set_other (by rintro rfl; exact h2' ht')]
          exact hr.undef h i h1 h2'
        · intro i hi
          exact set_other (by rintro rfl; exact hi htop)
        · intro i hi
          have hne : i ≠ id := by rintro rfl; rw [hi] at hS; cases hS
          show S.vars.set id v i = none
          rw [set_other hne]
          exact hi

end

end Skull.CSim
