import Verif.Proofs.CSimExpr
import Verif.Proofs.CRunMono
/-
Statements and calls: their C form ends the same way, and does the same to objects and the world.
-/
namespace Skull.CSim
open Spec Spec.C

section
variable {ω : Type} {c : RunCtx ω} {d : CRunCtx ω} {fmtA : Nat → List Char} {F : Floats}

/- ### Names -/

theorem names_of {syms : List Symbol} {e cx} (h : Reads syms fmtA e cx) :
    ∀ y ∈ cx.names, (∃ i ∈ symbolsE e, nameOf syms i = y) ∨ y ∈ runTimeNames := by
  induction h using Reads.rec
    (motive_2 := fun as cs _ => ∀ y ∈ cs.names, (∃ i ∈ symbolsA as, nameOf syms i = y) ∨ y ∈ runTimeNames) with
  | paren _ ih => intro y hy; simp only [Exp.names] at hy; exact ih y hy
  | @ident tok id ty k sym hs =>
    intro y hy
    simp only [Exp.names, List.mem_singleton] at hy
    exact .inl ⟨id, by simp [symbolsE], by rw [nameOf_eq hs, hy]⟩
  | const h => cases h <;> (intro y hy; simp [Exp.names] at hy)
  | @call tok args id ty sym cs hs _ ih =>
    intro y hy
    simp only [Exp.names, List.mem_append, List.mem_singleton] at hy
    rcases hy with hy | hy
    · exact .inl ⟨id, by simp [symbolsE], by rw [nameOf_eq hs, hy]⟩
    · exact (ih y hy).imp (fun ⟨i, h1, h2⟩ => ⟨i, by simp [symbolsE, h1], h2⟩) fun h => h
  | un _ _ ih => intro y hy; simp only [Exp.names] at hy; exact ih y hy
  | bin _ _ _ _ ihl ihr =>
    intro y hy
    simp only [Exp.names, List.mem_append] at hy
    rcases hy with hy | hy
    · exact (ihl y hy).imp (fun ⟨i, h1, h2⟩ => ⟨i, by simp [symbolsE, h1], h2⟩) fun h => h
    · exact (ihr y hy).imp (fun ⟨i, h1, h2⟩ => ⟨i, by simp [symbolsE, h1], h2⟩) fun h => h
  | strIs _ _ _ ihl ihr | strIsnt _ _ _ ihl ihr | intPow _ _ ihl ihr | floatPow _ _ ihl ihr =>
    intro y hy
    simp only [Exp.names, Exps.names, List.mem_append, List.mem_singleton, List.append_nil] at hy
    rcases hy with hy | hy | hy
    · exact .inr (hy ▸ by decide)
    · exact (ihl y hy).imp (fun ⟨i, h1, h2⟩ => ⟨i, by simp [symbolsE, h1], h2⟩) fun h => h
    · exact (ihr y hy).imp (fun ⟨i, h1, h2⟩ => ⟨i, by simp [symbolsE, h1], h2⟩) fun h => h
  | nil => rename_i y hy; simp [Exps.names] at hy
  | cons _ _ ih1 ih2 =>
    rename_i y hy
    simp only [Exps.names, List.mem_append] at hy
    rcases hy with hy | hy
    · exact (ih1 y hy).imp (fun ⟨i, h1, h2⟩ => ⟨i, by simp [symbolsA, h1], h2⟩) fun h => h
    · exact (ih2 y hy).imp (fun ⟨i, h1, h2⟩ => ⟨i, by simp [symbolsA, h1], h2⟩) fun h => h

/- ### Changing variables and objects -/

theorem set_same (L : Vars) (id : Nat) (v : Val) : L.set id v id = some v := if_pos rfl
theorem set_other {L : Vars} {id i : Nat} {v : Val} (h : i ≠ id) : L.set id v i = L i := if_neg h

theorem valOf_setL {L : Vars} {S : SState ω} {id i v} (h : i ≠ id) : valOf (L.set id v) S i = valOf L S i := by
  unfold valOf; rw [set_other h]

theorem valOf_setS {L : Vars} {S : SState ω} {id i v} (h : i ≠ id) : valOf L { S with vars := S.vars.set id v } i = valOf L S i := by
  unfold valOf; simp only [set_other h]

/-- An object with another value. -/
def putObj (T : Store ω) (x : List Char) (u : CVal) : Store ω := { T with objs := fun y => if y = x then some u else T.objs y }

theorem putObj_same {T : Store ω} {x u} : (putObj T x u).objs x = some u := if_pos rfl
theorem putObj_other {T : Store ω} {x y u} (h : y ≠ x) : (putObj T x u).objs y = T.objs y := if_neg h

theorem autos_of_vals {L L' : Vars} {S S' : SState ω} {Γ a} (h : All2 (AutoRel c.syms L S) Γ a)
    (hv : ∀ i ∈ Γ, valOf L' S' i = valOf L S i) : All2 (AutoRel c.syms L' S') Γ a :=
  h.imp fun i hi _ ⟨v, u, h1, h2, h3, h4, h5, h6⟩ => ⟨v, u, h1, h2, h3, h4, by rw [hv i hi]; exact h5, h6⟩

theorem autos_set {L L' : Vars} {S S' : SState ω} {x id v cu} : ∀ {Γ a}, All2 (AutoRel c.syms L S) Γ a →
    Γ.find? (fun i => nameOf c.syms i = x) = some id → Γ.Nodup → (∀ i ∈ Γ, i ≠ id → valOf L' S' i = valOf L S i) →
    valOf L' S' id = some v → cval v = some cu → All2 (AutoRel c.syms L' S') Γ (setAuto a x cu)
  | _, _, .nil, h, _, _, _, _ => by cases h
  | i :: Γ, b :: a, .cons hb ht, hf, hn, ho, hv, hc => by
    rw [List.nodup_cons] at hn
    obtain ⟨w, u, h1, h2, h3, h4, h5, h6⟩ := hb
    unfold setAuto
    rw [List.find?_cons] at hf
    by_cases hx : nameOf c.syms i = x
    · simp only [hx, decide_true] at hf
      cases hf
      rw [if_pos (by rw [h2, hx])]
      refine .cons ⟨w, v, h1, h2, h3, h4, hv, hc⟩ (autos_of_vals ht fun j hj => ho j (List.mem_cons_of_mem _ hj) ?_)
      rintro rfl
      exact hn.1 hj
    · simp only [hx, decide_false] at hf
      have hid := List.find?_some hf
      have hid : nameOf c.syms id = x := by simpa using hid
      have hne : i ≠ id := by rintro rfl; exact hx hid
      rw [if_neg (by rw [h2]; exact hx)]
      refine .cons ⟨w, u, h1, h2, h3, h4, ?_, h6⟩ (autos_set ht hf hn.2 (fun j hj => ho j (List.mem_cons_of_mem _ hj)) hv hc)
      rw [ho i (List.mem_cons_self ..) hne]
      exact h5

theorem VTyped.set {L : Vars} {id var v} (h : VTyped c.syms L) (hv : varOf c.syms id = some var) (ht : Typed var.type v) :
    VTyped c.syms (L.set id v) := by
  intro i u w h1 h2
  by_cases hi : i = id
  · subst hi
    rw [set_same] at h1
    cases h1
    rw [hv] at h2
    cases h2
    exact ht
  · rw [set_other hi] at h1
    exact h i u w h1 h2

theorem relG_top (hl : Linked c d fmtA F) {S : SState ω} {T T' : Store ω} {id var v cu} (h : RelG c d S T) (hid : id ∈ topIds c)
    (hv : varOf c.syms id = some var) (ht : Typed var.type v) (hc : cval v = some cu) (hw : T'.world = T.world)
    (ho : T'.objs (nameOf c.syms id) = some cu) (hoth : ∀ y, y ≠ nameOf c.syms id → T'.objs y = T.objs y) :
    RelG c d { S with vars := S.vars.set id v } T' := by
  have hobj : IsObj c id := .inl hid
  have hne : ∀ i, IsObj c i → i ≠ id → nameOf c.syms i ≠ nameOf c.syms id := fun i hi hn he => hn (hl.inj _ _ hi hobj he)
  refine ⟨hw.trans h.world, ?_, ?_, h.typed.set hv ht⟩
  · intro i hi u hu
    by_cases he : i = id
    · subst he
      have hu : S.vars.set i v i = some u := hu
      rw [set_same] at hu
      cases hu
      exact ⟨cu, hc, ho⟩
    · have hu : S.vars.set id v i = some u := hu
      rw [set_other he] at hu
      rw [hoth _ (hne i (.inl hi) he)]
      exact h.tops i hi u hu
  · intro i w hi hw hk hn
    by_cases he : i = id
    · subst he
      have : S.vars.set i v i = none := hn hid
      rw [set_same] at this
      cases this
    · rw [hoth _ (hne i hi he)]
      refine h.inits i w hi hw hk fun hti => ?_
      have := hn hti
      have this : S.vars.set id v i = none := this
      rw [set_other he] at this
      exact this

theorem relG_own (hl : Linked c d fmtA F) {S : SState ω} {T T' : Store ω} {id} (h : RelG c d S T) (hobj : IsObj c id) (hid : id ∉ topIds c)
    (hk : ∀ var, varOf c.syms id = some var → var.constExpr ≠ some true) (hw : T'.world = T.world)
    (hoth : ∀ y, y ≠ nameOf c.syms id → T'.objs y = T.objs y) : RelG c d S T' := by
  have hne : ∀ i, IsObj c i → i ≠ id → nameOf c.syms i ≠ nameOf c.syms id := fun i hi hn he => hn (hl.inj _ _ hi hobj he)
  refine ⟨hw.trans h.world, ?_, ?_, h.typed⟩
  · intro i hi u hu
    rw [hoth _ (hne i (.inl hi) (by rintro rfl; exact hid hi))]
    exact h.tops i hi u hu
  · intro i w hi hw hk' hn
    rw [hoth _ (hne i hi (by rintro rfl; exact hk w hw hk'))]
    exact h.inits i w hi hw hk' hn

theorem relG_deep {S : SState ω} {T : Store ω} {id var v} (h : RelG c d S T) (hid : id ∉ topIds c)
    (hv : varOf c.syms id = some var) (ht : Typed var.type v) : RelG c d { S with vars := S.vars.set id v } T := by
  have hne : ∀ i, i ∈ topIds c → S.vars.set id v i = S.vars i := fun i hi => set_other (by rintro rfl; exact hid hi)
  refine ⟨h.world, ?_, ?_, h.typed.set hv ht⟩
  · intro i hi u hu
    have hu : S.vars.set id v i = some u := hu
    rw [hne i hi] at hu
    exact h.tops i hi u hu
  · intro i w hi hw hk hn
    refine h.inits i w hi hw hk fun hti => ?_
    have := hn hti
    have this : S.vars.set id v i = none := this
    rw [hne i hti] at this
    exact this

/- ### Ends of blocks -/

/-- A place behind statements. -/
structure Ext (K K' : CScope) (deep : Bool) : Prop where
  autos : ∃ Δ, K'.autos = Δ ++ K.autos
  self : K'.self = K.self
  own : deep = true → K'.own = K.own
  tops : deep = true → K'.tops = K.tops

theorem Ext.refl {K : CScope} {deep} : Ext K K deep := ⟨⟨[], rfl⟩, rfl, fun _ => rfl, fun _ => rfl⟩

theorem Ext.trans {K K' K'' : CScope} {deep} (h : Ext K K' deep) (h' : Ext K' K'' deep) : Ext K K'' deep := by
  obtain ⟨D, h1⟩ := h.autos
  obtain ⟨D', h2⟩ := h'.autos
  exact ⟨⟨D' ++ D, by rw [h2, h1, List.append_assoc]⟩, h'.self.trans h.self, fun hd => (h'.own hd).trans (h.own hd),
    fun hd => (h'.tops hd).trans (h.tops hd)⟩

/-- What variables and objects are behind statements. -/
def Left (c : RunCtx ω) (K : CScope) (deep : Bool) (L : Vars) (S : SState ω) (a : List Auto) (T : Store ω) : Prop :=
  ∃ K', Ext K K' deep ∧ RelL c K' L S a T

/-- Statements end the same way. -/
def OutOk (c : RunCtx ω) (K : CScope) (deep : Bool) (o : Out) (co : COut) (S : SState ω) (T : Store ω) : Prop :=
  match o, co with
  | .normal L, .normal a | .broke L, .broke a | .continued L, .continued a => Left c K deep L S a T
  | .returned none, .returned none => True
  | .returned (some u), .returned (some x) => Stands u x ∧ Typed K.ret u
  | _, _ => False

/-- Blocks end the same way. -/
def Closed (c : RunCtx ω) (K : CScope) (o : Out) (co : COut) (S : SState ω) (T : Store ω) : Prop :=
  match o, co with
  | .normal L, .normal a | .broke L, .broke a | .continued L, .continued a => RelL c K L S a T
  | .returned none, .returned none => True
  | .returned (some u), .returned (some x) => Stands u x ∧ Typed K.ret u
  | _, _ => False

theorem Closed.out {K : CScope} {deep o co} {S : SState ω} {T : Store ω} (h : Closed c K o co S T) : OutOk c K deep o co S T := by
  unfold Closed at h
  unfold OutOk
  split at h
  · exact ⟨K, .refl, h⟩
  · exact ⟨K, .refl, h⟩
  · exact ⟨K, .refl, h⟩
  · trivial
  · exact h
  · exact h.elim

theorem All2.length {α β : Type} {R : α → β → Prop} : ∀ {l : List α} {m : List β}, All2 R l m → l.length = m.length
  | _, _, .nil => rfl
  | _, _, .cons _ t => by simp [t.length]

theorem All2.drop {α β : Type} {R : α → β → Prop} : ∀ (n : Nat) {l : List α} {m : List β}, All2 R l m → All2 R (l.drop n) (m.drop n)
  | 0, _, _, h => by simpa using h
  | _ + 1, _, _, .nil => by simpa using All2.nil
  | n + 1, _, _, .cons _ t => by simpa using t.drop n

theorem RelL.inner {K L S a T} (h : RelL c K L S a T) : RelL c K.inner L S a T := ⟨h.autos, h.own, h.dom, h.undef, h.typed⟩
theorem KOk.inner {K} (h : KOk c K) : KOk c K.inner :=
  ⟨h.self, h.autos, h.autosNot, h.nodup, h.tops, h.top, h.ownTop, h.ownAuto, h.ownObj, h.ownSep, h.ownKind⟩

theorem close_rel {K L S a T L' S' a' T'} (hr : RelL c K L S a T) (h : Left c K.inner true L' S' a' T') :
    RelL c K (L.only L') S' (leave a a') T' := by
  obtain ⟨K', hx, h'⟩ := h
  obtain ⟨D, hD⟩ := hx.autos
  have hD : K'.autos = D ++ K.autos := hD
  have hown : K'.own = K.own := hx.own rfl
  have htops : K'.tops = K.tops := hx.tops rfl
  have hself : K'.self = K.self := hx.self
  have hlen : a'.length - a.length = D.length := by
    have h1 := hr.autos.length
    have h2 := h'.autos.length
    rw [hD, List.length_append] at h2
    omega
  have honly : ∀ id, (id ∈ K.autos ∨ id ∈ K.own) → (L.only L') id = L' id := by
    intro id hid
    unfold Vars.only
    cases hs : K.self with
    | some j => rw [if_pos ((hr.dom id).2 ⟨by rw [hs]; rfl, hid⟩)]
    | none =>
      have : L' id = none := by
        cases hL : L' id with
        | none => rfl
        | some u => have := (h'.dom id).1 (by rw [hL]; rfl); rw [hself, hs] at this; cases this.1
      rw [this]
      split <;> rfl
  refine ⟨?_, ?_, ?_, fun h1 id h2 h3 => h'.undef (hself.trans h1) id h2 (htops ▸ h3), ?_⟩
  · have h1 := h'.autos.drop D.length
    rw [hD, List.drop_left] at h1
    unfold leave
    rw [hlen]
    exact autos_of_vals h1 fun i hi => by unfold valOf; rw [honly i (.inl hi)]
  · intro id hid
    obtain ⟨u, cu, h1, h2, h3⟩ := h'.own id (hown ▸ hid)
    exact ⟨u, cu, by rw [honly id (.inr hid)]; exact h1, h2, h3⟩
  · intro id
    constructor
    · intro h1
      unfold Vars.only at h1
      split at h1
      · rename_i h2
        exact (hr.dom id).1 h2
      · cases h1
    · intro h1
      rw [honly id h1.2]
      refine (h'.dom id).2 ⟨hself ▸ h1.1, h1.2.imp (fun h => ?_) fun h => hown ▸ h⟩
      rw [hD]
      exact List.mem_append_right _ h
  · intro id u w h1 h2
    unfold Vars.only at h1
    split at h1
    · exact h'.typed id u w h1 h2
    · cases h1

theorem close_ok {K L S a T o co S' T'} (hr : RelL c K L S a T) (h : OutOk c K.inner true o co S' T') :
    Closed c K (o.close L) (co.close a) S' T' := by
  unfold OutOk at h
  split at h
  · exact close_rel hr h
  · exact close_rel hr h
  · exact close_rel hr h
  · trivial
  · exact h
  · exact h.elim

/- ### Statements -/

/-- What is known of statements and their C form. -/
structure StOk (c : RunCtx ω) (d : CRunCtx ω) (fmtA : Nat → List Char) (F : Floats) (K : CScope) (deep : Bool) (lvl : Nat) (t : ATree) (ss : Stms) : Prop where
  form : ∃ its, CForm c.syms fmtA lvl t ss its
  fits : fitsT F c.syms (decls c.prog) K deep t = true
  sep : Sep c K deep t
  wt : ∃ loop before, WtTree c.syms loop before t
  texts : ∀ e ∈ t.exprs, FloatTexts fmtA ⟨fun _ => none, F, d.dbl⟩ e
  lvl : 1 ≤ lvl ∧ (deep = true ↔ lvl ≠ 1)

structure ElOk (c : RunCtx ω) (d : CRunCtx ω) (fmtA : Nat → List Char) (F : Floats) (K : CScope) (deep : Bool) (lvl : Nat) (t : ATree) (els ss : Stms) : Prop where
  form : ∃ its, CFormElse c.syms fmtA lvl t els ss its
  fits : fitsT F c.syms (decls c.prog) K deep t = true
  sep : Sep c K deep t
  wt : ∃ loop before, WtTree c.syms loop before t
  texts : ∀ e ∈ t.exprs, FloatTexts fmtA ⟨fun _ => none, F, d.dbl⟩ e
  lvl : 1 ≤ lvl ∧ (deep = true ↔ lvl ≠ 1)

/-- What the C form does. -/
def ExecRes (c : RunCtx ω) (d : CRunCtx ω) (K : CScope) (deep : Bool) (run : Nat → Option (COut × Store ω)) (o : Out) (S S' : SState ω) (T : Store ω) : Prop :=
  ∃ co T', Soon (fun m => run m = some (co, T')) ∧ OutOk c K deep o co S' T' ∧ RelG c d S' T' ∧
    (K.self.isSome = true → Frame c (K.count + 1) S T S' T')

theorem OutOk.ext {K K1 : CScope} {deep o co} {S : SState ω} {T : Store ω} (h : OutOk c K1 deep o co S T) (hx : Ext K K1 deep) (hret : K1.ret = K.ret) :
    OutOk c K deep o co S T := by
  unfold OutOk at h ⊢
  split at h
  · obtain ⟨K', h1, h2⟩ := h; exact ⟨K', hx.trans h1, h2⟩
  · obtain ⟨K', h1, h2⟩ := h; exact ⟨K', hx.trans h1, h2⟩
  · obtain ⟨K', h1, h2⟩ := h; exact ⟨K', hx.trans h1, h2⟩
  · trivial
  · rw [hret] at h; exact h
  · exact h.elim

theorem ExecRes.soon {K K1 : CScope} {deep o} {S S1 S' : SState ω} {T T1 : Store ω} {run1 run : Nat → Option (COut × Store ω)}
    (h : ExecRes c d K1 deep run1 o S1 S' T1) (hrun : ∀ r, Soon (fun m => run1 m = some r) → Soon (fun m => run m = some r))
    (hx : Ext K K1 deep) (hret : K1.ret = K.ret) (hfr : K.self.isSome = true → K1.count = K.count ∧ Frame c (K.count + 1) S T S1 T1) :
    ExecRes c d K deep run o S S' T := by
  obtain ⟨co, T', h1, h2, h3, h4⟩ := h
  refine ⟨co, T', hrun _ h1, h2.ext hx hret, h3, fun hs => ?_⟩
  obtain ⟨h5, h6⟩ := hfr hs
  have := h4 (hx.self ▸ hs)
  rw [h5] at this
  exact h6.trans this

theorem ExecRes.pre {K K1 : CScope} {deep o} {S S1 S' : SState ω} {T T1 : Store ω} {run1 run : Nat → Option (COut × Store ω)} {P : Nat → Prop} (hP : Soon P)
    (h : ExecRes c d K1 deep run1 o S1 S' T1) (hrun : ∀ m r, P m → run1 m = some r → run (m + 1) = some r)
    (hx : Ext K K1 deep) (hret : K1.ret = K.ret) (hfr : K.self.isSome = true → K1.count = K.count ∧ Frame c (K.count + 1) S T S1 T1) :
    ExecRes c d K deep run o S S' T :=
  h.soon (fun r hr => hP.step₂ hr fun m h1 h2 => hrun m r h1 h2) hx hret hfr

def ExecSim (c : RunCtx ω) (d : CRunCtx ω) (fmtA : Nat → List Char) (F : Floats) (n : Nat) : Prop :=
  ∀ {K deep lvl t ss L S a T o S' top}, execT c n top false t L S = some (o, S') → StOk c d fmtA F K deep lvl t ss → KOk c K → RelG c d S T →
    RelL c K L S a T → top = K.self.isNone → ExecRes c d K deep (fun m => execX d m ss a T) o S S' T

def ElseSim (c : RunCtx ω) (d : CRunCtx ω) (fmtA : Nat → List Char) (F : Floats) (n : Nat) : Prop :=
  ∀ {K deep lvl t els ss L S a T o S' top}, execT c n top true t L S = some (o, S') → ElOk c d fmtA F K deep lvl t els ss → KOk c K → RelG c d S T →
    RelL c K L S a T → top = K.self.isNone → ExecRes c d K deep (fun m => blockX d m els ss a T) o S S' T

def AndSim (c : RunCtx ω) (d : CRunCtx ω) (fmtA : Nat → List Char) (F : Floats) (n : Nat) : Prop :=
  ∀ {K deep lvl child next body ss L S a T o S' top}, andThen c n top child next L S = some (o, S') →
    StOk c d fmtA F K.inner true (lvl + 1) child body → StOk c d fmtA F K deep lvl next ss → KOk c K → RelG c d S T →
    RelL c K L S a T → top = K.self.isNone → ExecRes c d K deep (fun m => blockX d m body ss a T) o S S' T

def LoopSim (c : RunCtx ω) (d : CRunCtx ω) (fmtA : Nat → List Char) (F : Floats) (n : Nat) : Prop :=
  ∀ {K lvl e ce child body L S a T o S' top}, loopW c n top e child L S = some (o, S') → Reads c.syms fmtA e ce → WtE c.syms e →
    fitsE F c.syms (decls c.prog) K e = true → FloatTexts fmtA ⟨fun _ => none, F, d.dbl⟩ e →
    StOk c d fmtA F K.inner true (lvl + 1) child body → KOk c K → RelG c d S T → RelL c K L S a T → top = K.self.isNone →
    ∃ co T', Soon (fun m => loopX d m ce body a T = some (co, T')) ∧ Closed c K o co S' T' ∧ RelG c d S' T' ∧
      (K.self.isSome = true → Frame c (K.count + 1) S T S' T')

theorem sim_and {n : Nat} (ih : ExecSim c d fmtA F n) : AndSim c d fmtA F (n + 1) := by
  intro K deep lvl child next body ss L S a T o S' top h hc hn hk hg hr htop
  simp only [andThen] at h
  split at h
  · rename_i o1 S1 h1
    obtain ⟨co, T1, e1, ok1, g1, fr1⟩ := ih h1 hc hk.inner hg hr.inner htop
    have hcl := close_ok hr ok1
    generalize hoc : o1.close L = oc at h hcl
    generalize hcc : co.close a = cc at hcl
    have step : ∀ r, (∀ L1 a1, oc = .normal L1 → cc = .normal a1 → Soon fun m => execX d m ss a1 T1 = some r) →
        ((∀ a1, cc ≠ .normal a1) → r = (cc, T1)) → Soon fun m => blockX d m body ss a T = some r := by
      intro r hr1 hr2
      cases cc with
      | normal a1 =>
        cases oc with
        | normal L1 => exact e1.step₂ (hr1 L1 a1 rfl rfl) fun m h1 h2 => by simp only [blockX, h1, hcc, h2]
        | returned v => cases v <;> exact hcl.elim
        | _ => exact hcl.elim
      | _ => exact e1.step fun m h1 => by rw [hr2 (by intro _ h; cases h)]; simp only [blockX, h1, hcc]
    cases oc with
    | normal L1 =>
      cases cc with
      | normal a1 =>
        have h2 := ih h hn hk g1 hcl htop
        refine h2.soon (fun r hr => step r (fun L2 a2 h1 h2 => by cases h1; cases h2; exact hr) fun h => absurd rfl (h a1)) .refl rfl fun hs =>
          ⟨rfl, fr1 hs⟩
      | _ => exact hcl.elim
    | _ =>
      cases h
      refine ⟨cc, T1, step _ (fun L2 a2 h1 h2 => by cases h1) (fun _ => rfl), hcl.out, g1, fr1⟩
  · cases h

theorem sim_loop {n : Nat} (ihe : ExprSim c d fmtA F n) (ih : ExecSim c d fmtA F n) (ihl : LoopSim c d fmtA F n) :
    LoopSim c d fmtA F (n + 1) := by
  intro K lvl e ce child body L S a T o S' top h hrd hw hf hF hc hk hg hr htop
  simp only [loopW] at h
  split at h
  · rename_i S1 h1
    cases h
    obtain ⟨ox, T1, e1, o1, _, g1, fr1⟩ := ihe h1 hrd hw hf hF hk hg hr
    obtain ⟨cx, rfl, s1⟩ := o1.some (by intro h; cases h)
    have nz := nonzero_bool s1
    exact ⟨.normal a, T1, e1.step fun m h1 => by simp only [loopX, h1, nz], hr.frame hk fr1, g1, fun _ => fr1.mono (by omega)⟩
  · rename_i S1 h1
    obtain ⟨ox, T1, e1, o1, _, g1, fr1⟩ := ihe h1 hrd hw hf hF hk hg hr
    obtain ⟨cx, rfl, s1⟩ := o1.some (by intro h; cases h)
    have nz := nonzero_bool s1
    have hr1 := hr.frame hk fr1
    have fr1' : Frame c (K.count + 1) S T S1 T1 := fr1.mono (by omega)
    split at h
    · rename_i o2 S2 h2
      obtain ⟨co, T2, e2, ok2, g2, fr2⟩ := ih h2 hc hk.inner g1 hr1.inner htop
      have hcl := close_ok hr1 ok2
      generalize hoc : o2.close L = oc at h hcl
      generalize hcc : co.close a = cc at hcl
      have step : ∀ r, (∀ a1, cc = .normal a1 ∨ cc = .continued a1 → Soon fun m => loopX d m ce body a1 T2 = some r) →
          (∀ a1, cc = .broke a1 → r = (.normal a1, T2)) → (∀ v, cc = .returned v → r = (.returned v, T2)) →
          Soon fun m => loopX d m ce body a T = some r := by
        intro r hr1 hr2 hr3
        cases cc with
        | normal a1 => exact (e1.and e2).step₂ (hr1 a1 (.inl rfl)) fun m h1 h2 => by simp only [loopX, h1.1, nz, h1.2, hcc, h2]
        | continued a1 => exact (e1.and e2).step₂ (hr1 a1 (.inr rfl)) fun m h1 h2 => by simp only [loopX, h1.1, nz, h1.2, hcc, h2]
        | broke a1 => exact e1.step₂ e2 fun m h1 h2 => by rw [hr2 a1 rfl]; simp only [loopX, h1, nz, h2, hcc]
        | returned v => exact e1.step₂ e2 fun m h1 h2 => by rw [hr3 v rfl]; simp only [loopX, h1, nz, h2, hcc]
      cases oc with
      | normal L1 =>
        cases cc with
        | normal a1 =>
          obtain ⟨co', T3, e3, ok3, g3, fr3⟩ := ihl h hrd hw hf hF hc hk g2 hcl htop
          exact ⟨co', T3, step _ (fun a2 h => by rcases h with h | h <;> cases h; exact e3) (fun _ h => by cases h) (fun _ h => by cases h), ok3, g3,
            fun hs => (fr1'.trans (fr2 hs)).trans (fr3 hs)⟩
        | _ => exact hcl.elim
      | continued L1 =>
        cases cc with
        | continued a1 =>
          obtain ⟨co', T3, e3, ok3, g3, fr3⟩ := ihl h hrd hw hf hF hc hk g2 hcl htop
          exact ⟨co', T3, step _ (fun a2 h => by rcases h with h | h <;> cases h; exact e3) (fun _ h => by cases h) (fun _ h => by cases h), ok3, g3,
            fun hs => (fr1'.trans (fr2 hs)).trans (fr3 hs)⟩
        | _ => exact hcl.elim
      | broke L1 =>
        cases h
        cases cc with
        | broke a1 =>
          exact ⟨.normal a1, T2, step _ (fun a2 h => by rcases h with h | h <;> cases h) (fun _ h => by cases h; rfl) (fun _ h => by cases h), hcl, g2,
            fun hs => fr1'.trans (fr2 hs)⟩
        | _ => exact hcl.elim
      | returned v =>
        cases h
        cases cc with
        | returned cv =>
          exact ⟨.returned cv, T2, step _ (fun a2 h => by rcases h with h | h <;> cases h) (fun _ h => by cases h) (fun _ h => by cases h; rfl), hcl, g2,
            fun hs => fr1'.trans (fr2 hs)⟩
        | _ => cases v <;> exact hcl.elim
    · cases h
  · cases h

end

end Skull.CSim
