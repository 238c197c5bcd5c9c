import Verif.Proofs.DirectState
/-
Running a tree directly and running the checked tree gives the same.
-/
namespace Skull.Elab
open Skull.Spec

/-- Both are undefined, or both are not, and then they are related. -/
def Same {α β : Type} (R : α → β → Prop) : Option α → Option β → Prop
  | some a, some b => R a b
  | none, none => True
  | _, _ => False

theorem Same.cases {α β : Type} {R : α → β → Prop} {o : Option α} {o' : Option β} (h : Same R o o') :
    (o = none ∧ o' = none) ∨ ∃ a b, o = some a ∧ o' = some b ∧ R a b := by
  cases o <;> cases o' <;> first | exact h.elim | exact .inl ⟨rfl, rfl⟩ | exact .inr ⟨_, _, rfl, rfl, h⟩

/- ### Numbers of functions -/

theorem decls_next {ann stmt tok child next q} (h : q ∈ decls next) : q ∈ decls (.node ann stmt tok child next) := by
  unfold decls
  split
  · rename_i heq
    cases heq
    exact .tail _ (List.mem_append_right _ h)
  · rename_i heq
    cases heq
    exact List.mem_append_right _ h
  · rename_i h' _ heq
    exact absurd rfl (heq _ _ _ _ _)

theorem decls_child {ann stmt tok child next q} (hs : ∀ p, stmt ≠ .funcProto p) (h : q ∈ decls child) :
    q ∈ decls (.node ann stmt tok child next) := by
  unfold decls
  split
  · rename_i heq
    cases heq
    exact absurd rfl (hs _)
  · rename_i heq
    cases heq
    exact List.mem_append_left _ h
  · rename_i h' _ heq
    exact absurd rfl (heq _ _ _ _ _)

theorem find_of_nodup {α : Type} : ∀ {l : List (Nat × α)} {i a}, (l.map Prod.fst).Nodup → (i, a) ∈ l → l.find? (·.1 = i) = some (i, a)
  | [], _, _, _, h => by cases h
  | (k, b) :: l, i, a, hn, h => by
    rw [List.map_cons, List.nodup_cons] at hn
    cases h with
    | head => simp
    | tail _ h =>
      have hm : i ∈ l.map Prod.fst := List.mem_map_of_mem (f := Prod.fst) h
      have hne : k ≠ i := fun e => hn.1 (by rw [e]; exact hm)
      rw [List.find?_cons_of_neg (by simpa using hne)]
      exact find_of_nodup hn.2 h

/- ### Functions are entered -/

theorem zip_lookup_lt {β : Type} : ∀ (n a : Nat) (l : List β) (id : Nat), id < a → ((List.range' a n).zip l).lookup id = none
  | 0, _, _, _, _ => by simp
  | n + 1, a, [], _, _ => by simp
  | n + 1, a, b :: l, id, h => by
    rw [List.range'_succ, List.zip_cons_cons, List.lookup_cons]
    have hne : (id == a) = false := by rw [beq_eq_false_iff_ne]; omega
    rw [hne]
    exact zip_lookup_lt n (a + 1) l id (by omega)

def Vars.over (L L' : Vars) : Vars := fun id => match L' id with | some v => some v | none => L id

theorem bindParams_cons (L : Vars) (a n : Nat) (v : Val) (vs : List Val) :
    Vars.over (L.set a v) (bindParams (List.range' (a + 1) n) vs) = Vars.over L (bindParams (List.range' a (n + 1)) (v :: vs)) := by
  funext id
  unfold Vars.over bindParams
  rw [List.range'_succ, List.zip_cons_cons, List.lookup_cons]
  by_cases e : id = a
  · subst e
    rw [zip_lookup_lt _ _ _ _ (Nat.lt_succ_self _)]
    simp [Vars.set]
  · have hne : (id == a) = false := by rw [beq_eq_false_iff_ne]; exact e
    rw [hne]
    simp only [Vars.set, if_neg e]

section
variable {ω : Type} {c : RunCtx ω} {W : World} {γ : Map} {Δ : List Decl} {loc : Nat → Prop} {S : SState ω} {w : ω}

theorem enter_params {ps τs E E₁} (hp : ParamsOk W E ps τs E₁) : ∀ {κ L D N} {vs : List (Val × Ty)},
    Rel c W false γ Δ loc κ E L S ⟨D, w⟩ N → vs.map Prod.snd = τs →
    ∃ N₁ m κ₁, bindArgs ps vs N D = some (N₁, D ++ m) ∧
      Rel c W false γ Δ loc κ₁ E₁ (Vars.over L (bindParams (List.range' E.decls.length τs.length) (vs.map Prod.fst))) S ⟨D ++ m, w⟩ N₁ ∧
      ∀ i j, κ₁ i = some j → κ i = some j ∨ D.length ≤ j := by
  induction hp with
  | nil =>
    rename_i E'
    intro κ L D N vs h hv
    rw [List.map_eq_nil_iff] at hv
    subst hv
    refine ⟨N, [], κ, by simp [bindArgs], ?_, fun i j h => .inl h⟩
    have : Vars.over L (bindParams (List.range' E'.decls.length 0) []) = L := by funext id; simp [Vars.over, bindParams]
    simp only [List.append_nil, List.length_nil, List.map_nil]
    rw [this]
    exact h
  | cons h1 h2 h3 h4 h5 h6 ih =>
    rename_i E E' p ps τ τs x
    intro κ L D N vs h hv
    cases vs with
    | nil => cases hv
    | cons vt vs =>
      obtain ⟨v, τ'⟩ := vt
      rw [List.map_cons, List.cons.injEq] at hv
      obtain ⟨rfl, hv⟩ := hv
      obtain ⟨γ', Δ', hd, hm⟩ := h.declare (x := x) (d := .var τ' false) (th := .var τ' v) (L' := L.set E.decls.length v) (S' := S) rfl
        (fun _ e => by cases e) (fun τ v' e => by cases e; exact ⟨fun _ => by simp [Vars.set], fun e => by cases e⟩)
        (fun i hi => by simp [Vars.set, hi]) (fun e => by cases e) (fun _ _ => rfl) (fun _ => rfl) rfl (fun _ _ _ _ e => by cases e)
      obtain ⟨rfl, rfl⟩ := hm rfl
      obtain ⟨N₁, m, κ₁, g1, g2, g3⟩ := ih hd hv
      refine ⟨N₁, .var τ' v :: m, κ₁, ?_, ?_, fun i j hi => ?_⟩
      · unfold bindArgs
        rw [h2]
        simpa using g1
      · have hl : (E.add x (.var τ' false)).decls.length = E.decls.length + 1 := by simp [Env.add]
        rw [hl, bindParams_cons] at g2
        simpa using g2
      · rcases g3 i j hi with hi | hi
        · by_cases e : i = E.decls.length
          · subst e
            rw [Map.put_self] at hi
            cases hi
            exact .inr (Nat.le_refl _)
          · rw [Map.put_ne _ e] at hi
            exact .inl hi
        · simp at hi
          exact .inr (by omega)

theorem enter {D : List Thing} {i p τ body N E f τs E₁ E₂ body'} (hg : GRel c W γ Δ D S.vars)
    (hf : FunIs c W γ Δ i p τ body N E f τs E₁ E₂ body') {vs : List (Val × Ty)} (hv : vs.map Prod.snd = τs) :
    ∃ N₁ m κ₁, bindArgs p.params vs N D = some (N₁, D ++ m) ∧
      Rel c W false γ Δ (fun k => i < k) κ₁ E₁ (bindParams (List.range' (i + 1) τs.length) (vs.map Prod.fst)) S ⟨D ++ m, S.world⟩ N₁ ∧
      ∀ k j, κ₁ k = some j → γ k = some j ∨ D.length ≤ j := by
  have hlen := hf.len
  let κ : Map := fun k => if k ≤ i then γ k else none
  have hκ : ∀ k j, κ k = some j → k ≤ i ∧ γ k = some j := by
    intro k j h
    by_cases e : k ≤ i
    · simp only [κ, if_pos e] at h; exact ⟨e, h⟩
    · simp only [κ, if_neg e] at h; cases h
  have hκ' : ∀ k, k ≤ i → κ k = γ k := fun k h => by simp only [κ, if_pos h]
  have hwf : (E.add f (.func τs τ)).WF := hf.wf.add f (fun _ e => by cases e)
  have hal : (E.add f (.func τs τ)).decls.length = i + 1 := by simp [Env.add, hlen]
  have hmem : ∀ {V : List (List Char × Nat)} {M}, (∀ q ∈ V, q.2 < i + 1) → NamesRel γ M V → NamesRel κ M V := by
    intro V M hq hn
    exact hn.mono fun q hq' j hj => by rw [hκ' _ (by have := hq q hq'; omega)]; exact hj
  have base : Rel c W false γ Δ (fun k => i < k) κ (E.add f (.func τs τ)) (fun _ => none) S ⟨D, S.world⟩ N := by
    refine ⟨hwf, rfl, hg, ?_, ?_, ?_, ?_, ?_, ?_, ?_, ?_, ?_⟩
    · have : (E.add f (.func τs τ)).vis = (f, i) :: E.vis := by simp [Env.add, hlen]
      rw [this]
      refine hmem (fun q hq => ?_) hf.names
      rw [← this] at hq
      rw [← hal]
      exact hwf.vis q hq
    · intro k j' hk
      obtain ⟨hle, hk⟩ := hκ k j' hk
      obtain ⟨d', x, h1, h2, h3, h4⟩ := hg.ents k j' hk
      have hlt : k < (E.add f (.func τs τ)).decls.length := by omega
      have hget : (E.add f (.func τs τ)).decls[k]? = some (E.add f (.func τs τ)).decls[k] := List.getElem?_eq_getElem hlt
      generalize (E.add f (.func τs τ)).decls[k] = d at hget
      refine ⟨d, x, hget, h2, ?_, fun τ' v hx => ⟨fun h => absurd h (by omega), fun _ => h4 τ' v hx⟩⟩
      rcases hf.older k d hget with ho | ⟨rfl, ms, ho⟩
      · rw [h1] at ho
        cases ho
        cases d' <;> cases x <;> first | exact h3 | skip
        rename_i ms _
        rcases h3 with h3 | h3
        · exact .inl h3
        · refine .inr (hmem (fun q hq => ?_) h3)
          rw [← hal]
          exact hwf.members k ms hget q hq
      · rw [h1] at ho
        cases ho
        cases x <;> first | exact h3.elim | exact .inl rfl
    · intro k j' hk _
      exact (hκ k j' hk).2
    · intro k d hl hd
      exact hf.older k d hd
    · intro k j' hk hl
      have := (hκ k j' hk).1
      omega
    · intro k k' j' hk hk'
      exact hg.inj k k' j' (hκ k j' hk).2 (hκ k' j' hk').2
    · intro k j' ps τ' hk _
      have := (hκ k j' hk).1
      omega
    · intro k hk
      exact absurd rfl hk
    · intro k hk
      omega
  obtain ⟨N₁, m, κ₁, g1, g2, g3⟩ := enter_params hf.params base hv
  refine ⟨N₁, m, κ₁, g1, ?_, fun k j' hk => (g3 k j' hk).imp (fun h => (hκ k j' h).2) id⟩
  rw [hal] at g2
  have : ∀ L : Vars, Vars.over (fun _ => none) L = L := by
    intro L
    funext id
    unfold Vars.over
    cases L id <;> rfl
  rw [this] at g2
  exact g2


variable {top : Bool} {κ : Map} {E : Env} {L : Vars} {T : NState ω} {N : Names}

/-- A namespace is closed. -/
theorem Rel.closeNs {κ' γ' Δ' E₁ L'} {S' : SState ω} {T' : NState ω} {N' x} (h : Rel c W top γ Δ loc κ E L S T N)
    (h' : Rel c W top γ' Δ' loc κ' E₁ L' S' T' N') (hsub : Sub κ κ') (hput : κ' E.decls.length = some T.things.length)
    (hd : E₁.decls[E.decls.length]? = some (.ns [])) (hwf : Env.WF ⟨(x, E.decls.length) :: E.vis, E₁.decls.set E.decls.length (.ns E₁.vis)⟩) :
    ∃ Δ'', Rel c W top γ' Δ'' loc κ' ⟨(x, E.decls.length) :: E.vis, E₁.decls.set E.decls.length (.ns E₁.vis)⟩ L' S'
        ⟨T'.things.set T.things.length (.ns N'), T'.world⟩ ((x, T.things.length) :: N) ∧ (top = false → Δ'' = Δ') := by
  have hlt := lt_of_get hd
  have hself : (E₁.decls.set E.decls.length (.ns E₁.vis))[E.decls.length]? = some (.ns E₁.vis) := List.getElem?_set_self hlt
  have hother : ∀ i, i ≠ E.decls.length → (E₁.decls.set E.decls.length (.ns E₁.vis))[i]? = E₁.decls[i]? :=
    fun i hi => List.getElem?_set_ne (fun e => hi e.symm)
  have hTlt : T.things.length < T'.things.length := by
    obtain ⟨_, _, _, h2, _⟩ := h'.ents _ _ hput
    exact lt_of_get h2
  have hTself : (T'.things.set T.things.length (.ns N'))[T.things.length]? = some (.ns N') := List.getElem?_set_self hTlt
  have hTother : ∀ j, j ≠ T.things.length → (T'.things.set T.things.length (.ns N'))[j]? = T'.things[j]? :=
    fun j hj => List.getElem?_set_ne (fun e => hj e.symm)
  have hents : Ents κ' (E₁.decls.set E.decls.length (.ns E₁.vis)) (T'.things.set T.things.length (.ns N'))
      (fun i v => (loc i → L' i = some v) ∧ (¬ loc i → S'.vars i = some v)) := by
    intro i j hi
    by_cases e : i = E.decls.length
    · subst e
      rw [hput] at hi
      cases hi
      exact ⟨_, _, hself, hTself, .inr h'.names, fun _ _ e => by cases e⟩
    · obtain ⟨d, y, g1, g2, g3, g4⟩ := h'.ents i j hi
      exact ⟨d, y, by rw [hother i e]; exact g1, by rw [hTother j (fun e' => e (h'.inj i _ _ (e' ▸ hi) hput))]; exact g2, g3, g4⟩
  have hnames : NamesRel κ' ((x, T.things.length) :: N) ((x, E.decls.length) :: E.vis) := ⟨rfl, hput, h.names.sub hsub⟩
  have hfuns : ∀ (i j : Nat) ps τ, κ' i = some j → (E₁.decls.set E.decls.length (.ns E₁.vis))[i]? = some (.func ps τ) → ¬ loc i := by
    intro i j ps τ hi hdi
    by_cases e : i = E.decls.length
    · subst e
      rw [hself] at hdi
      cases hdi
    · rw [hother i e] at hdi
      exact h'.funs i j ps τ hi hdi
  cases top with
  | false =>
    have hl : loc E.decls.length := h.mode _ (Nat.le_refl _)
    have hout : ∀ i j, γ' i = some j → j ≠ T.things.length := fun i j hi e => h'.sep _ _ hput hl i (e ▸ hi)
    refine ⟨Δ', { h' with wf := hwf, names := hnames, ents := hents, funs := hfuns, glob := ?_, older := ?_, mode := ?_ }, fun _ => rfl⟩
    · refine ⟨fun i j hi => ?_, h'.glob.inj, fun i j p τ body N₀ hi hj => ?_⟩
      · obtain ⟨d, y, g1, g2, g3, g4⟩ := h'.glob.ents i j hi
        exact ⟨d, y, g1, by rw [hTother j (hout i j hi)]; exact g2, g3, g4⟩
      · have hj' : (T'.things.set T.things.length (.ns N'))[j]? = some (.func p τ body N₀) := hj
        rw [hTother j (hout i j hi)] at hj'
        exact h'.glob.funs i j p τ body N₀ hi hj'
    · intro i d hl' hdi
      have hne : i ≠ E.decls.length := fun e => hl' (e ▸ hl)
      have hdi' : (E₁.decls.set E.decls.length (.ns E₁.vis))[i]? = some d := hdi
      rw [hother i hne] at hdi'
      exact h'.older i d hl' hdi'
    · intro i hi
      rw [List.length_set] at hi
      exact h'.mode i hi
  | true =>
    obtain ⟨m1, m2, m3⟩ := h'.mode
    refine ⟨_, { h' with wf := hwf, names := hnames, ents := hents, funs := hfuns, glob := ?_, older := fun i d _ hdi => .inl hdi,
                         mode := ⟨m1, rfl, m3⟩ }, fun e => by cases e⟩
    refine ⟨fun i j hi => ?_, h'.glob.inj, fun i j p τ body N₀ hi hj => ?_⟩
    · rw [m1] at hi
      obtain ⟨d, y, g1, g2, g3, g4⟩ := hents i j hi
      exact ⟨d, y, g1, g2, by rw [m1]; exact g3, fun τ v e => (g4 τ v e).2 (m3 i)⟩
    · have hj' : (T'.things.set T.things.length (.ns N'))[j]? = some (.func p τ body N₀) := hj
      by_cases e : j = T.things.length
      · subst e
        rw [hTself] at hj'
        cases hj'
      · rw [hTother j e] at hj'
        refine (h'.glob.funs i j p τ body N₀ hi hj').mono c W (.refl _) ?_
        rw [m2]
        exact .close hd _

/- ### What statements do -/

/-- Things stay, and those that are not visible stay as they are. -/
structure Kept (γ κ : Map) (T T' : NState ω) : Prop where
  evo : Evolves T.things T'.things
  keep : ∀ j, (∀ i, γ i ≠ some j) → (∀ i, κ i ≠ some j) → j < T.things.length → T'.things[j]? = T.things[j]?

/-- From one state to another. -/
structure Move (c : RunCtx ω) (W : World) (top : Bool) (γ : Map) (Δ : List Decl) (loc : Nat → Prop) (κ : Map) (T : NState ω)
    (γ' : Map) (Δ' : List Decl) (κ' : Map) (E' : Env) (L' : Vars) (S' : SState ω) (T' : NState ω) (N' : Names) : Prop where
  rel : Rel c W top γ' Δ' loc κ' E' L' S' T' N'
  sub : Sub κ κ'
  fresh : ∀ i j, κ' i = some j → κ i = some j ∨ T.things.length ≤ j
  same : top = false → γ' = γ ∧ Δ' = Δ
  kept : Kept γ κ T T'

/-- How statements end. -/
def Post (c : RunCtx ω) (W : World) (top : Bool) (γ : Map) (Δ : List Decl) (loc : Nat → Prop) (κ : Map) (E E' : Env) (T : NState ω) (N : Names)
    (r : NOut × NState ω) (r' : Out × SState ω) : Prop :=
  Kept γ κ T r.2 ∧
  match r.1, r'.1 with
  | .normal N', .normal L' => ∃ γ' Δ' κ', Move c W top γ Δ loc κ T γ' Δ' κ' E' L' r'.2 r.2 N'
  | .broke, .broke L' => Rel c W top γ Δ loc κ E L' r'.2 r.2 N
  | .continued, .continued L' => Rel c W top γ Δ loc κ E L' r'.2 r.2 N
  | .returned v, .returned v' => v = v' ∧ r.2.world = r'.2.world ∧ GRel c W γ Δ r.2.things r'.2.vars
  | _, _ => False

theorem Rel.subG {κ' γ' Δ' E' L' N'} {S' : SState ω} {T' : NState ω} (h : Rel c W top γ Δ loc κ E L S T N)
    (h' : Rel c W top γ' Δ' loc κ' E' L' S' T' N') (hs : Sub κ κ') (hm : top = false → γ' = γ ∧ Δ' = Δ) : Sub γ γ' := by
  cases top with
  | false => rw [(hm rfl).1]; exact .refl _
  | true => rw [h.mode.1, h'.mode.1]; exact hs

theorem Kept.refl (γ κ : Map) (T : NState ω) : Kept γ κ T T := ⟨.refl _, fun _ _ _ _ => rfl⟩

theorem Stepped.kept {S' : SState ω} {T' : NState ω} (h : Stepped c W γ Δ T S' T') (κ : Map) : Kept γ κ T T' :=
  ⟨h.evo, fun j hj _ hl => h.keep j hj hl⟩

theorem Move.refl (h : Rel c W top γ Δ loc κ E L S T N) : Move c W top γ Δ loc κ T γ Δ κ E L S T N :=
  ⟨h, .refl _, fun _ _ h => .inl h, fun _ => ⟨rfl, rfl⟩, .refl _ _ _⟩

theorem Rel.moved {S' : SState ω} {T' : NState ω} (h : Rel c W top γ Δ loc κ E L S T N) (hs : Stepped c W γ Δ T S' T') :
    Move c W top γ Δ loc κ T γ Δ κ E L S' T' N :=
  ⟨h.step hs, .refl _, fun _ _ h => .inl h, fun _ => ⟨rfl, rfl⟩, hs.kept _⟩

theorem Move.kept_trans {γ₁ Δ₁ κ₁ E₁ L₁ N₁} {S₁ : SState ω} {T₁ T₂ : NState ω} (h : Rel c W top γ Δ loc κ E L S T N)
    (m : Move c W top γ Δ loc κ T γ₁ Δ₁ κ₁ E₁ L₁ S₁ T₁ N₁) (k : Kept γ₁ κ₁ T₁ T₂) : Kept γ κ T T₂ := by
  refine ⟨m.kept.evo.trans k.evo, fun j hg hk hl => ?_⟩
  have hκ : ∀ i, κ₁ i ≠ some j := by
    intro i hi
    rcases m.fresh i j hi with h | h
    · exact hk i h
    · omega
  have hγ : ∀ i, γ₁ i ≠ some j := by
    cases top with
    | false => rw [(m.same rfl).1]; exact hg
    | true => rw [m.rel.mode.1]; exact hκ
  rw [k.keep j hγ hκ (Nat.lt_of_lt_of_le hl m.kept.evo.len), m.kept.keep j hg hk hl]

theorem Move.trans {γ₁ Δ₁ κ₁ E₁ L₁ N₁} {S₁ : SState ω} {T₁ : NState ω} {γ₂ Δ₂ κ₂ E₂ L₂ N₂} {S₂ : SState ω} {T₂ : NState ω}
    (h : Rel c W top γ Δ loc κ E L S T N) (m : Move c W top γ Δ loc κ T γ₁ Δ₁ κ₁ E₁ L₁ S₁ T₁ N₁)
    (m' : Move c W top γ₁ Δ₁ loc κ₁ T₁ γ₂ Δ₂ κ₂ E₂ L₂ S₂ T₂ N₂) : Move c W top γ Δ loc κ T γ₂ Δ₂ κ₂ E₂ L₂ S₂ T₂ N₂ := by
  refine ⟨m'.rel, m.sub.trans m'.sub, fun i j hi => ?_, fun e => ?_, m.kept_trans h m'.kept⟩
  · rcases m'.fresh i j hi with h' | h'
    · exact m.fresh i j h'
    · exact .inr (Nat.le_trans m.kept.evo.len h')
  · rw [(m'.same e).1, (m'.same e).2]
    exact m.same e

theorem Post.after {γ₁ Δ₁ κ₁ E₁ E' L₁ N₁} {S₁ : SState ω} {T₁ : NState ω} (h : Rel c W top γ Δ loc κ E L S T N)
    (m : Move c W top γ Δ loc κ T γ₁ Δ₁ κ₁ E₁ L₁ S₁ T₁ N₁) {r r'} (hp : Post c W top γ₁ Δ₁ loc κ₁ E₁ E' T₁ N₁ r r') :
    Post c W top γ Δ loc κ E E' T N r r' := by
  obtain ⟨o, T₂⟩ := r
  obtain ⟨o', S₂⟩ := r'
  obtain ⟨hk, hp⟩ := hp
  have hk' := m.kept_trans h hk
  refine ⟨hk', ?_⟩
  cases o <;> cases o' <;> first | exact hp.elim | skip
  · obtain ⟨γ', Δ', κ', m'⟩ := hp
    exact ⟨γ', Δ', κ', m.trans h m'⟩
  · exact h.back hp m.sub m.same hk'.evo
  · exact h.back hp m.sub m.same hk'.evo
  · exact ⟨hp.1, hp.2.1, h.glob.back hp.2.2 (h.subG m.rel m.sub m.same) hk'.evo⟩

theorem Same.after {γ₁ Δ₁ κ₁ E₁ E' L₁ N₁} {S₁ : SState ω} {T₁ : NState ω} {o o'} (h : Rel c W top γ Δ loc κ E L S T N)
    (m : Move c W top γ Δ loc κ T γ₁ Δ₁ κ₁ E₁ L₁ S₁ T₁ N₁) (hp : Same (Post c W top γ₁ Δ₁ loc κ₁ E₁ E' T₁ N₁) o o') :
    Same (Post c W top γ Δ loc κ E E' T N) o o' := by
  rcases hp.cases with ⟨rfl, rfl⟩ | ⟨a, b, rfl, rfl, hp⟩
  · trivial
  · exact Post.after h m hp

/-- The environment behind a block. -/
theorem Move.longer {γ₁ Δ₁ κ₁ E₁ L₁ N₁ E₂} {S₁ : SState ω} {T₁ : NState ω} (m : Move c W top γ Δ loc κ T γ₁ Δ₁ κ₁ E₁ L₁ S₁ T₁ N₁)
    (hg : EnvGrows E₁ E₂) (hv : E₂.vis = E₁.vis) : ∃ Δ₂, Move c W top γ Δ loc κ T γ₁ Δ₂ κ₁ E₂ L₁ S₁ T₁ N₁ := by
  obtain ⟨Δ₂, h1, h2⟩ := m.rel.longer hg hv
  exact ⟨Δ₂, h1, m.sub, m.fresh, fun e => ⟨(m.same e).1, by rw [h2 e]; exact (m.same e).2⟩, m.kept⟩

/- ### The statements behind a chain -/

theorem chain_of {syms} : ∀ {t : Tree} {E a E'}, ElT W syms E t a E' → E.WF →
    ∃ E₁, ElT W syms E₁ (behindChain t) (afterChain a) E' ∧ E₁.vis = E.vis ∧ EnvGrows E E₁
  | .nil, E, _, _, h, hw => by cases h; exact ⟨E, .nil, rfl, .refl hw⟩
  | .node stmt tok te child next, E, a, E', h, hw => by
    cases h with
    | node hs hg hn =>
      have dflt := ElT.node hs hg hn
      cases hs with
      | elifs h1 h2 =>
        obtain ⟨E₁, g1, g2, g3⟩ := chain_of hn hg.wf
        exact ⟨E₁, g1, g2, hg.trans g3⟩
      | elses h2 => exact ⟨_, hn, rfl, hg⟩
      | comment =>
        obtain ⟨E₁, g1, g2, g3⟩ := chain_of hn hg.wf
        exact ⟨E₁, g1, g2, g3⟩
      | _ => exact ⟨E, dflt, rfl, .refl hw⟩

theorem flat_chain {b : Bool} : ∀ {t : Tree}, FlatFuncs b t → FlatFuncs b (behindChain t)
  | .nil, h => h
  | .node stmt tok te child next, h => by
    cases stmt <;> first | exact h | exact h.2 | exact (flat_chain (t := next) h.2 : FlatFuncs b (behindChain next))

theorem decls_chain : ∀ {a : ATree} {q}, q ∈ decls (afterChain a) → q ∈ decls a
  | .nil, _, h => h
  | .unchecked _, _, h => h
  | .node ann stmt tok child next, q, h => by
    cases stmt <;> first | exact h | exact decls_next h | exact decls_next (decls_chain h)

end
end Skull.Elab
