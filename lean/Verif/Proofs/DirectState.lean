import Verif.Proofs.DirectRel
/-
When the state of the interpreter that knows names and the state of the other are the same, and what keeps them the same.
-/
namespace Skull.Elab
open Skull.Spec

/-- Declarations stay, but namespaces get their members at the end. -/
def Still (d : Decl) (o : Option Decl) : Prop := o = some d ∨ (d = .ns [] ∧ ∃ ms, o = some (.ns ms))

theorem Still.trans {d : Decl} {o o' : Option Decl} (h : Still d o) (h' : ∀ d', o = some d' → Still d' o') : Still d o' := by
  rcases h with rfl | ⟨rfl, ms, rfl⟩
  · exact h' d rfl
  · rcases h' _ rfl with h | ⟨_, ms', h⟩
    · exact .inr ⟨rfl, ms, h⟩
    · exact .inr ⟨rfl, ms', h⟩

def Older (Δ₀ Δ : List Decl) : Prop := ∀ (i : Nat) d, Δ₀[i]? = some d → Still d Δ[i]?

theorem Older.trans {Δ₀ Δ₁ Δ₂ : List Decl} (h : Older Δ₀ Δ₁) (h' : Older Δ₁ Δ₂) : Older Δ₀ Δ₂ :=
  fun i d hd => (h i d hd).trans fun d' hd' => h' i d' hd'

theorem Older.ext {E E' : Env} (h : E.Ext E') : Older E.decls E'.decls := by
  intro i d hd
  exact .inl (by rw [h.same i (lt_of_get hd)]; exact hd)

theorem Older.append (Δ m : List Decl) : Older Δ (Δ ++ m) := fun _ _ h => .inl (get_append h m)

theorem Older.close {Δ : List Decl} {k : Nat} (h : Δ[k]? = some (.ns [])) (ms) : Older Δ (Δ.set k (.ns ms)) := by
  intro i d hd
  by_cases e : k = i
  · subst e
    rw [h] at hd
    cases hd
    exact .inr ⟨rfl, ms, List.getElem?_set_self (lt_of_get h)⟩
  · exact .inl (by rw [List.getElem?_set_ne e]; exact hd)

section
variable {ω : Type} (c : RunCtx ω) (W : World)

/-- A function among the things. -/
structure FunIs (γ : Map) (Δ : List Decl) (i : Nat) (p : FuncProto) (τ : Ty) (body : Tree) (N : Names) (E : Env) (f : List Char) (τs : List Ty)
    (E₁ E₂ : Env) (body' : ATree) : Prop where
  len : E.decls.length = i
  wf : E.WF
  names : NamesRel γ N ((f, i) :: E.vis)
  older : Older (E.decls ++ [.func τs τ]) Δ
  params : ParamsOk W (E.add f (.func τs τ)) p.params τs E₁
  elabs : ElT W c.syms E₁ body body' E₂
  found : (decls c.prog).find? (·.1 = i) = some (i, List.range' (i + 1) τs.length, body')
  fact : FuncFact c.syms i p τ
  flat : FlatFuncs true body
  inProg : p.isExternal = false → ∀ q ∈ decls body', q ∈ decls c.prog

def FunRel (γ : Map) (Δ : List Decl) (i : Nat) (p : FuncProto) (τ : Ty) (body : Tree) (N : Names) : Prop :=
  ∃ E f τs E₁ E₂ body', FunIs c W γ Δ i p τ body N E f τs E₁ E₂ body'

theorem FunRel.mono {γ γ' : Map} {Δ Δ' : List Decl} {i p τ body N} (h : FunRel c W γ Δ i p τ body N) (hs : Sub γ γ') (ho : Older Δ Δ') :
    FunRel c W γ' Δ' i p τ body N := by
  obtain ⟨E, f, τs, E₁, E₂, body', h⟩ := h
  exact ⟨E, f, τs, E₁, E₂, body', { h with names := h.names.sub hs, older := h.older.trans ho }⟩

/-- What is declared outside functions. -/
structure GRel (γ : Map) (Δ : List Decl) (D : List Thing) (vars : Vars) : Prop where
  ents : Ents γ Δ D (fun i v => vars i = some v)
  inj : ∀ i i' j, γ i = some j → γ i' = some j → i = i'
  funs : ∀ (i j : Nat) p τ body N, γ i = some j → D[j]? = some (.func p τ body N) → FunRel c W γ Δ i p τ body N

/-- The two states are the same.  `γ` is about what is declared outside functions, `κ` about what is visible; `loc` is what belongs to the
function that is run. -/
structure Rel (top : Bool) (γ : Map) (Δ : List Decl) (loc : Nat → Prop) (κ : Map) (E : Env) (L : Vars) (S : SState ω) (T : NState ω)
    (N : Names) : Prop where
  wf : E.WF
  world : T.world = S.world
  glob : GRel c W γ Δ T.things S.vars
  names : NamesRel κ N E.vis
  ents : Ents κ E.decls T.things (fun i v => (loc i → L i = some v) ∧ (¬ loc i → S.vars i = some v))
  agree : ∀ i j, κ i = some j → ¬ loc i → γ i = some j
  older : ∀ (i : Nat) d, ¬ loc i → E.decls[i]? = some d → Still d Δ[i]?
  sep : ∀ i j, κ i = some j → loc i → ∀ i', γ i' ≠ some j
  inj : ∀ i i' j, κ i = some j → κ i' = some j → i = i'
  funs : ∀ (i j : Nat) ps τ, κ i = some j → E.decls[i]? = some (.func ps τ) → ¬ loc i
  lloc : ∀ i, L i ≠ none → loc i
  mode : match top with
    | true => γ = κ ∧ Δ = E.decls ∧ ∀ i, ¬ loc i
    | false => ∀ i, E.decls.length ≤ i → loc i

/-- What an expression does to the state. -/
structure Stepped (γ : Map) (Δ : List Decl) (T : NState ω) (S' : SState ω) (T' : NState ω) : Prop where
  world : T'.world = S'.world
  glob : GRel c W γ Δ T'.things S'.vars
  evo : Evolves T.things T'.things
  keep : ∀ j, (∀ i, γ i ≠ some j) → j < T.things.length → T'.things[j]? = T.things[j]?

variable {c W} {top : Bool} {γ : Map} {Δ : List Decl} {loc : Nat → Prop} {κ : Map} {E : Env} {L : Vars} {S : SState ω} {T : NState ω}
  {N : Names}

theorem Stepped.refl (hw : T.world = S.world) (hg : GRel c W γ Δ T.things S.vars) : Stepped c W γ Δ T S T :=
  ⟨hw, hg, .refl _, fun _ _ _ => rfl⟩

theorem Stepped.trans {S₁ S₂ : SState ω} {T₁ T₂ : NState ω} (h : Stepped c W γ Δ T S₁ T₁) (h' : Stepped c W γ Δ T₁ S₂ T₂) :
    Stepped c W γ Δ T S₂ T₂ := by
  refine ⟨h'.world, h'.glob, h.evo.trans h'.evo, fun j hj hl => ?_⟩
  rw [h'.keep j hj (Nat.lt_of_lt_of_le hl h.evo.len), h.keep j hj hl]

theorem Rel.step {S' : SState ω} {T' : NState ω} (h : Rel c W top γ Δ loc κ E L S T N) (hs : Stepped c W γ Δ T S' T') :
    Rel c W top γ Δ loc κ E L S' T' N := by
  refine { h with world := hs.world, glob := hs.glob, ents := ?_ }
  intro i j hi
  obtain ⟨d, x, h1, h2, h3, h4⟩ := h.ents i j hi
  by_cases hl : loc i
  · refine ⟨d, x, h1, ?_, h3, fun τ v hx => ⟨(h4 τ v hx).1, fun h => absurd hl h⟩⟩
    rw [hs.keep j (h.sep i j hi hl) (lt_of_get h2)]
    exact h2
  · obtain ⟨x', g1, g2⟩ := hs.evo j x h2
    refine ⟨d, x', h1, g1, h3.evo g2, fun τ v hx => ⟨fun h => absurd h hl, fun _ => ?_⟩⟩
    obtain ⟨d', y, _, k2, _, k4⟩ := hs.glob.ents i j (h.agree i j hi hl)
    rw [g1] at k2
    cases k2
    exact k4 τ v hx

theorem GRel.back {γ' : Map} {Δ' : List Decl} {D D' : List Thing} {vars vars' : Vars} (h : GRel c W γ Δ D vars)
    (h' : GRel c W γ' Δ' D' vars') (hs : Sub γ γ') (he : Evolves D D') : GRel c W γ Δ D' vars' := by
  refine ⟨fun i j hi => ?_, h.inj, fun i j p τ body N hi hj => ?_⟩
  · obtain ⟨d, x, h1, h2, h3, _⟩ := h.ents i j hi
    obtain ⟨x', g1, g2⟩ := he j x h2
    refine ⟨d, x', h1, g1, h3.evo g2, fun τ v hx => ?_⟩
    obtain ⟨_, y, _, k2, _, k4⟩ := h'.ents i j (hs i j hi)
    rw [g1] at k2
    cases k2
    exact k4 τ v hx
  · obtain ⟨d, x, _, h2, _⟩ := h.ents i j hi
    obtain ⟨x', g1, g2⟩ := he j x h2
    rw [hj] at g1
    cases g1
    cases g2 with
    | same => exact h.funs i j p τ body N hi h2

/-- Back to the names of before. -/
theorem Rel.back {γ' : Map} {Δ' : List Decl} {κ' : Map} {E' : Env} {L' : Vars} {S' : SState ω} {T' : NState ω} {N' : Names}
    (h : Rel c W top γ Δ loc κ E L S T N) (h' : Rel c W top γ' Δ' loc κ' E' L' S' T' N') (hs : Sub κ κ')
    (hm : top = false → γ' = γ ∧ Δ' = Δ) (he : Evolves T.things T'.things) : Rel c W top γ Δ loc κ E L' S' T' N := by
  have hsg : Sub γ γ' := by
    cases top with
    | false => rw [(hm rfl).1]; exact .refl _
    | true => rw [h.mode.1, h'.mode.1]; exact hs
  refine { h with world := h'.world, glob := h.glob.back h'.glob hsg he, ents := fun i j hi => ?_, lloc := h'.lloc }
  obtain ⟨d, x, h1, h2, h3, _⟩ := h.ents i j hi
  obtain ⟨x', g1, g2⟩ := he j x h2
  refine ⟨d, x', h1, g1, h3.evo g2, fun τ v hx => ?_⟩
  obtain ⟨_, y, _, k2, _, k4⟩ := h'.ents i j (hs i j hi)
  rw [g1] at k2
  cases k2
  exact k4 τ v hx

/-- At the end of a block the variables of the function are those of before. -/
theorem Rel.only {L' : Vars} {S' : SState ω} {T' : NState ω} (h : Rel c W top γ Δ loc κ E L S T N)
    (h' : Rel c W top γ Δ loc κ E L' S' T' N) (he : Evolves T.things T'.things) : Rel c W top γ Δ loc κ E (L.only L') S' T' N := by
  refine { h' with ents := fun i j hi => ?_, lloc := fun i hi => ?_ }
  · obtain ⟨d, x, h1, h2, h3, h4⟩ := h'.ents i j hi
    refine ⟨d, x, h1, h2, h3, fun τ v hx => ⟨fun hl => ?_, (h4 τ v hx).2⟩⟩
    obtain ⟨d₀, x₀, _, g2, _, g4⟩ := h.ents i j hi
    obtain ⟨x', k1, k2⟩ := he j x₀ g2
    rw [h2] at k1
    cases k1
    subst hx
    unfold Vars.only
    cases k2 with
    | same => rw [(g4 τ v rfl).1 hl]; exact (h4 τ v rfl).1 hl
    | var => rw [(g4 τ _ rfl).1 hl]; exact (h4 τ v rfl).1 hl
  · apply h'.lloc i
    unfold Vars.only at hi
    split at hi
    · exact hi
    · exact absurd rfl hi

/-- Variables that are declared in a block are not there afterwards, but their numbers are not used again. -/
theorem Rel.longer {E' : Env} (h : Rel c W top γ Δ loc κ E L S T N) (hg : EnvGrows E E') (hv : E'.vis = E.vis) :
    ∃ Δ', Rel c W top γ Δ' loc κ E' L S T N ∧ (top = false → Δ' = Δ) := by
  have hsame : ∀ i j, κ i = some j → E'.decls[i]? = E.decls[i]? := by
    intro i j hi
    obtain ⟨d, _, h1, _⟩ := h.ents i j hi
    exact hg.ext.same i (lt_of_get h1)
  have hents : Ents κ E'.decls T.things (fun i v => (loc i → L i = some v) ∧ (¬ loc i → S.vars i = some v)) := by
    intro i j hi
    rw [hsame i j hi]
    exact h.ents i j hi
  have hfuns : ∀ (i j : Nat) ps τ, κ i = some j → E'.decls[i]? = some (.func ps τ) → ¬ loc i := by
    intro i j ps τ hi hd
    rw [hsame i j hi] at hd
    exact h.funs i j ps τ hi hd
  cases top with
  | false =>
    refine ⟨Δ, { h with wf := hg.wf, names := by rw [hv]; exact h.names, ents := hents, funs := hfuns, older := ?_, mode := ?_ }, fun _ => rfl⟩
    · intro i d hl hd
      apply h.older i d hl
      rw [← hg.ext.same i]
      · exact hd
      · exact Nat.lt_of_not_le fun h' => hl (h.mode i h')
    · intro i hi
      exact h.mode i (Nat.le_trans hg.ext.len hi)
  | true =>
    obtain ⟨m1, m2, m3⟩ := h.mode
    refine ⟨E'.decls, { h with wf := hg.wf, names := by rw [hv]; exact h.names, ents := hents, funs := hfuns, older := fun i d _ hd => .inl hd,
                               mode := ⟨m1, rfl, m3⟩, glob := ?_ }, fun e => by cases e⟩
    refine ⟨fun i j hi => ?_, h.glob.inj, fun i j p τ body N' hi hj => ?_⟩
    · have := h.glob.ents i j hi
      rw [m2] at this
      rw [m1] at hi
      rw [hsame i j hi]
      exact this
    · refine (h.glob.funs i j p τ body N' hi hj).mono c W (.refl _) ?_
      rw [m2]
      exact .ext hg.ext

/-- Something is declared. -/
theorem Rel.declare {L' : Vars} {S' : SState ω} {x : List Char} {d : Decl} {th : Thing} (h : Rel c W top γ Δ loc κ E L S T N)
    (hd : EntRel (κ.put E.decls.length T.things.length) d th) (hns : ∀ ms, d = .ns ms → ms = [])
    (hv : ∀ τ v, th = .var τ v → (top = false → L' E.decls.length = some v) ∧ (top = true → S'.vars E.decls.length = some v))
    (hL : ∀ i, i ≠ E.decls.length → L' i = L i) (hLt : top = true → L' E.decls.length = none)
    (hS : ∀ i, i ≠ E.decls.length → S'.vars i = S.vars i) (hSf : top = false → S'.vars = S.vars) (hw : S'.world = S.world)
    (hf : ∀ p τ body N', th = .func p τ body N' → top = true ∧
      FunRel c W (κ.put E.decls.length T.things.length) (E.decls ++ [d]) E.decls.length p τ body N') :
    ∃ γ' Δ', Rel c W top γ' Δ' loc (κ.put E.decls.length T.things.length) (E.add x d) L' S' ⟨T.things ++ [th], T.world⟩
        ((x, T.things.length) :: N) ∧ (top = false → γ' = γ ∧ Δ' = Δ) := by
  have hfresh : ∀ j, κ E.decls.length ≠ some j := by
    intro j hj
    obtain ⟨_, _, h1, _⟩ := h.ents _ j hj
    have := lt_of_get h1
    omega
  have hsub : Sub κ (κ.put E.decls.length T.things.length) := by
    intro i j hi
    have hne : i ≠ E.decls.length := fun e => hfresh j (by rw [← e]; exact hi)
    rw [Map.put_ne _ hne]
    exact hi
  have hcell : ∀ i j, κ i = some j → j < T.things.length := by
    intro i j hi
    obtain ⟨_, _, _, h2, _⟩ := h.ents _ j hi
    exact lt_of_get h2
  have hgcell : ∀ i j, γ i = some j → j < T.things.length := by
    intro i j hi
    obtain ⟨_, _, _, h2, _⟩ := h.glob.ents _ j hi
    exact lt_of_get h2
  have hcases : ∀ i j, κ.put E.decls.length T.things.length i = some j →
      (i = E.decls.length ∧ j = T.things.length) ∨ (i ≠ E.decls.length ∧ κ i = some j) := by
    intro i j hi
    by_cases e : i = E.decls.length
    · subst e
      rw [Map.put_self] at hi
      cases hi
      exact .inl ⟨rfl, rfl⟩
    · rw [Map.put_ne _ e] at hi
      exact .inr ⟨e, hi⟩
  have hinj : ∀ i i' j, κ.put E.decls.length T.things.length i = some j → κ.put E.decls.length T.things.length i' = some j → i = i' := by
    intro i i' j h1 h2
    rcases hcases i j h1 with ⟨rfl, rfl⟩ | ⟨_, k1⟩
    · rcases hcases i' _ h2 with ⟨rfl, _⟩ | ⟨_, k2⟩
      · rfl
      · have := hcell _ _ k2; omega
    · rcases hcases i' _ h2 with ⟨rfl, rfl⟩ | ⟨_, k2⟩
      · have := hcell _ _ k1; omega
      · exact h.inj i i' j k1 k2
  have hnew : (E.add x d).decls[E.decls.length]? = some d := by simp [Env.add]
  have hold : ∀ i, i < E.decls.length → (E.add x d).decls[i]? = E.decls[i]? := fun i hi => by
    simp only [Env.add]; rw [List.getElem?_append_left hi]
  have hents : Ents (κ.put E.decls.length T.things.length) (E.add x d).decls (T.things ++ [th])
      (fun i v => (loc i → L' i = some v) ∧ (¬ loc i → S'.vars i = some v)) := by
    intro i j hi
    rcases hcases i j hi with ⟨rfl, rfl⟩ | ⟨hne, hi⟩
    · refine ⟨d, th, hnew, by simp, hd, fun τ v hx => ?_⟩
      have := hv τ v hx
      cases top with
      | false => exact ⟨fun _ => this.1 rfl, fun hl => absurd (h.mode _ (Nat.le_refl _)) hl⟩
      | true => exact ⟨fun hl => absurd hl (h.mode.2.2 _), fun _ => this.2 rfl⟩
    · obtain ⟨d', x', h1, h2, h3, h4⟩ := h.ents i j hi
      refine ⟨d', x', by rw [hold i (lt_of_get h1)]; exact h1, get_append h2 _, h3.sub hsub, fun τ v hx => ?_⟩
      dsimp only
      rw [hL i hne, hS i hne]
      exact h4 τ v hx
  have hfuns : ∀ (i j : Nat) ps τ, κ.put E.decls.length T.things.length i = some j → (E.add x d).decls[i]? = some (.func ps τ) → ¬ loc i := by
    intro i j ps τ hi hdi
    rcases hcases i j hi with ⟨rfl, rfl⟩ | ⟨hne, hi⟩
    · rw [hnew] at hdi
      cases hdi
      cases th with
      | func p τ' body N' =>
        have := (hf p τ' body N' rfl).1
        subst this
        exact h.mode.2.2 _
      | _ => cases hd
    · obtain ⟨d', x', h1, _⟩ := h.ents i j hi
      rw [hold i (lt_of_get h1)] at hdi
      exact h.funs i j ps τ hi hdi
  have hlloc : ∀ i, L' i ≠ none → loc i := by
    intro i hi
    by_cases e : i = E.decls.length
    · subst e
      cases top with
      | false => exact h.mode _ (Nat.le_refl _)
      | true => exact absurd (hLt rfl) hi
    · rw [hL i e] at hi
      exact h.lloc i hi
  have hnames : NamesRel (κ.put E.decls.length T.things.length) ((x, T.things.length) :: N) (E.add x d).vis :=
    ⟨rfl, Map.put_self _ _ _, h.names.sub hsub⟩
  cases top with
  | false =>
    have hloc := h.mode
    refine ⟨γ, Δ, ⟨h.wf.add x hns, h.world.trans hw.symm, ?_, hnames, hents, ?_, ?_, ?_, hinj, hfuns, hlloc, ?_⟩, fun _ => ⟨rfl, rfl⟩⟩
    · rw [hSf rfl]
      refine ⟨fun i j hi => ?_, h.glob.inj, fun i j p τ body N' hi hj => ?_⟩
      · obtain ⟨d', x', h1, h2, h3, h4⟩ := h.glob.ents i j hi
        exact ⟨d', x', h1, get_append h2 _, h3, h4⟩
      · have hj' : (T.things ++ [th])[j]? = some (.func p τ body N') := hj
        rw [List.getElem?_append_left (hgcell i j hi)] at hj'
        exact h.glob.funs i j p τ body N' hi hj'
    · intro i j hi hl
      rcases hcases i j hi with ⟨rfl, rfl⟩ | ⟨_, hi⟩
      · exact absurd (hloc _ (Nat.le_refl _)) hl
      · exact h.agree i j hi hl
    · intro i d' hl hd'
      apply h.older i d' hl
      rw [← hold i]
      · exact hd'
      · exact Nat.lt_of_not_le fun h' => hl (hloc i h')
    · intro i j hi hl i' hi'
      rcases hcases i j hi with ⟨rfl, rfl⟩ | ⟨_, hi⟩
      · have := hgcell _ _ hi'; omega
      · exact h.sep i j hi hl i' hi'
    · intro i hi
      simp only [Env.add, List.length_append, List.length_cons, List.length_nil] at hi
      exact hloc i (by omega)
  | true =>
    obtain ⟨m1, m2, m3⟩ := h.mode
    refine ⟨κ.put E.decls.length T.things.length, (E.add x d).decls, ⟨h.wf.add x hns, h.world.trans hw.symm, ?_, hnames, hents,
      fun i j hi _ => hi, fun i d' _ hd' => .inl hd', fun i j _ hl => absurd hl (m3 i), hinj, hfuns, hlloc, rfl, rfl, m3⟩, fun e => by cases e⟩
    refine ⟨fun i j hi => ?_, hinj, fun i j p τ body N' hi hj => ?_⟩
    · obtain ⟨d', x', h1, h2, h3, h4⟩ := hents i j hi
      exact ⟨d', x', h1, h2, h3, fun τ v hx => (h4 τ v hx).2 (m3 i)⟩
    · rcases hcases i j hi with ⟨rfl, rfl⟩ | ⟨_, hi⟩
      · have hj' : (T.things ++ [th])[T.things.length]? = some (.func p τ body N') := hj
        rw [List.getElem?_append_right (Nat.le_refl _)] at hj'
        simp at hj'
        exact (hf _ _ _ _ hj').2
      · have hj' : (T.things ++ [th])[j]? = some (.func p τ body N') := hj
        rw [List.getElem?_append_left (hcell i j hi)] at hj'
        have := h.glob.funs i j p τ body N' (by rw [m1]; exact hi) hj'
        rw [m1, m2] at this
        exact this.mono c W hsub (.append _ _)

/-- A variable gets a value. -/
theorem Rel.assign {id j : Nat} {τ : Ty} {v v₀ : Val} (h : Rel c W top γ Δ loc κ E L S T N) (hi : κ id = some j)
    (hj : T.things[j]? = some (.var τ v₀)) :
    ((L id).isSome = true ∧ Rel c W top γ Δ loc κ E (L.set id v) S ⟨T.things.set j (.var τ v), T.world⟩ N) ∨
    ((L id).isSome = false ∧ (S.vars id).isSome = true ∧
      Rel c W top γ Δ loc κ E L { S with vars := S.vars.set id v } ⟨T.things.set j (.var τ v), T.world⟩ N) := by
  obtain ⟨d, x, h1, h2, h3, h4⟩ := h.ents id j hi
  rw [hj] at h2
  cases h2
  have hset : ∀ k, k ≠ j → (T.things.set j (.var τ v))[k]? = T.things[k]? := fun k hk => List.getElem?_set_ne (fun e => hk e.symm)
  have hself : (T.things.set j (.var τ v))[j]? = some (.var τ v) := List.getElem?_set_self (lt_of_get hj)
  by_cases hl : loc id
  · left
    refine ⟨by rw [(h4 τ v₀ rfl).1 hl]; rfl, { h with glob := ?_, ents := ?_, lloc := ?_ }⟩
    · refine ⟨fun i k hk => ?_, h.glob.inj, fun i k p τ' body N' hk hb => ?_⟩
      · obtain ⟨d', x', g1, g2, g3, g4⟩ := h.glob.ents i k hk
        exact ⟨d', x', g1, by rw [hset k (fun e => h.sep id j hi hl i (e ▸ hk))]; exact g2, g3, g4⟩
      · have hb' : (T.things.set j (.var τ v))[k]? = some (.func p τ' body N') := hb
        rw [hset k (fun e => h.sep id j hi hl i (e ▸ hk))] at hb'
        exact h.glob.funs i k p τ' body N' hk hb'
    · intro i k hk
      by_cases e : i = id
      · subst e
        rw [hi] at hk
        cases hk
        refine ⟨d, _, h1, hself, ?_, fun τ' v' hx => ?_⟩
        · cases d <;> exact h3
        · cases hx
          exact ⟨fun _ => by simp [Vars.set], fun h => absurd hl h⟩
      · obtain ⟨d', x', g1, g2, g3, g4⟩ := h.ents i k hk
        refine ⟨d', x', g1, by rw [hset k (fun e' => e (h.inj i id j (e' ▸ hk) hi))]; exact g2, g3, fun τ' v' hx => ?_⟩
        simp only [Vars.set, if_neg e]
        exact g4 τ' v' hx
    · intro i hi'
      by_cases e : i = id
      · exact e ▸ hl
      · simp only [Vars.set, if_neg e] at hi'
        exact h.lloc i hi'
  · right
    have hg := h.agree id j hi hl
    have hLn : L id = none := by
      cases hL : L id with
      | none => rfl
      | some _ => exact absurd (h.lloc id (by rw [hL]; simp)) hl
    refine ⟨by rw [hLn]; rfl, by rw [(h4 τ v₀ rfl).2 hl]; rfl, { h with glob := ?_, ents := ?_ }⟩
    · refine ⟨fun i k hk => ?_, h.glob.inj, fun i k p τ' body N' hk hb => ?_⟩
      · by_cases e : i = id
        · subst e
          rw [hg] at hk
          cases hk
          obtain ⟨d', x', g1, g2, g3, g4⟩ := h.glob.ents i j hg
          rw [hj] at g2
          cases g2
          refine ⟨d', _, g1, hself, ?_, fun τ' v' hx => ?_⟩
          · cases d' <;> exact g3
          · cases hx
            simp [Vars.set]
        · obtain ⟨d', x', g1, g2, g3, g4⟩ := h.glob.ents i k hk
          refine ⟨d', x', g1, by rw [hset k (fun e' => e (h.glob.inj i id j (e' ▸ hk) hg))]; exact g2, g3, fun τ' v' hx => ?_⟩
          simp only [Vars.set, if_neg e]
          exact g4 τ' v' hx
      · have hb' : (T.things.set j (.var τ v))[k]? = some (.func p τ' body N') := hb
        by_cases e : k = j
        · subst e
          rw [hself] at hb'
          cases hb'
        · rw [hset k e] at hb'
          exact h.glob.funs i k p τ' body N' hk hb'
    · intro i k hk
      by_cases e : i = id
      · subst e
        rw [hi] at hk
        cases hk
        refine ⟨d, _, h1, hself, ?_, fun τ' v' hx => ?_⟩
        · cases d <;> exact h3
        · cases hx
          exact ⟨fun h => absurd h hl, fun _ => by simp [Vars.set]⟩
      · obtain ⟨d', x', g1, g2, g3, g4⟩ := h.ents i k hk
        refine ⟨d', x', g1, by rw [hset k (fun e' => e (h.inj i id j (e' ▸ hk) hi))]; exact g2, g3, fun τ' v' hx => ?_⟩
        simp only [Vars.set, if_neg e]
        exact g4 τ' v' hx

theorem evolves_set_var {D : List Thing} {j τ v₀} (hj : D[j]? = some (.var τ v₀)) (v : Val) : Evolves D (D.set j (.var τ v)) := by
  intro k x hx
  by_cases e : j = k
  · subst e
    rw [hj] at hx
    cases hx
    exact ⟨_, List.getElem?_set_self (lt_of_get hj), .var⟩
  · exact ⟨x, by rw [List.getElem?_set_ne e]; exact hx, .same⟩

end
end Skull.Elab
