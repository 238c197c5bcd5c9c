import Verif.Proofs.DirectSim
/-
Running a tree directly and running the checked tree gives the same: the induction.
-/
namespace Skull.Elab
open Skull.Spec

section
variable {ω : Type} (c : RunCtx ω) (W : World)

/-- The same world for the interpreter that knows names. -/
def direct : NCtx ω := ⟨c.arith, W.strtod, c.ext⟩

def ValRel (γ : Map) (Δ : List Decl) (T : NState ω) (τ : Ty) (r : (Val × Ty) × NState ω) (r' : Val × SState ω) : Prop :=
  r.1.1 = r'.1 ∧ r.1.2 = τ ∧ Stepped c W γ Δ T r'.2 r.2

def ArgsRel (γ : Map) (Δ : List Decl) (T : NState ω) (τs : List Ty) (r : List (Val × Ty) × NState ω) (r' : List Val × SState ω) : Prop :=
  r.1.map Prod.fst = r'.1 ∧ r.1.map Prod.snd = τs ∧ Stepped c W γ Δ T r'.2 r.2

def EvalAt (n : Nat) : Prop := ∀ {top γ Δ loc κ E L S T N e a}, Rel c W top γ Δ loc κ E L S T N → ElE W E e a →
  Same (ValRel c W γ Δ T a.type) (evalN (direct c W) n e N T) (evalE c n a L S)

def ArgsAt (n : Nat) : Prop := ∀ {top γ Δ loc κ E L S T N e a τs}, Rel c W top γ Δ loc κ E L S T N → ElA W E e a τs →
  Same (ArgsRel c W γ Δ T τs) (argsN (direct c W) n e N T) (evalA c n a L S)

def CallAt (n : Nat) : Prop := ∀ {γ : Map} {Δ : List Decl} {S : SState ω} {T : NState ω} {i j : Nat} {ps τ} {vs : List (Val × Ty)},
  T.world = S.world → GRel c W γ Δ T.things S.vars → γ i = some j → Δ[i]? = some (.func ps τ) → vs.map Prod.snd = ps →
  Same (ValRel c W γ Δ T τ) (callN (direct c W) n j vs T) (callF c n i (vs.map Prod.fst) S)

def ExecAt (n : Nat) : Prop := ∀ {top γ Δ loc κ E L S T N chain t a E'}, Rel c W top γ Δ loc κ E L S T N → ElT W c.syms E t a E' →
  FlatFuncs (!top) t → (∀ q ∈ decls a, q ∈ decls c.prog) →
  Same (Post c W top γ Δ loc κ E E' T N) (execN (direct c W) n chain t N T) (execT c n top chain a L S)

def ThenAt (n : Nat) : Prop := ∀ {top γ Δ loc κ E L S T N child child' E₁ next next' E₂ E'}, Rel c W top γ Δ loc κ E L S T N →
  ElT W c.syms E child child' E₁ → EnvGrows E E₂ → E₂.vis = E.vis → ElT W c.syms E₂ next next' E' →
  FlatFuncs (!top) child → FlatFuncs (!top) next → (∀ q ∈ decls child', q ∈ decls c.prog) → (∀ q ∈ decls next', q ∈ decls c.prog) →
  Same (Post c W top γ Δ loc κ E E' T N) (thenN (direct c W) n child next N T) (andThen c n top child' next' L S)

def LoopRel (top : Bool) (γ : Map) (Δ : List Decl) (loc : Nat → Prop) (κ : Map) (E : Env) (T : NState ω) (N : Names) (r : NOut × NState ω)
    (r' : Out × SState ω) : Prop :=
  Kept γ κ T r.2 ∧
  match r.1, r'.1 with
  | .normal N', .normal L' => N' = N ∧ Rel c W top γ Δ loc κ E L' r'.2 r.2 N
  | .returned v, .returned v' => v = v' ∧ r.2.world = r'.2.world ∧ GRel c W γ Δ r.2.things r'.2.vars
  | _, _ => False

def LoopAt (n : Nat) : Prop := ∀ {top γ Δ loc κ E L S T N e a child child' E₁}, Rel c W top γ Δ loc κ E L S T N → ElE W E e a →
  ElT W c.syms E child child' E₁ → FlatFuncs (!top) child → (∀ q ∈ decls child', q ∈ decls c.prog) →
  Same (LoopRel c W top γ Δ loc κ E T N) (loopN (direct c W) n e child N T) (loopW c n top a child' L S)

structure SimAt (n : Nat) : Prop where
  eval : EvalAt c W n
  args : ArgsAt c W n
  call : CallAt c W n
  exec : ExecAt c W n
  next : ThenAt c W n
  loop : LoopAt c W n

variable {c W}

theorem sim_eval {n} (ih : SimAt c W n) : EvalAt c W (n + 1) := by
  intro top γ Δ loc κ E L S T N e a h he
  cases he with
  | ident h1 h2 h3 =>
    rename_i t t' x id τ m cc
    obtain ⟨j, g1, g2⟩ := standsFor_of h.ents h.names h1 h2
    obtain ⟨d, th, k1, k2, k3, k4⟩ := h.ents id j g2
    rw [h3] at k1
    cases k1
    simp only [evalN, evalE]
    rw [g1, Option.bind_some, k2]
    cases th with
    | var τ' v =>
      cases k3
      have := k4 τ v rfl
      by_cases hl : loc id
      · rw [this.1 hl]
        exact ⟨rfl, rfl, .refl h.world h.glob⟩
      · have hL : L id = none := by
          cases hL : L id with
          | none => rfl
          | some _ => exact absurd (h.lloc id (by rw [hL]; simp)) hl
        rw [hL, this.2 hl]
        exact ⟨rfl, rfl, .refl h.world h.glob⟩
    | _ => cases k3
  | const h1 =>
    simp only [evalN, evalE]
    have : (direct c W).strtod = W.strtod := rfl
    rw [this, h1]
    exact ⟨rfl, rfl, .refl h.world h.glob⟩
  | call h1 h2 h3 h4 =>
    rename_i nm nm' f id ps τ args as num
    obtain ⟨j, g1, g2⟩ := standsFor_of h.ents h.names h1 h2
    simp only [evalN, evalE]
    rw [g1]
    simp only
    have hl := h.funs id j ps τ g2 h3
    have hγ := h.agree id j g2 hl
    have hΔ : Δ[id]? = some (.func ps τ) := by
      rcases h.older id _ hl h3 with h | ⟨e, _⟩
      · exact h
      · cases e
    rcases (ih.args h h4).cases with ⟨e1, e2⟩ | ⟨⟨vs, T₁⟩, ⟨vs', S₁⟩, e1, e2, rfl, r2, r3⟩
    · rw [e1, e2]; trivial
    · rw [e1, e2]
      simp only
      rcases (ih.call r3.world r3.glob hγ hΔ r2).cases with ⟨e1, e2⟩ | ⟨⟨v, T₂⟩, ⟨v', S₂⟩, e1, e2, q1, q2, q3⟩
      · rw [e1, e2]; trivial
      · rw [e1, e2]
        exact ⟨q1, q2, r3.trans q3⟩
  | un h1 =>
    rename_i o e a cc
    simp only [evalN, evalE]
    rcases (ih.eval h h1).cases with ⟨e1, e2⟩ | ⟨⟨⟨v, τ⟩, T₁⟩, ⟨v', S₁⟩, e1, e2, r1, r2, r3⟩
    · rw [e1, e2]; trivial
    · simp only at r1 r2
      subst r1 r2
      rw [e1, e2]
      simp only
      have : (direct c W).arith = c.arith := rfl
      rw [this]
      cases c.arith.un o a.type v with
      | none => trivial
      | some z => exact ⟨rfl, rfl, r3⟩
  | bin h1 h2 =>
    rename_i o l r la ra cc
    simp only [evalN, evalE]
    rcases (ih.eval h h1).cases with ⟨e1, e2⟩ | ⟨⟨⟨x, τ⟩, T₁⟩, ⟨x', S₁⟩, e1, e2, r1, r2, r3⟩
    · rw [e1, e2]; trivial
    · simp only at r1 r2
      subst r1 r2
      rw [e1, e2]
      simp only
      rcases (ih.eval (h.step r3) h2).cases with ⟨e1, e2⟩ | ⟨⟨⟨y, τ⟩, T₂⟩, ⟨y', S₂⟩, e1, e2, r1, r2, r4⟩
      · rw [e1, e2]; trivial
      · simp only at r1 r2
        subst r1 r2
        rw [e1, e2]
        simp only
        have : (direct c W).arith = c.arith := rfl
        rw [this]
        cases c.arith.bin o ra.type x y with
        | none => trivial
        | some z => exact ⟨rfl, rfl, r3.trans r4⟩

theorem sim_args {n} (ih : SimAt c W n) : ArgsAt c W (n + 1) := by
  intro top γ Δ loc κ E L S T N e a τs h he
  cases he with
  | nil =>
    simp only [argsN, evalA]
    exact ⟨rfl, rfl, .refl h.world h.glob⟩
  | cons h1 h2 =>
    simp only [argsN, evalA]
    rcases (ih.eval h h1).cases with ⟨e1, e2⟩ | ⟨⟨⟨x, τ⟩, T₁⟩, ⟨x', S₁⟩, e1, e2, r1, r2, r3⟩
    · rw [e1, e2]; trivial
    · simp only at r1 r2
      subst r1 r2
      rw [e1, e2]
      simp only
      rcases (ih.args (h.step r3) h2).cases with ⟨e1, e2⟩ | ⟨⟨vs, T₂⟩, ⟨vs', S₂⟩, e1, e2, r1, r2, r4⟩
      · rw [e1, e2]; trivial
      · simp only at r1 r2
        rw [e1, e2]
        exact ⟨by simp [r1], by simp [r2], r3.trans r4⟩

theorem ParamsOk.length {E ps τs E'} (h : ParamsOk W E ps τs E') : ps.length = τs.length := by
  induction h with
  | nil => rfl
  | cons _ _ _ _ _ _ ih => simp [ih]

theorem sim_call {n} (ih : SimAt c W n) : CallAt c W (n + 1) := by
  intro γ Δ S T i j ps τ vs hw hg hi hd hv
  obtain ⟨d, th, h1, h2, h3, _⟩ := hg.ents i j hi
  rw [hd] at h1
  cases h1
  cases th with
  | func p τ' body N =>
    cases h3
    obtain ⟨E, f, τs, E₁, E₂, body', hf⟩ := hg.funs i j p τ body N hi h2
    have hps : τs = ps := by
      have : (E.decls ++ [.func τs τ])[i]? = some (.func τs τ) := by rw [← hf.len]; simp
      rcases hf.older i _ this with h | ⟨e, _⟩
      · rw [hd] at h; cases h; rfl
      · cases e
    subst hps
    simp only [callN, callF]
    rw [h2, hf.found]
    obtain ⟨sym, ff, s1, s2, s3, s4, s5⟩ := hf.fact
    obtain ⟨sname, slink, sloc, sused, skind⟩ := sym
    simp only at s2 s5
    subst s2
    rw [s1]
    have hlen : p.params.length = vs.length := by rw [ParamsOk.length hf.params, ← hv, List.length_map]
    have hlen' : (List.range' (i + 1) τs.length).length = (vs.map Prod.fst).length := by simp [← hv]
    simp only
    rw [if_pos hlen, if_pos hlen', s4]
    cases hx : p.isExternal with
    | true =>
      simp only [if_true]
      rw [show tokenToString p.name = some slink from s5 hx]
      simp only
      have : (direct c W).ext = c.ext := rfl
      rw [this, hw]
      cases c.ext slink (vs.map Prod.fst) S.world with
      | none => trivial
      | some r => exact ⟨rfl, rfl, rfl, hg, .refl _, fun _ _ _ => rfl⟩
    | false =>
      simp only [Bool.false_eq_true, if_false]
      obtain ⟨N₁, m, κ₁, g1, g2, g3⟩ := enter hg hf hv
      rw [g1]
      simp only
      rw [hw]
      rcases (ih.exec g2 hf.elabs hf.flat (hf.inProg hx)).cases with ⟨e1, e2⟩ | ⟨⟨o, T'⟩, ⟨o', S'⟩, e1, e2, k, hp⟩
      · rw [e1, e2]; trivial
      · rw [e1, e2, s3]
        simp only
        have hst : T'.world = S'.world → GRel c W γ Δ T'.things S'.vars → Stepped c W γ Δ T S' T' := by
          intro q1 q2
          refine ⟨q1, q2, (Evolves.append T.things m).trans k.evo, fun j hj hl => ?_⟩
          rw [k.keep j hj (fun i' hi' => ?_) (by simp; omega)]
          · exact List.getElem?_append_left hl
          · rcases g3 i' j hi' with h | h
            · exact hj i' h
            · omega
        cases o <;> cases o' <;> first | exact hp.elim | skip
        · obtain ⟨γ', Δ', κ', m'⟩ := hp
          obtain ⟨rfl, rfl⟩ := m'.same rfl
          simp only [NOut.result, Out.result]
          by_cases hτ : τ = Void'
          · subst hτ
            exact ⟨rfl, rfl, hst m'.rel.world m'.rel.glob⟩
          · rw [if_neg hτ]; trivial
        · trivial
        · trivial
        · obtain ⟨rfl, q1, q2⟩ := hp
          rename_i v
          cases v with
          | none =>
            simp only [NOut.result, Out.result]
            by_cases hτ : τ = Void'
            · subst hτ
              exact ⟨rfl, rfl, hst q1 q2⟩
            · rw [if_neg hτ]; trivial
          | some v =>
            simp only [NOut.result, Out.result]
            by_cases hτ : τ = Void'
            · subst hτ
              trivial
            · rw [if_neg hτ]; exact ⟨rfl, rfl, hst q1 q2⟩
  | _ => cases h3

theorem sim_then {n} (ih : SimAt c W n) : ThenAt c W (n + 1) := by
  intro top γ Δ loc κ E L S T N child child' E₁ next next' E₂ E' h h1 hgr hvis h2 f1 f2 d1 d2
  simp only [thenN, andThen]
  rcases (ih.exec (chain := false) h h1 f1 d1).cases with ⟨e1, e2⟩ | ⟨⟨o, T'⟩, ⟨o', S'⟩, e1, e2, k, hp⟩
  · rw [e1, e2]; trivial
  · rw [e1, e2]
    cases o <;> cases o' <;> first | exact hp.elim | skip
    · obtain ⟨γ', Δ', κ', m'⟩ := hp
      have r1 := h.only (h.back m'.rel m'.sub m'.same k.evo) k.evo
      obtain ⟨Δ₂, m₂⟩ := Move.longer (⟨r1, .refl _, fun _ _ h => .inl h, fun _ => ⟨rfl, rfl⟩, k⟩ : Move c W top γ Δ loc κ T γ Δ κ E _ S' T' N) hgr hvis
      exact Same.after h m₂ (ih.exec m₂.rel h2 f2 d2)
    · exact ⟨k, h.only hp k.evo⟩
    · exact ⟨k, h.only hp k.evo⟩
    · exact ⟨k, hp⟩

theorem LoopRel.after {top γ Δ loc κ E L L₁ N} {S S₁ : SState ω} {T T₁ : NState ω} {o o'} (h : Rel c W top γ Δ loc κ E L S T N)
    (m : Move c W top γ Δ loc κ T γ Δ κ E L₁ S₁ T₁ N) (hp : Same (LoopRel c W top γ Δ loc κ E T₁ N) o o') :
    Same (LoopRel c W top γ Δ loc κ E T N) o o' := by
  rcases hp.cases with ⟨rfl, rfl⟩ | ⟨a, b, rfl, rfl, hk, hp⟩
  · trivial
  · exact ⟨m.kept_trans h hk, hp⟩

theorem sim_loop {n} (ih : SimAt c W n) : LoopAt c W (n + 1) := by
  intro top γ Δ loc κ E L S T N e a child child' E₁ h he h1 f1 d1
  simp only [loopN, loopW]
  rcases (ih.eval h he).cases with ⟨e1, e2⟩ | ⟨⟨⟨x, τ⟩, T₁⟩, ⟨x', S₁⟩, e1, e2, r1, _, r3⟩
  · rw [e1, e2]; trivial
  · simp only at r1
    subst r1
    rw [e1, e2]
    have m₁ := h.moved r3
    cases x with
    | bool b =>
      cases b with
      | false => exact ⟨m₁.kept, rfl, m₁.rel⟩
      | true =>
        simp only
        rcases (ih.exec (chain := false) m₁.rel h1 f1 d1).cases with ⟨e1, e2⟩ | ⟨⟨o, T'⟩, ⟨o', S'⟩, e1, e2, k, hp⟩
        · rw [e1, e2]; trivial
        · rw [e1, e2]
          have hk := m₁.kept_trans h k
          have key : ∀ L', Rel c W top γ Δ loc κ E L' S' T' N → Move c W top γ Δ loc κ T γ Δ κ E (L.only L') S' T' N := fun L' r =>
            ⟨m₁.rel.only r k.evo, .refl _, fun _ _ h => .inl h, fun _ => ⟨rfl, rfl⟩, hk⟩
          cases o <;> cases o' <;> first | exact hp.elim | skip
          · obtain ⟨γ', Δ', κ', m'⟩ := hp
            have m₂ := key _ (m₁.rel.back m'.rel m'.sub m'.same k.evo)
            exact LoopRel.after h m₂ (ih.loop m₂.rel he h1 f1 d1)
          · have m₂ := key _ hp
            exact ⟨hk, rfl, m₂.rel⟩
          · have m₂ := key _ hp
            exact LoopRel.after h m₂ (ih.loop m₂.rel he h1 f1 d1)
          · exact ⟨hk, hp⟩
    | _ => trivial


theorem move_declare {top γ Δ loc κ E L L' N x d th} {S S' : SState ω} {T : NState ω} (h : Rel c W top γ Δ loc κ E L S T N)
    (hd : EntRel (κ.put E.decls.length T.things.length) d th) (hns : ∀ ms, d = .ns ms → ms = [])
    (hv : ∀ τ v, th = .var τ v → (top = false → L' E.decls.length = some v) ∧ (top = true → S'.vars E.decls.length = some v))
    (hL : ∀ i, i ≠ E.decls.length → L' i = L i) (hLt : top = true → L' E.decls.length = none)
    (hS : ∀ i, i ≠ E.decls.length → S'.vars i = S.vars i) (hSf : top = false → S'.vars = S.vars) (hw : S'.world = S.world)
    (hf : ∀ p τ body N', th = .func p τ body N' → top = true ∧
      FunRel c W (κ.put E.decls.length T.things.length) (E.decls ++ [d]) E.decls.length p τ body N') :
    ∃ γ' Δ', Move c W top γ Δ loc κ T γ' Δ' (κ.put E.decls.length T.things.length) (E.add x d) L' S' ⟨T.things ++ [th], T.world⟩
        ((x, T.things.length) :: N) := by
  obtain ⟨γ', Δ', h1, h2⟩ := h.declare (x := x) hd hns hv hL hLt hS hSf hw hf
  refine ⟨γ', Δ', h1, fun i j hi => ?_, fun i j hi => ?_, h2, .append _ _, fun j _ _ hl => List.getElem?_append_left hl⟩
  · have hne : i ≠ E.decls.length := by
      intro e
      obtain ⟨_, _, g1, _⟩ := h.ents i j hi
      have := lt_of_get g1
      omega
    rw [Map.put_ne _ hne]
    exact hi
  · by_cases e : i = E.decls.length
    · subst e
      rw [Map.put_self] at hi
      cases hi
      exact .inr (Nat.le_refl _)
    · rw [Map.put_ne _ e] at hi
      exact .inl hi

theorem Rel.lnone {top γ Δ loc κ E L N} {S : SState ω} {T : NState ω} (h : Rel c W top γ Δ loc κ E L S T N) (ht : top = true) (i : Nat) :
    L i = none := by
  subst ht
  cases hL : L i with
  | none => rfl
  | some _ => exact absurd (h.lloc i (by rw [hL]; simp)) (h.mode.2.2 i)

theorem sim_exec {n} (ih : SimAt c W n) (hnd : ((decls c.prog).map Prod.fst).Nodup) : ExecAt c W (n + 1) := by
  intro top γ Δ loc κ E L S T N chain t a E' h hT hflat hdecl
  cases hT with
  | nil =>
    simp only [execN, execT]
    exact ⟨.refl _ _ _, _, _, _, .refl h⟩
  | node hS hgr hnext =>
    rename_i E₁ stmt tok te child next ann child' next'
    have hfn : FlatFuncs (!top) next := hflat.2
    have hdn : ∀ q ∈ decls next', q ∈ decls c.prog := fun q hq => hdecl q (decls_next hq)
    cases hS with
    | comment =>
      simp only [execN, execT]
      exact ih.exec h hnext hfn hdn
    | noop =>
      simp only [execN, execT]
      exact ih.exec h hnext hfn hdn
    | imports =>
      simp only [execN, execT]
      exact ih.exec h hnext hfn hdn
    | unknown =>
      simp only [execN, execT]
      trivial
    | unreachable =>
      simp only [execN, execT]
      trivial
    | breaks =>
      simp only [execN, execT]
      exact ⟨.refl _ _ _, h⟩
    | continues =>
      simp only [execN, execT]
      exact ⟨.refl _ _ _, h⟩
    | retNone =>
      simp only [execN, execT]
      exact ⟨.refl _ _ _, rfl, h.world, h.glob⟩
    | ret hm he =>
      rename_i e a
      cases e with
      | missing => exact absurd rfl hm
      | _ =>
        simp only [execN, execT]
        rcases (ih.eval h he).cases with ⟨e1, e2⟩ | ⟨⟨⟨x, τ⟩, T₁⟩, ⟨x', S₁⟩, e1, e2, r1, _, r3⟩
        · rw [e1, e2]; trivial
        · simp only at r1
          subst r1
          rw [e1, e2]
          exact ⟨r3.kept _, rfl, r3.world, r3.glob⟩
    | «alias» h1 h2 h3 =>
      rename_i t ts name cst imp exp e x σ τ
      simp only [execN, execT]
      rw [typeFrom_of h.ents h.names h1 rfl]
      have ht : (List.head? (t :: ts)).bind tokenToString = some x := h3
      simp only
      rw [ht]
      obtain ⟨γ', Δ', m⟩ := move_declare (x := x) (d := .alias τ) (th := .alias (typeFrom T.things N ts.tail)) (L' := L) (S' := S) h
        (by
          cases τ with
          | none => exact .inl rfl
          | some τ => exact .inr (typeFrom_of h.ents h.names h2 rfl))
        (fun _ e => by cases e) (fun _ _ e => by cases e) (fun _ _ => rfl) (fun e => h.lnone e _) (fun _ _ => rfl) (fun _ => rfl) rfl
        (fun _ _ _ _ e => by cases e)
      exact Same.after h m (ih.exec m.rel hnext hfn hdn)
    | var h1 h2 h3 =>
      rename_i nm ns cst imp exp e a x m
      simp only [execN, execT]
      rw [typeFrom_none h.ents h.names h1]
      simp only
      rcases (ih.eval h h2).cases with ⟨e1, e2⟩ | ⟨⟨⟨v, τ⟩, T₁⟩, ⟨v', S₁⟩, e1, e2, r1, r2, r3⟩
      · rw [e1, e2]; trivial
      · simp only at r1 r2
        subst r1 r2
        rw [e1, e2]
        have ht : (List.head? (nm :: ns)).bind tokenToString = some x := h3
        simp only
        rw [ht]
        simp only
        have m₁ := h.moved r3
        cases top with
        | true =>
          simp only [if_true]
          obtain ⟨γ', Δ', m⟩ := move_declare (x := x) (d := .var a.type m) (th := .var a.type v) (L' := L)
            (S' := { S₁ with vars := S₁.vars.set E.decls.length v }) m₁.rel
            rfl (fun _ e => by cases e) (fun _ _ e => by cases e; exact ⟨fun e => by (cases e), fun _ => by simp [Vars.set]⟩)
            (fun _ _ => rfl) (fun e => h.lnone e _) (fun i hi => by simp [Vars.set, hi]) (fun e => by cases e) rfl
            (fun _ _ _ _ e => by cases e)
          exact Same.after h (m₁.trans h m) (ih.exec m.rel hnext hfn hdn)
        | false =>
          simp only [Bool.false_eq_true, if_false]
          obtain ⟨γ', Δ', m⟩ := move_declare (x := x) (d := .var a.type m) (th := .var a.type v) (L' := L.set E.decls.length v)
            (S' := S₁) m₁.rel
            rfl (fun _ e => by cases e) (fun _ _ e => by cases e; exact ⟨fun _ => by simp [Vars.set], fun e => by (cases e)⟩)
            (fun i hi => by simp [Vars.set, hi]) (fun e => by cases e) (fun _ _ => rfl) (fun _ => rfl) rfl
            (fun _ _ _ _ e => by cases e)
          exact Same.after h (m₁.trans h m) (ih.exec m.rel hnext hfn hdn)
    | assign h1 h2 h3 h4 =>
      rename_i t ts e a x id m
      simp only [execN, execT]
      rcases (ih.eval h h4).cases with ⟨e1, e2⟩ | ⟨⟨⟨v, τ⟩, T₁⟩, ⟨v', S₁⟩, e1, e2, r1, r2, r3⟩
      · rw [e1, e2]; trivial
      · simp only at r1 r2
        subst r1 r2
        rw [e1, e2]
        have m₁ := h.moved r3
        obtain ⟨j, g1, g2⟩ := standsFor_of m₁.rel.ents m₁.rel.names h1 h2
        obtain ⟨d, th, k1, k2, k3, k4⟩ := m₁.rel.ents id j g2
        rw [h3] at k1
        cases k1
        have ht : (List.head? (t :: ts)).bind (standsFor T₁.things N) = some j := g1
        simp only
        rw [ht]
        simp only
        rw [k2]
        cases th with
        | var τ' v₀ =>
          cases k3
          have hk : Kept γ κ T₁ (⟨T₁.things.set j (.var a.type v), T₁.world⟩ : NState ω) := by
            refine ⟨evolves_set_var k2 v, fun j' _ hκ _ => ?_⟩
            exact List.getElem?_set_ne (fun e => hκ id (by rw [← e]; exact g2))
          simp only
          rcases m₁.rel.assign (v := v) g2 k2 with ⟨q1, q2⟩ | ⟨q1, q2, q3⟩
          · rw [if_pos q1]
            have m₂ := m₁.trans h ⟨q2, .refl _, fun _ _ h => .inl h, fun _ => ⟨rfl, rfl⟩, hk⟩
            exact Same.after h m₂ (ih.exec m₂.rel hnext hfn hdn)
          · rw [if_neg (by rw [q1]; simp), if_pos q2]
            have m₂ := m₁.trans h ⟨q3, .refl _, fun _ _ h => .inl h, fun _ => ⟨rfl, rfl⟩, hk⟩
            exact Same.after h m₂ (ih.exec m₂.rel hnext hfn hdn)
        | _ => cases k3
    | call h1 =>
      rename_i nm args num a
      simp only [execN]
      have ha : ∃ nm' as id τ, a = .call nm' as id τ := by
        cases h1 with
        | call => exact ⟨_, _, _, _, rfl⟩
      obtain ⟨nm', as, id, τ, rfl⟩ := ha
      simp only [execT]
      rcases (ih.eval h h1).cases with ⟨e1, e2⟩ | ⟨⟨v, T₁⟩, ⟨v', S₁⟩, e1, e2, _, _, r3⟩
      · rw [e1, e2]; trivial
      · rw [e1, e2]
        have m₁ := h.moved r3
        exact Same.after h m₁ (ih.exec m₁.rel hnext hfn hdn)
    | ifs he hc =>
      rename_i E₃ e a
      simp only [execN, execT]
      rcases (ih.eval h he).cases with ⟨e1, e2⟩ | ⟨⟨⟨v, τ⟩, T₁⟩, ⟨v', S₁⟩, e1, e2, r1, r2, r3⟩
      · rw [e1, e2]; trivial
      · simp only at r1 r2
        subst r1 r2
        rw [e1, e2]
        have m₁ := h.moved r3
        cases v with
        | bool b =>
          cases b with
          | true =>
            obtain ⟨E₄, g1, g2, g3⟩ := chain_of hnext hgr.wf
            exact Same.after h m₁ (ih.next m₁.rel hc (hgr.trans g3) g2 g1 hflat.1 (flat_chain hfn)
              (fun q hq => hdecl q (decls_child (fun _ e => by cases e) hq)) (fun q hq => hdn q (decls_chain hq)))
          | false =>
            obtain ⟨Δ₂, m₂⟩ := m₁.longer hgr rfl
            exact Same.after h m₂ (ih.exec m₂.rel hnext hfn hdn)
        | _ => trivial
    | elifs he hc =>
      rename_i E₃ e a
      simp only [execN, execT]
      cases chain with
      | false => trivial
      | true =>
        simp only [if_true]
        rcases (ih.eval h he).cases with ⟨e1, e2⟩ | ⟨⟨⟨v, τ⟩, T₁⟩, ⟨v', S₁⟩, e1, e2, r1, r2, r3⟩
        · rw [e1, e2]; trivial
        · simp only at r1 r2
          subst r1 r2
          rw [e1, e2]
          have m₁ := h.moved r3
          cases v with
          | bool b =>
            cases b with
            | true =>
              obtain ⟨E₄, g1, g2, g3⟩ := chain_of hnext hgr.wf
              exact Same.after h m₁ (ih.next m₁.rel hc (hgr.trans g3) g2 g1 hflat.1 (flat_chain hfn)
                (fun q hq => hdecl q (decls_child (fun _ e => by cases e) hq)) (fun q hq => hdn q (decls_chain hq)))
            | false =>
              obtain ⟨Δ₂, m₂⟩ := m₁.longer hgr rfl
              exact Same.after h m₂ (ih.exec m₂.rel hnext hfn hdn)
          | _ => trivial
    | elses hc =>
      simp only [execN, execT]
      cases chain with
      | false => trivial
      | true =>
        simp only [if_true]
        exact ih.next h hc hgr rfl hnext hflat.1 hfn (fun q hq => hdecl q (decls_child (fun _ e => by cases e) hq)) hdn
    | whiles he hc =>
      simp only [execN, execT]
      rcases (ih.loop h he hc hflat.1 (fun q hq => hdecl q (decls_child (fun _ e => by cases e) hq))).cases with
        ⟨e1, e2⟩ | ⟨⟨o, T'⟩, ⟨o', S'⟩, e1, e2, k, hp⟩
      · rw [e1, e2]; trivial
      · rw [e1, e2]
        cases o <;> cases o' <;> first | exact hp.elim | skip
        · obtain ⟨rfl, hp⟩ := hp
          obtain ⟨Δ₂, m₂⟩ := Move.longer (⟨hp, .refl _, fun _ _ h => .inl h, fun _ => ⟨rfl, rfl⟩, k⟩ : Move c W top γ Δ loc κ T γ Δ κ E _ S' T' _) hgr rfl
          exact Same.after h m₂ (ih.exec m₂.rel hnext hfn hdn)
        · exact ⟨k, hp⟩
    | ns h1 hc =>
      rename_i E₃ k t ts x
      simp only [execN, execT]
      have ht : (List.head? (List.tail (k :: t :: ts))).bind tokenToString = some x := h1
      rw [ht]
      simp only
      obtain ⟨γ', Δ', m⟩ := move_declare (x := x) (d := .ns []) (th := .ns []) (L' := L) (S' := S) h (.inl rfl)
        (fun _ e => by cases e; rfl) (fun _ _ e => by cases e) (fun _ _ => rfl) (fun e => h.lnone e _) (fun _ _ => rfl) (fun _ => rfl) rfl
        (fun _ _ _ _ e => by cases e)
      rcases (ih.exec (chain := false) m.rel hc hflat.1 (fun q hq => hdecl q (decls_child (fun _ e => by cases e) hq))).cases with
        ⟨e1, e2⟩ | ⟨⟨o, T'⟩, ⟨o', S'⟩, e1, e2, k, hp⟩
      · rw [e1, e2]; trivial
      · rw [e1, e2]
        cases o <;> cases o' <;> first | exact hp.elim | skip
        · obtain ⟨γ₂, Δ₂, κ₂, m₂⟩ := hp
          have mm := m.trans h m₂
          have hw' : (E.add x (.ns [])).WF := h.wf.add x (fun _ e => by cases e; rfl)
          have hd : E₃.decls[E.decls.length]? = some (.ns []) := by
            rw [(hc.grows hw').ext.same _ (by simp [Env.add])]
            simp [Env.add]
          obtain ⟨Δ₃, r, q⟩ := h.closeNs m₂.rel mm.sub (m₂.sub _ _ (Map.put_self _ _ _)) hd hgr.wf
          have hk : ∀ M, Kept γ κ T (⟨T'.things.set T.things.length (.ns M), T'.world⟩ : NState ω) := by
            intro M
            refine ⟨fun j y hy => ?_, fun j h1 h2 hl => ?_⟩
            · rw [List.getElem?_set_ne (Nat.ne_of_gt (lt_of_get hy))]
              exact mm.kept.evo j y hy
            · rw [List.getElem?_set_ne (Nat.ne_of_gt hl)]
              exact mm.kept.keep j h1 h2 hl
          have m₃ : Move c W top γ Δ loc κ T _ _ _ _ _ _ _ _ :=
            ⟨r, mm.sub, mm.fresh, fun e => ⟨(mm.same e).1, by rw [q e]; exact (mm.same e).2⟩, hk _⟩
          exact Same.after h m₃ (ih.exec m₃.rel hnext hfn hdn)
        · exact Post.after (E' := E') (r := (.broke, T')) (r' := (.broke _, S')) h m ⟨k, hp⟩
        · exact Post.after (E' := E') (r := (.continued, T')) (r' := (.continued _, S')) h m ⟨k, hp⟩
        · exact Post.after (E' := E') (r := (.returned _, T')) (r' := (.returned _, S')) h m ⟨k, hp⟩
    | func h1 h2 h3 h4 h5 =>
      rename_i E₃ E₄ p f τ τs
      have htop : top = true := by
        have := hflat.1.1
        cases top
        · cases this
        · rfl
      have hfc : FlatFuncs true child := hflat.1.2
      simp only [execN, execT]
      rw [retFrom_of h.ents h.names h1, show tokenToString p.name = some f from h2]
      simp only
      have hw' : (E.add f (.func τs τ)).WF := h.wf.add f (fun _ e => by cases e)
      have hself : (E.decls.length, List.range' (E.decls.length + 1) τs.length, child') ∈ decls c.prog := hdecl _ (by simp [decls])
      have hsub : Sub κ (κ.put E.decls.length T.things.length) := by
        intro i j hi
        have hne : i ≠ E.decls.length := by
          intro e
          obtain ⟨_, _, g1, _⟩ := h.ents i j hi
          have := lt_of_get g1
          omega
        rw [Map.put_ne _ hne]
        exact hi
      obtain ⟨γ', Δ', m⟩ := move_declare (x := f) (d := .func τs τ) (th := .func p τ child ((f, T.things.length) :: N)) (L' := L) (S' := S) h rfl
        (fun _ e => by cases e) (fun _ _ e => by cases e) (fun _ _ => rfl) (fun e => h.lnone e _) (fun _ _ => rfl) (fun _ => rfl) rfl
        (fun p' τ' body N' e => by
          cases e
          exact ⟨htop, E, f, τs, E₃, E₄, child', {
            len := rfl
            wf := h.wf
            names := ⟨rfl, Map.put_self _ _ _, h.names.sub hsub⟩
            older := fun i d hd => .inl hd
            params := h3
            elabs := h4
            found := find_of_nodup hnd hself
            fact := h5
            flat := hfc
            inProg := fun hx q hq => hdecl q (by simp only [decls, hx]; simp [hq]) }⟩)
      have hg : EnvGrows (E.add f (.func τs τ)) E₄ := by
        obtain ⟨a1, a2, a3⟩ := h3.grows hw'
        exact EnvGrows.trans ⟨a1, a2, a3⟩ (h4.grows a2)
      obtain ⟨Δ₂, m₂⟩ := m.longer (hg.leave hw') rfl
      exact Same.after h m₂ (ih.exec m₂.rel hnext hfn hdn)

theorem sim (hnd : ((decls c.prog).map Prod.fst).Nodup) : ∀ n, SimAt c W n
  | 0 => by
    refine ⟨?_, ?_, ?_, ?_, ?_, ?_⟩
    · intro _ _ _ _ _ _ _ _ _ _ _ _ _ _; simp only [evalN, evalE]; trivial
    · intro _ _ _ _ _ _ _ _ _ _ _ _ _ _ _; simp only [argsN, evalA]; trivial
    · intro _ _ _ _ _ _ _ _ _ _ _ _ _ _; simp only [callN, callF]; trivial
    · intro _ _ _ _ _ _ _ _ _ _ _ _ _ _ _ _ _ _; simp only [execN, execT]; trivial
    · intro _ _ _ _ _ _ _ _ _ _ _ _ _ _ _ _ _ _ _ _ _ _ _ _ _ _; simp only [thenN, andThen]; trivial
    · intro _ _ _ _ _ _ _ _ _ _ _ _ _ _ _ _ _ _ _ _; simp only [loopN, loopW]; trivial
  | n + 1 => ⟨sim_eval (sim hnd n), sim_args (sim hnd n), sim_call (sim hnd n), sim_exec (sim hnd n) hnd, sim_then (sim hnd n), sim_loop (sim hnd n)⟩

end
end Skull.Elab

namespace Skull.Elab
open Skull.Spec

/-- The numbers of the functions of a part of the program. -/
def Numbered (lo hi : Nat) (a : ATree) : Prop :=
  (∀ q ∈ decls a, lo ≤ q.1 ∧ q.1 < hi) ∧ ((decls a).map Prod.fst).Nodup

theorem Numbered.nil (lo hi : Nat) : Numbered lo hi .nil := ⟨(fun _ h => by cases h), .nil⟩

theorem numbered_append {lo mid hi : Nat} {l m : List (Nat × List Nat × ATree)} (h1 : ∀ q ∈ l, lo ≤ q.1 ∧ q.1 < mid) (h2 : (l.map Prod.fst).Nodup)
    (g1 : ∀ q ∈ m, mid ≤ q.1 ∧ q.1 < hi) (g2 : (m.map Prod.fst).Nodup) (hlo : lo ≤ mid) (hhi : mid ≤ hi) :
    (∀ q ∈ l ++ m, lo ≤ q.1 ∧ q.1 < hi) ∧ ((l ++ m).map Prod.fst).Nodup := by
  refine ⟨fun q hq => ?_, ?_⟩
  · rcases List.mem_append.1 hq with hq | hq
    · have := h1 q hq; omega
    · have := g1 q hq; omega
  · rw [List.map_append, List.nodup_append]
    refine ⟨h2, g2, fun a ha b hb e => ?_⟩
    obtain ⟨q, hq, rfl⟩ := List.mem_map.1 ha
    obtain ⟨q', hq', rfl⟩ := List.mem_map.1 hb
    have := h1 q hq
    have := g1 q' hq'
    omega

theorem Numbered.wider {lo lo' hi hi' : Nat} {a : ATree} (h : Numbered lo hi a) (h1 : lo' ≤ lo) (h2 : hi ≤ hi') : Numbered lo' hi' a :=
  ⟨fun q hq => by have := h.1 q hq; omega, h.2⟩

theorem numbered_node {lo mid hi : Nat} {ann stmt tok child next} (hs : ∀ p, stmt ≠ .funcProto p) (h : Numbered lo mid child)
    (h' : Numbered mid hi next) (hlo : lo ≤ mid) (hhi : mid ≤ hi) : Numbered lo hi (.node ann stmt tok child next) := by
  have hd : decls (.node ann stmt tok child next) = decls child ++ decls next := by
    rw [decls]
    intro _ _ p _ e
    exact hs p e
  unfold Numbered
  rw [hd]
  exact numbered_append h.1 h.2 h'.1 h'.2 hlo hhi

theorem numbered {W : World} {syms} : ∀ {t : Tree} {E a E'}, ElT W syms E t a E' → E.WF → Numbered E.decls.length E'.decls.length a
  | .nil, _, _, _, h, _ => by cases h; exact .nil _ _
  | .node stmt tok te child next, E, a, E', h, hw => by
    cases h with
    | node hs hg hn =>
      have hnext := numbered hn hg.wf
      have hl := (hn.grows hg.wf).ext.len
      cases hs with
      | ifs _ h => exact numbered_node (fun _ e => by cases e) (numbered h hw) hnext hg.ext.len hl
      | elifs _ h => exact numbered_node (fun _ e => by cases e) (numbered h hw) hnext hg.ext.len hl
      | elses h => exact numbered_node (fun _ e => by cases e) (numbered h hw) hnext hg.ext.len hl
      | whiles _ h => exact numbered_node (fun _ e => by cases e) (numbered h hw) hnext hg.ext.len hl
      | ns h1 h =>
        rename_i x
        have hw' := hw.add x (d := .ns []) (fun _ e => by cases e; rfl)
        refine numbered_node (fun _ e => by cases e) ((numbered h hw').wider (by simp [Env.add]) (by simp)) hnext hg.ext.len hl
      | func h1 h2 h3 h4 h5 =>
        rename_i child' _ E₁ E₂ p f τ τs
        have hw' := hw.add f (d := .func τs τ) (fun _ e => by cases e)
        obtain ⟨a1, a2, a3⟩ := h3.grows hw'
        have hc := numbered h4 a2
        have hle : E.decls.length + 1 ≤ E₁.decls.length := by have := a1.len; simpa [Env.add] using this
        have hle' := (h4.grows a2).ext.len
        have hin : (∀ q ∈ (if p.isExternal then [] else decls child'), E.decls.length + 1 ≤ q.1 ∧ q.1 < E₂.decls.length) ∧
            ((if p.isExternal then [] else decls child').map Prod.fst).Nodup := by
          cases p.isExternal with
          | true => exact ⟨(fun _ h => by cases h), .nil⟩
          | false => exact ⟨fun q hq => by have := hc.1 q hq; omega, hc.2⟩
        obtain ⟨k1, k2⟩ := numbered_append hin.1 hin.2 hnext.1 hnext.2 (by omega) hl
        unfold Numbered
        simp only [decls]
        refine ⟨fun q hq => ?_, ?_⟩
        · cases hq with
          | head => exact ⟨Nat.le_refl _, Nat.lt_of_lt_of_le (Nat.lt_of_lt_of_le hle hle') hl⟩
          | tail _ hq => have := k1 q hq; omega
        · rw [List.map_cons, List.nodup_cons]
          refine ⟨fun hm => ?_, k2⟩
          obtain ⟨q, hq, e⟩ := List.mem_map.1 hm
          have := k1 q hq
          simp only at e
          omega
      | _ =>
        refine numbered_node (mid := E.decls.length) (fun _ e => by cases e) (.nil _ _) (hnext.wider hg.ext.len (Nat.le_refl _)) (Nat.le_refl _) ?_
        exact Nat.le_trans hg.ext.len hl

/-- A program does the same, told by its tree and told by the checked tree. -/
theorem run_same {ω : Type} {W : World} {A : Arith} {ext : List Char → List Val → ω → Option (Val × ω)} {syms : List Symbol} {t : Tree} {a : ATree}
    {E' : Env} (h : ElT W syms .start t a E') (hf : FlatFuncs false t) (n : Nat) (w : ω) :
    runTree ⟨A, W.strtod, ext⟩ t n w = runProgram ⟨A, ext, syms, a⟩ n w := by
  have hs := (sim (c := ⟨A, ext, syms, a⟩) (W := W) (numbered h .start).2 n).exec (top := true) (γ := fun _ => none) (Δ := Env.start.decls)
    (loc := fun _ => False) (κ := fun _ => none) (E := .start) (L := fun _ => none) (S := ⟨fun _ => none, w⟩) (T := ⟨[], w⟩) (N := []) (chain := false)
    ⟨.start, rfl, ⟨(fun _ _ h => by cases h), (fun _ _ _ h => by cases h), (fun _ _ _ _ _ _ h => by cases h)⟩, trivial, (fun _ _ h => by cases h),
      (fun _ _ h => by cases h), fun _ _ _ h => .inl h, (fun _ _ h => by cases h), (fun _ _ _ h => by cases h), (fun _ _ _ _ h => by cases h),
      (fun _ h => absurd rfl h), rfl, rfl, fun _ h => h⟩ h hf (fun _ hq => hq)
  unfold runTree runProgram
  show (match execN (direct ⟨A, ext, syms, a⟩ W) n false t [] ⟨[], w⟩ with | some (.normal _, S) => _ | some (.returned (some (.int i)), S) => _ | _ => _) = _
  rcases hs.cases with ⟨e1, e2⟩ | ⟨⟨o, T'⟩, ⟨o', S'⟩, e1, e2, hk, hp⟩
  · rw [e1, e2]
  · clear hk
    rw [e1, e2]
    cases o <;> cases o' <;> first | exact hp.elim | skip
    · obtain ⟨_, _, _, m⟩ := hp
      simp only [show T'.world = S'.world from m.rel.world]
    · rfl
    · rfl
    · rename_i v v'
      obtain ⟨hv, hw, _⟩ := hp
      have hv' : v = v' := hv
      subst hv'
      have hw' : T'.world = S'.world := hw
      cases v with
      | none => rfl
      | some v => cases v <;> simp only [hw']

end Skull.Elab
