import Verif.Proofs.LProgram
import Verif.Spec.Verified
import Verif.Spec.Checked
/-
The code of expressions and statements is code that LLVM accepts.
-/
namespace Skull.LVer
open Spec

/-- The later functions are the same but for their blocks, and have the blocks of the earlier ones. -/
structure Later (M M' : List LFunc) (G G' : List LGlobal) : Prop where
  heads : Heads M M'
  blocks : ∀ f b code, blockOf M f b = some code → ∃ code', blockOf M' f b = some code'
  globals : G.length ≤ G'.length

theorem Later.refl {M G} : Later M M G G := ⟨.refl M, fun _ _ _ h => ⟨_, h⟩, Nat.le_refl _⟩
theorem Later.trans {M M' M'' G G' G''} (h : Later M M' G G') (h' : Later M' M'' G' G'') : Later M M'' G G'' := by
  refine ⟨h.heads.trans h'.heads, fun f b code hc => ?_, Nat.le_trans h.globals h'.globals⟩
  obtain ⟨_, h1⟩ := h.blocks f b code hc
  exact h'.blocks f b _ h1

theorem Later.func {M M' G G'} (h : Later M M' G G') {g : Nat} {x : LFunc} (hx : M[g]? = some x) :
    ∃ y, M'[g]? = some y ∧ y.params = x.params ∧ y.ret = x.ret ∧ y.isPrivate = x.isPrivate := by
  obtain ⟨y, h1, h2, _⟩ := h.heads g x hx
  have e1 := congrArg LFunc.params h2
  have e2 := congrArg LFunc.ret h2
  have e3 := congrArg LFunc.isPrivate h2
  exact ⟨y, h1, e1, e2, e3⟩

theorem Later.result {M M' G G'} (h : Later M M' G G') {i r τ} (hr : resultOf M i = some (r, τ)) : resultOf M' i = some (r, τ) := by
  cases i with
  | call n g args =>
    simp only [resultOf, Option.map_eq_some_iff] at hr ⊢
    obtain ⟨x, h1, h2⟩ := hr
    obtain ⟨y, h3, _, h4, _⟩ := h.func h1
    exact ⟨y, h3, by rw [h4]; exact h2⟩
  | _ => exact hr

theorem val_mono {M M' G G' f P P' v τ} (h : Later M M' G G') (hP : ∀ r τ, P r τ → P' r τ) (hv : ValIs M G f P v τ) : ValIs M' G' f P' v τ := by
  cases v with
  | global g => exact ⟨Nat.lt_of_lt_of_le hv.1 h.globals, hv.2⟩
  | param i =>
    obtain ⟨x, ty, h1, h2, h3⟩ := hv
    obtain ⟨y, h4, h5, _⟩ := h.func h1
    exact ⟨y, ty, h4, by rw [h5]; exact h2, h3⟩
  | reg r => exact hP r τ hv
  | _ => exact hv

theorem args_mono {M M' G G' f P P' vs tys} (h : Later M M' G G') (hP : ∀ r τ, P r τ → P' r τ) (hv : ArgsAre M G f P vs tys) :
    ArgsAre M' G' f P' vs tys := by
  induction hv with
  | nil => exact .nil
  | cons h1 _ ih => exact .cons (val_mono h hP h1) ih

theorem Later.target {M M' G G' f b} (h : Later M M' G G') (ht : TargetOk M f b) : TargetOk M' f b :=
  ⟨ht.1, h.blocks _ _ _ ht.2.choose_spec⟩

theorem instr_mono {M M' G G' f P P' i} (h : Later M M' G G') (hP : ∀ r τ, P r τ → P' r τ) (hi : InstrIs M G f P i) : InstrIs M' G' f P' i := by
  cases i with
  | bin r op a b => obtain ⟨τ, h1, h2, h3⟩ := hi; exact ⟨τ, h1, val_mono h hP h2, val_mono h hP h3⟩
  | load r ty p => exact ⟨hi.1, val_mono h hP hi.2⟩
  | store v p => obtain ⟨⟨τ, h1, h2⟩, h3⟩ := hi; exact ⟨⟨τ, h1, val_mono h hP h2⟩, val_mono h hP h3⟩
  | alloca r ty => exact hi
  | call r g args =>
    obtain ⟨x, h1, h2⟩ := hi
    obtain ⟨y, h3, h4, _⟩ := h.func h1
    exact ⟨y, h3, by rw [h4]; exact args_mono h hP h2⟩
  | builtin r g a b => exact ⟨val_mono h hP hi.1, val_mono h hP hi.2⟩
  | br t => obtain ⟨b, h1, h2⟩ := hi; exact ⟨b, h1, h.target h2⟩
  | condBr c t e => exact ⟨val_mono h hP hi.1, h.target hi.2.1, h.target hi.2.2⟩
  | ret v =>
    obtain ⟨x, h1, h2, h3⟩ := hi
    obtain ⟨y, h4, _, h5, _⟩ := h.func h1
    exact ⟨y, h4, by rw [h5]; exact h2, by rw [h5]; exact val_mono h hP h3⟩
  | retVoid =>
    obtain ⟨x, h1, h2⟩ := hi
    obtain ⟨y, h4, _, h5, _⟩ := h.func h1
    exact ⟨y, h4, by rw [h5]; exact h2⟩
  | unreachable => trivial

/-- Registers that may be used, with their types. -/
abbrev Set' : Type := Nat → LTy → Prop

/-- After some code. -/
def After (M : List LFunc) (P : Set') (is : List LInstr) : Set' := fun r τ => P r τ ∨ ∃ i ∈ is, resultOf M i = some (r, τ)

theorem After.nil {M P r τ} : After M P [] r τ ↔ P r τ := by simp [After]
theorem After.append {M P is js r τ} : After M P (is ++ js) r τ ↔ After M (After M P is) js r τ := by
  simp only [After, List.mem_append]
  constructor
  · rintro (h | ⟨i, h | h, h'⟩)
    · exact .inl (.inl h)
    · exact .inl (.inr ⟨i, h, h'⟩)
    · exact .inr ⟨i, h, h'⟩
  · rintro ((h | ⟨i, h, h'⟩) | ⟨i, h, h'⟩)
    · exact .inl h
    · exact .inr ⟨i, .inl h, h'⟩
    · exact .inr ⟨i, .inr h, h'⟩
theorem After.sub {M P is r τ} (h : P r τ) : After M P is r τ := .inl h
theorem After.mono {M P P' is} (h : ∀ r τ, P r τ → P' r τ) {r τ} (hr : After M P is r τ) : After M P' is r τ := hr.imp (h r τ) id

/-- Code that may stand where `P` may be used; `A b` may be used in block `b`. -/
def CodeOk (M : List LFunc) (G : List LGlobal) (f : Nat) (A : Nat → Set') (P : Set') (is : List LInstr) : Prop :=
  ∀ pre i post, is = pre ++ i :: post → InstrIs M G f (After M P pre) i ∧ ∀ t ∈ targets i, ∀ r τ, A t r τ → After M P pre r τ

theorem CodeOk.nil {M G f A P} : CodeOk M G f A P [] := by
  intro pre i post h
  simp at h

theorem CodeOk.one {M G f A P i} (h : InstrIs M G f P i) (ht : ∀ t ∈ targets i, ∀ r τ, A t r τ → P r τ) : CodeOk M G f A P [i] := by
  intro pre j post e
  cases pre with
  | nil =>
    cases e
    exact ⟨instr_mono .refl (fun r τ h => .inl h) h, fun t h1 r τ h2 => .inl (ht t h1 r τ h2)⟩
  | cons a pre => simp at e

theorem append_eq_mid {α : Type} {is js pre post : List α} {i : α} (e : is ++ js = pre ++ i :: post) :
    (∃ rest, is = pre ++ i :: rest) ∨ (∃ pre', pre = is ++ pre' ∧ js = pre' ++ i :: post) := by
  rcases List.append_eq_append_iff.1 e with ⟨a, h1, h2⟩ | ⟨c, h1, h2⟩
  · exact .inr ⟨a, h1, h2⟩
  · cases c with
    | nil => exact .inr ⟨[], by simpa using h1.symm, by simpa using h2.symm⟩
    | cons x c =>
      cases h2
      exact .inl ⟨c, h1⟩

theorem CodeOk.append {M G f A P is js} (h : CodeOk M G f A P is) (h' : CodeOk M G f A (After M P is) js) : CodeOk M G f A P (is ++ js) := by
  intro pre i post e
  rcases append_eq_mid e with ⟨rest, h1⟩ | ⟨pre', rfl, h1⟩
  · exact h pre i rest h1
  · obtain ⟨h2, h3⟩ := h' pre' i post h1
    exact ⟨instr_mono .refl (fun r τ h => After.append.2 h) h2, fun t h4 r τ h5 => After.append.2 (h3 t h4 r τ h5)⟩

theorem CodeOk.mono {M M' G G' f A P P' is} (h : CodeOk M G f A P is) (hl : Later M M' G G') (hP : ∀ r τ, P r τ → P' r τ) :
    CodeOk M' G' f A P' is := by
  have key : ∀ pre r τ, After M P pre r τ → After M' P' pre r τ := by
    rintro pre r τ (h | ⟨i, h1, h2⟩)
    · exact .inl (hP _ _ h)
    · exact .inr ⟨i, h1, hl.result h2⟩
  intro pre i post e
  obtain ⟨h1, h2⟩ := h pre i post e
  exact ⟨instr_mono hl (key pre) h1, fun t ht r τ hr => key pre r τ (h2 t ht r τ hr)⟩

/- ### What is known of variables and functions -/

/-- What may be used for the variables and functions `ds` in function `f`, whose own variables are `own`. -/
structure Vis (cfg : LCfg) (M : List LFunc) (G : List LGlobal) (f : Nat) (R : LEnv) (own : List Nat) (ds : List Nat) (P : Set') : Prop where
  vars : ∀ id ∈ ds, ∀ v p, cfg.var id = some v → R.refs id = some p →
    if R.isGlobal id then ∃ g, p = .global g ∧ g < G.length
    else id ∈ own ∧ ValIs M G f P p (if R.isConst id v then lty v.type else .ptr)
  funcs : ∀ id ∈ ds, ∀ sym fn ref, cfg.func id = some (sym, fn) → R.funcRef id = some ref →
    ∃ x, M[ref]? = some x ∧ x.params = fn.paramTypes ∧ x.ret = fn.returnType

theorem Vis.mono {cfg M M' G G' f R own ds P P'} (h : Vis cfg M G f R own ds P) (hl : Later M M' G G') (hP : ∀ r τ, P r τ → P' r τ) :
    Vis cfg M' G' f R own ds P' := by
  refine ⟨fun id hd v p h1 h2 => ?_, fun id hd sym fn ref h1 h2 => ?_⟩
  · have := h.vars id hd v p h1 h2
    split at this
    · rename_i hg
      obtain ⟨g, h3, h4⟩ := this
      rw [if_pos hg]
      exact ⟨g, h3, Nat.lt_of_lt_of_le h4 hl.globals⟩
    · rename_i hg
      rw [if_neg hg]
      exact ⟨this.1, val_mono hl hP this.2⟩
  · obtain ⟨x, h3, h4, h5⟩ := h.funcs id hd sym fn ref h1 h2
    obtain ⟨y, h6, h7, h8, _⟩ := hl.func h3
    exact ⟨y, h6, h7.trans h4, h8.trans h5⟩

theorem Vis.sub {cfg M G f R own ds ds' P} (h : Vis cfg M G f R own ds P) (hd : ∀ id ∈ ds', id ∈ ds) : Vis cfg M G f R own ds' P :=
  ⟨fun id hi => h.vars id (hd id hi), fun id hi => h.funcs id (hd id hi)⟩

/-- The address of a variable. -/
theorem Vis.place {cfg M G f R own ds P} (h : Vis cfg M G f R own ds P) {id v p} (hd : id ∈ ds) (hv : cfg.var id = some v)
    (hr : R.refs id = some p) (hm : (R.isGlobal id || !R.isConst id v) = true) : ValIs M G f P p .ptr := by
  have := h.vars id hd v p hv hr
  split at this
  · obtain ⟨g, rfl, hg⟩ := this
    exact ⟨hg, rfl⟩
  · rename_i hg
    have hc : R.isConst id v = false := by simpa [hg] using hm
    rw [hc] at this
    exact this.2

/-- The value of a constant. -/
theorem Vis.value {cfg M G f R own ds P} (h : Vis cfg M G f R own ds P) {id v p} (hd : id ∈ ds) (hv : cfg.var id = some v)
    (hr : R.refs id = some p) (hm : (R.isGlobal id || !R.isConst id v) = false) : ValIs M G f P p (lty v.type) := by
  have := h.vars id hd v p hv hr
  have hg : R.isGlobal id = false := by cases hx : R.isGlobal id <;> simp [hx] at hm ⊢
  have hc : R.isConst id v = true := by cases hx : R.isConst id v <;> simp [hx, hg] at hm ⊢
  rw [hg, hc] at this
  simpa using this.2

/- ### Expressions -/

theorem val_after {M G f P v τ is} (h : ValIs M G f P v τ) : ValIs M G f (After M P is) v τ := val_mono .refl (fun _ _ h => .inl h) h

theorem bin_ok {cfg : LCfg} {op a b n is v m M G f A P τ} (hf : FoldTyped cfg.fold) (h : BinCode cfg op a b n is v m) (ho : opTakes op τ = true)
    (ha : ValIs M G f P a τ) (hb : ValIs M G f P b τ) : CodeOk M G f A P is ∧ ValIs M G f (After M P is) v (opGives op) := by
  cases h with
  | fold h => exact ⟨.nil, val_after ((hf op a b v h).2.2.2 M G f P τ ho ha hb)⟩
  | instr h => exact ⟨.one ⟨τ, ho, ha, hb⟩ (by simp [targets]), .inr ⟨_, List.mem_singleton.2 rfl, rfl⟩⟩

theorem op_ok {cfg : LCfg} {o ty a b n is v m M G f A P τ σ} (hf : FoldTyped cfg.fold) (h : OpCode cfg o ty a b n is v m) :
    ty = some τ → binType o τ = some σ → ValIs M G f P a (lty τ) → ValIs M G f P b (lty τ) →
    CodeOk M G f A P is ∧ ValIs M G f (After M P is) v (lty σ) := by
  induction h generalizing σ with
  | @bin o ty a b n op is v m h1 h2 =>
    rintro rfl ht ha hb
    have : opTakes op (lty τ) = true ∧ opGives op = lty σ := by
      cases o <;> cases τ <;> (try (rename_i p; cases p)) <;> first | (cases h1; done) | (cases ht; done) | (cases h1; cases ht; exact ⟨rfl, rfl⟩)
    rw [← this.2]
    exact bin_ok hf h2 this.1 ha hb
  | @builtin o ty a b n g h1 =>
    rintro rfl ht ha hb
    have : builtinTakes g = lty τ ∧ builtinGives g = lty σ := by
      cases o <;> cases τ <;> (try (rename_i p; cases p)) <;> first | (cases h1; done) | (cases ht; done) | (cases h1; cases ht; exact ⟨rfl, rfl⟩)
    refine ⟨.one ⟨by rw [this.1]; exact ha, by rw [this.1]; exact hb⟩ (by simp [targets]), .inr ⟨_, List.mem_singleton.2 rfl, ?_⟩⟩
    rw [← this.2]; rfl
  | @isnt ty a b n is v m js w k h1 h2 ih =>
    rintro rfl ht ha hb
    have hs : σ = .prim .bool := by cases ht; rfl
    subst hs
    obtain ⟨h3, h4⟩ := ih (σ := .prim .bool) rfl rfl ha hb
    obtain ⟨h5, h6⟩ := bin_ok (A := A) hf h2 (τ := .i1) rfl h4 rfl
    exact ⟨h3.append h5, val_mono .refl (fun _ _ h => After.append.2 h) h6⟩

theorem var_of {cfg : LCfg} {id sym v v'} (h1 : cfg.syms[id]? = some sym) (h2 : sym.kind = .var v) (h : cfg.var id = some v') : v' = v := by
  unfold LCfg.var at h
  rw [h1] at h
  simp only [h2] at h
  cases h
  rfl

theorem func_of {cfg : LCfg} {id sym sym' f f'} (h1 : cfg.syms[id]? = some sym) (h2 : sym.kind = .func f) (h : cfg.func id = some (sym', f')) :
    f' = f := by
  unfold LCfg.func at h
  rw [h1] at h
  simp only [h2] at h
  cases h
  rfl

theorem wt_ident {syms t id ty c} (h : WtE syms (.ident t id ty c)) : ∃ sym v, syms[id]? = some sym ∧ sym.kind = .var v ∧ ty = v.type := by
  cases h with
  | ident k1 k2 => exact ⟨_, _, k1, k2, rfl⟩

theorem wt_un {syms o r ty c} (ho : o = .not ∨ o = .unaryNeg) (h : WtE syms (.un o r ty c)) : unType o r.type = some ty ∧ WtE syms r := by
  cases h with
  | un k1 k2 => exact ⟨k1, k2⟩
  | ref => simp at ho
  | deref => simp at ho

theorem wt_ref {syms t id ty c ty' c'} (h : WtE syms (.un .ref (.ident t id ty c) ty' c')) : ty' = .ref ty ∧ WtE syms (.ident t id ty c) := by
  cases h with
  | un k _ => cases k
  | ref k => exact ⟨rfl, k⟩

theorem wt_deref {syms t id ty c ty' c'} (h : WtE syms (.un .deref (.ident t id ty c) ty' c')) :
    ty = .ref ty' ∧ WtE syms (.ident t id ty c) := by
  cases h with
  | un k _ => cases k
  | deref k => exact ⟨rfl, k⟩

theorem wt_bin {syms o l r ty c} (h : WtE syms (.bin o l r ty c)) : WtE syms l ∧ WtE syms r ∧ l.type = r.type ∧ binType o r.type = some ty := by
  cases h with
  | bin k1 k2 k3 k4 => exact ⟨k1, k2, k3, k4⟩

theorem wt_call {syms t args id ty} (h : WtE syms (.call t args id ty)) : ∃ sym f, syms[id]? = some sym ∧ sym.kind = .func f ∧
    f.numParams = f.paramTypes.length ∧ WtA syms f.paramTypes args ∧ ty = f.returnType := by
  cases h with
  | call k1 k2 k3 k4 => exact ⟨_, _, k1, k2, k3, k4, rfl⟩

theorem lty_void {ty : Ty} (h : ty ≠ .prim .void) : lty ty ≠ .void := by
  intro h'
  apply h
  cases ty with
  | ref t => cases h'
  | prim p => cases p <;> first | rfl | cases h'

theorem not_address {syms r} (h : WtE syms r) (hr : ∀ t, r.type ≠ .ref t) : isAddress r = false := by
  cases hx : isAddress r with
  | false => rfl
  | true =>
    exfalso
    unfold isAddress at hx
    split at hx
    · cases h with
      | un k _ => cases k
      | ref k => exact hr _ rfl
    · cases hx

theorem result_bin {o : Oper} {ty σ : Ty} (h : binType o ty = some σ) : resultFor o (some ty) = some σ := by
  cases o <;> cases ty <;> (try (rename_i p; cases p)) <;> first | (cases h; done) | (cases h; rfl)

theorem neg_type {ty σ : Ty} (h : unType .unaryNeg ty = some σ) : (ty = .prim .int ∨ ty = .prim .float) ∧ σ = ty ∧ binType .sub ty = some ty := by
  cases ty with
  | ref t => cases h
  | prim p => cases p <;> cases h <;> simp [binType]

theorem not_type {ty σ : Ty} (h : unType .not ty = some σ) : ty = .prim .bool ∧ σ = .prim .bool := by
  cases ty with
  | ref t => cases h
  | prim p => cases p <;> cases h; exact ⟨rfl, rfl⟩

mutual
theorem expr_ok {cfg : LCfg} (hf : FoldTyped cfg.fold) {R M G f A own ds n e is x m} {P : Set'} : ECode cfg R n e is x m → Vis cfg M G f R own ds P →
    WtE cfg.syms e → soundE cfg.syms own e = true → (∀ id, e.reads id = true ∨ e.calls id = true → id ∈ ds) →
    CodeOk M G f A P is ∧ ValIs M G f (After M P is) x.val (lty e.type) ∧ (isAddress e = false → x.ty = some e.type)
  | .load (v := v) h1 h2 h3, hv, hw, hs, hn => by
    obtain ⟨sym, v', k1, k2, rfl⟩ := wt_ident hw
    cases var_of k1 k2 h1
    have hp := hv.place (hn _ (.inl (by simp [AExpr.reads]))) h1 h2 h3
    have hnv : lty v.type ≠ .void := lty_void (by simpa [soundE] using hs)
    exact ⟨.one ⟨hnv, hp⟩ (by simp [targets]), .inr ⟨_, List.mem_singleton.2 rfl, rfl⟩, fun _ => rfl⟩
  | .value h1 h2 h3, hv, hw, hs, hn => by
    obtain ⟨sym, v', k1, k2, rfl⟩ := wt_ident hw
    cases var_of k1 k2 h1
    exact ⟨.nil, val_after (hv.value (hn _ (.inl (by simp [AExpr.reads]))) h1 h2 h3), fun _ => rfl⟩
  | .const (v := v), hv, hw, hs, hn => by
    refine ⟨.nil, ?_, fun _ => rfl⟩
    cases v <;> rfl
  | .call (id := id) h1 h2 h3, hv, hw, hs, hn => by
    simp only [soundE, Bool.and_eq_true] at hs
    obtain ⟨sym, fn, k1, k2, k3, k4, rfl⟩ := wt_call hw
    cases func_of k1 k2 h1
    obtain ⟨y, h4, h5, h6⟩ := hv.funcs id (hn id (.inr (by simp [AExpr.calls]))) _ _ _ h1 h3
    obtain ⟨h7, h8⟩ := args_ok (A := A) hf h2 k3 hv k4 hs.2 (fun i h => hn i (by
      simp only [AExpr.reads, AExpr.calls, Bool.or_eq_true]; exact h.imp (fun x => x) .inr))
    refine ⟨h7.append (.one ⟨y, h4, by rw [h5]; exact h8⟩ (by simp [targets])), .inr ⟨_, List.mem_append.2 (.inr (List.mem_singleton.2 rfl)), ?_⟩, fun _ => rfl⟩
    simp [resultOf, h4, h6, AExpr.type]
  | .ref (id := id) h1 h2, hv, hw, hs, hn => by
    obtain ⟨rfl, hw'⟩ := wt_ref hw
    obtain ⟨sym, v', k1, k2, rfl⟩ := wt_ident hw'
    cases var_of k1 k2 h1
    have hin : id ∈ ds := hn _ (.inl (by simp [AExpr.reads]))
    refine ⟨.nil, val_after (hv.place hin h1 h2 ?_), fun h => by cases h⟩
    have hx := hv.vars _ hin _ _ h1 h2
    split at hx
    · rename_i hg; rw [hg]; rfl
    · simp only [soundE, isConstVar, k1, k2, List.contains_eq_mem, hx.1, decide_true, Bool.true_and, Bool.not_eq_true'] at hs
      unfold LEnv.isConst
      rw [hs]
      simp
  | .deref (id := id) (v := v) (inner := inner) (p := p) h1 h2 h3, hv, hw, hs, hn => by
    obtain ⟨e1, hw'⟩ := wt_deref hw
    obtain ⟨sym, v', k1, k2, e2⟩ := wt_ident hw'
    cases var_of k1 k2 h1
    have e3 := e1.symm.trans e2
    rw [← e3] at h3 ⊢
    cases h3
    have hin : id ∈ ds := hn _ (.inl (by simp [AExpr.reads]))
    have hp : ValIs M G f P p .ptr := by
      cases hm : (R.isGlobal id || !R.isConst id v) with
      | true => exact hv.place hin h1 h2 hm
      | false =>
        have := hv.value hin h1 h2 hm
        rw [← e3] at this
        exact this
    have hnv := lty_void (by
      simp only [soundE, Bool.and_eq_true, decide_eq_true_eq] at hs
      exact hs.1)
    exact ⟨CodeOk.append (is := [_]) (.one ⟨by simp [lty], hp⟩ (by simp [targets])) (.one ⟨hnv, .inr ⟨_, List.mem_singleton.2 rfl, rfl⟩⟩ (by simp [targets])),
      .inr ⟨_, .tail _ (.head _), rfl⟩, fun _ => rfl⟩
  | .not (r := r) h1 h2, hv, hw, hs, hn => by
    obtain ⟨k1, k2⟩ := wt_un (.inl rfl) hw
    obtain ⟨r1, rfl⟩ := not_type k1
    have hs' : soundE cfg.syms own r = true := by
      simp only [soundE, Bool.and_eq_true] at hs
      exact hs.2
    obtain ⟨h3, h4, _⟩ := expr_ok (A := A) hf h1 hv k2 hs' (fun id h => hn id (by simpa [AExpr.reads, AExpr.calls] using h))
    rw [r1] at h4
    obtain ⟨h5, h6⟩ := bin_ok (A := A) hf h2 (τ := .i1) rfl h4 rfl
    exact ⟨h3.append h5, val_mono .refl (fun _ _ h => After.append.2 h) h6, fun _ => rfl⟩
  | .neg (r := r) h1 h2, hv, hw, hs, hn => by
    obtain ⟨k1, k2⟩ := wt_un (.inr rfl) hw
    obtain ⟨r1, rfl, r3⟩ := neg_type k1
    have hs' : soundE cfg.syms own r = true := by
      simp only [soundE, Bool.and_eq_true] at hs
      exact hs.2
    obtain ⟨h3, h4, h5⟩ := expr_ok (A := A) hf h1 hv k2 hs' (fun id h => hn id (by simpa [AExpr.reads, AExpr.calls] using h))
    have h5 := h5 (not_address k2 (by rcases r1 with h | h <;> simp [h]))
    have hz : ∀ Q, ValIs M G f Q (zeroFor (some r.type)) (lty r.type) := by
      intro Q
      rcases r1 with h | h <;> rw [h] <;> rfl
    obtain ⟨h6, h7⟩ := op_ok (A := A) hf h2 h5 r3 (by rw [h5]; exact hz _) h4
    exact ⟨h3.append h6, val_mono .refl (fun _ _ h => After.append.2 h) h7, fun _ => h5⟩
  | .bin (o := o) h1 h2 h3, hv, hw, hs, hn => by
    obtain ⟨k1, k2, k3, k4⟩ := wt_bin hw
    simp only [soundE, Bool.and_eq_true, Bool.not_eq_true'] at hs
    obtain ⟨h4, h5, _⟩ := expr_ok (A := A) hf h1 hv k1 hs.1.1 (fun id h => hn id (by
      simp only [AExpr.reads, AExpr.calls, Bool.or_eq_true]; exact h.imp .inl .inl))
    obtain ⟨h6, h7, h8⟩ := expr_ok (A := A) hf h2 (hv.mono .refl (fun _ _ h => After.sub h)) k2 hs.1.2 (fun id h => hn id (by
      simp only [AExpr.reads, AExpr.calls, Bool.or_eq_true]; exact h.imp .inr .inr))
    have h8 := h8 hs.2
    rw [k3] at h5
    obtain ⟨h9, h10⟩ := op_ok (A := A) hf h3 h8 k4 (val_after h5) h7
    refine ⟨(h4.append h6).append (h9.mono .refl (fun _ _ h => After.append.2 h)), ?_, fun _ => ?_⟩
    · refine val_mono .refl (fun _ _ h => ?_) h10
      exact After.append.2 (h.mono (fun _ _ h => After.append.2 h))
    · show resultFor o _ = some _
      rw [h8]
      exact result_bin k4
theorem args_ok {cfg : LCfg} (hf : FoldTyped cfg.fold) {R M G f A own ds n k as is vs m tys} {P : Set'} : ACode cfg R n k as is vs m → k = tys.length →
    Vis cfg M G f R own ds P → WtA cfg.syms tys as → soundA cfg.syms own as = true →
    (∀ i, as.reads i = true ∨ as.calls i = true → i ∈ ds) → CodeOk M G f A P is ∧ ArgsAre M G f (After M P is) vs tys
  | .nil, hk, hv, hw, hs, hn => by
    cases tys with
    | nil => exact ⟨.nil, .nil⟩
    | cons => simp at hk
  | .cons h1 h2, hk, hv, hw, hs, hn => by
    cases hw with
    | cons k1 k2 k3 =>
      simp only [soundA, Bool.and_eq_true] at hs
      obtain ⟨h3, h4, _⟩ := expr_ok (A := A) hf h1 hv k1 hs.1 (fun i h => hn i (by
        simp only [AArgs.reads, AArgs.calls, Bool.or_eq_true]; exact h.imp .inl .inl))
      obtain ⟨h5, h6⟩ := args_ok (A := A) hf h2 (by simpa using hk) (hv.mono .refl (fun _ _ h => After.sub h)) k3 hs.2 (fun i h => hn i (by
        simp only [AArgs.reads, AArgs.calls, Bool.or_eq_true]; exact h.imp .inr .inr))
      rw [k2] at h4
      exact ⟨h3.append h5, .cons (val_mono .refl (fun _ _ h => After.append.2 (.inl h)) h4) (args_mono .refl (fun _ _ h => After.append.2 h) h6)⟩
end

theorem call_ok {cfg : LCfg} (hf : FoldTyped cfg.fold) {R n t args id ty is x m M G f A own ds} {P : Set'} (h : ECode cfg R n (.call t args id ty) is x m)
    (hv : Vis cfg M G f R own ds P) (hw : WtE cfg.syms (.call t args id ty)) (hs : soundA cfg.syms own args = true)
    (hn : ∀ i, (AExpr.call t args id ty).reads i = true ∨ (AExpr.call t args id ty).calls i = true → i ∈ ds) : CodeOk M G f A P is := by
  cases h with
  | call h1 h2 h3 =>
    obtain ⟨sym, fn, k1, k2, k3, k4, rfl⟩ := wt_call hw
    cases func_of k1 k2 h1
    obtain ⟨y, h4, h5, h6⟩ := hv.funcs id (hn id (.inr (by simp [AExpr.calls]))) _ _ _ h1 h3
    obtain ⟨h7, h8⟩ := args_ok (A := A) hf h2 k3 hv k4 hs (fun i h => hn i (by
      simp only [AExpr.reads, AExpr.calls, Bool.or_eq_true]; exact h.imp (fun x => x) .inr))
    exact h7.append (.one ⟨y, h4, by rw [h5]; exact h8⟩ (by simp [targets]))

end Skull.LVer
