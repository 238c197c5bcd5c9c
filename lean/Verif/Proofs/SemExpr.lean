import Verif.Proofs.ScopeOps
/-
Expressions: the check accepts exactly what the type rules give a type.
-/
namespace Skull
open Spec

/- ### Steps that only set flags -/

/-- Only flags of symbols and the diagnostics differ. -/
structure Quiet (s s' : SS) : Prop where
  scopes : s'.scopes = s.scopes
  scope : s'.scope = s.scope
  syms : s'.syms.map Symbol.static = s.syms.map Symbol.static
  same : Same s s'

theorem Quiet.refl (s : SS) : Quiet s s := ⟨rfl, rfl, rfl, .refl s⟩
theorem Quiet.trans {s s' s'' : SS} (h : Quiet s s') (h' : Quiet s' s'') : Quiet s s'' :=
  ⟨h'.scopes.trans h.scopes, h'.scope.trans h.scope, h'.syms.trans h.syms, h.same.trans h'.same⟩

theorem Quiet.get {s s' : SS} (h : Quiet s s') {id : Nat} {sym : Symbol} (hs : s.syms[id]? = some sym) :
    ∃ sym', s'.syms[id]? = some sym' ∧ sym'.static = sym.static := by
  have h1 : (s'.syms.map Symbol.static)[id]? = some sym.static := by rw [h.syms, List.getElem?_map, hs]; rfl
  rw [List.getElem?_map] at h1
  cases h2 : s'.syms[id]? with
  | none => rw [h2] at h1; cases h1
  | some sym' => rw [h2] at h1; exact ⟨sym', rfl, by simpa using h1⟩

theorem Quiet.symm {s s' : SS} (h : Quiet s s') : Quiet s' s :=
  ⟨h.scopes.symm, h.scope.symm, h.syms.symm, h.same.1.symm, h.same.2.1.symm, h.same.2.2.symm⟩

theorem Quiet.frame {s s' : SS} (h : Quiet s s') : Frame s s' := by
  refine ⟨by rw [h.scopes]; exact Nat.le_refl _, fun j _ _ => by rw [h.scopes], fun i sc _ hs => ⟨sc, by rw [h.scopes, hs], rfl, rfl⟩,
    .inl h.scope, fun id sym hs => ?_⟩
  obtain ⟨sym', h1, h2⟩ := h.get hs
  exact ⟨sym', h1, core_of_static h2⟩

theorem static_exprType {a b : Symbol} (h : a.static = b.static) : a.exprType = b.exprType := by
  have := congrArg Symbol.exprType h
  exact this

theorem static_kind {a b : Symbol} (h : a.static = b.static) : a.kind.static = b.kind.static := by
  have := congrArg Symbol.kind h
  exact this

theorem SymIs.flags {scopes cur pend n id et k k' d} (h : SymIs scopes cur pend n id et k d) (hk : k'.static = k.static) :
    SymIs scopes cur pend n id et k' d := by
  cases h with
  | @var v hv =>
    cases k' with
    | var v' =>
      simp only [SymKind.static, SymKind.var.injEq, Variable.mk.injEq] at hk
      obtain ⟨h1, _, _, h4, _, _, _, _, h9, _⟩ := hk
      rw [← h1, ← h4]
      exact .var fun hp => by rw [h9]; exact hv hp
    | _ => simp [SymKind.static] at hk
  | @func f ps hf =>
    cases k' with
    | func f' =>
      simp only [SymKind.static, SymKind.func.injEq, Func.mk.injEq] at hk
      obtain ⟨h1, h2, h3, _⟩ := hk
      rw [← h3]
      exact .func fun hp => by rw [h1, h2]; exact hf hp
    | _ => simp [SymKind.static] at hk
  | alias => cases k' <;> simp [SymKind.static] at hk; exact .alias
  | nsNone => cases k' <;> simp [SymKind.static] at hk; subst hk; exact .nsNone
  | ns h1 h2 h3 => cases k' <;> simp [SymKind.static] at hk; subst hk; exact .ns h1 h2 h3

theorem SInv.quiet {s s' B E pend} (hi : SInv s B E pend) (hq : Quiet s s') : SInv s' B E pend := by
  have hl : s'.syms.length = s.syms.length := by
    have := congrArg List.length hq.syms
    simpa using this
  refine ⟨hl.trans hi.len, ?_, by rw [hq.scopes, hq.scope]; exact hi.vis, hi.ids, ?_, by rw [hq.scopes, hq.scope]; exact hi.tip⟩
  · intro id sym' hs
    obtain ⟨sym, h1, h2⟩ := hq.symm.get hs
    obtain ⟨d, h3, h4⟩ := hi.sym id sym h1
    rw [hq.scopes, hq.scope, ← static_exprType h2]
    exact ⟨d, h3, h4.flags (static_kind h2).symm⟩
  · have hb := hi.blk
    have key : ∀ h par, BlkAt s h par → BlkAt s' h par := by
      intro h par hb
      unfold BlkAt at hb ⊢
      rw [hq.scopes, hq.scope]
      exact hb
    match B, hb with
    | none, .inl h => exact .inl (hq.scope.trans h)
    | none, .inr ⟨h, hb⟩ => exact .inr ⟨h, key _ _ hb⟩
    | some (h, p), ⟨hb, hp⟩ => exact ⟨key _ _ hb, hp⟩

theorem updSym_eq {s : SS} {id : Nat} {sym : Symbol} (f : Symbol → Symbol) (hs : s.syms[id]? = some sym) :
    updSym id f s = .ok () { s with syms := s.syms.set id (f sym) } := by
  unfold updSym; rw [hs]

theorem set_static {l : List Symbol} {id : Nat} {sym sym' : Symbol} (h : l[id]? = some sym) (hs : sym'.static = sym.static) :
    (l.set id sym').map Symbol.static = l.map Symbol.static := by
  rw [List.map_set, hs]
  apply List.ext_getElem?
  intro j
  by_cases e : id = j
  · subst e
    rw [List.getElem?_set_self (by simpa using get_lt h), List.getElem?_map, h]; rfl
  · rw [List.getElem?_set_ne e]

theorem quiet_set {s : SS} {id : Nat} {sym sym' : Symbol} (h : s.syms[id]? = some sym) (hs : sym'.static = sym.static) :
    Quiet s { s with syms := s.syms.set id sym' } :=
  ⟨rfl, rfl, set_static h hs, rfl, rfl, rfl⟩

theorem updVar_flag {s : SS} {id : Nat} {sym : Symbol} {f : Variable → Variable} (hs : s.syms[id]? = some sym)
    (hf : ∀ v, (SymKind.var (f v)).static = (SymKind.var v).static) : ∃ s', updVar id f s = .ok () s' ∧ Quiet s s' := by
  unfold updVar
  refine ⟨_, updSym_eq _ hs, quiet_set hs ?_⟩
  unfold Symbol.static
  cases hk : sym.kind with
  | var v => simp only [hf]
  | _ => simp only [hk]

theorem updFunc_flag {s : SS} {id : Nat} {sym : Symbol} {f : Func → Func} (hs : s.syms[id]? = some sym)
    (hf : ∀ v, (SymKind.func (f v)).static = (SymKind.func v).static) : ∃ s', updFunc id f s = .ok () s' ∧ Quiet s s' := by
  unfold updFunc
  refine ⟨_, updSym_eq _ hs, quiet_set hs ?_⟩
  unfold Symbol.static
  cases hk : sym.kind with
  | func v => simp only [hf]
  | _ => simp only [hk]

/- ### Tokens -/

theorem tokName_ok {t : Token} {s s' : SS} {x} : tokName t s = .ok x s' ↔ Text t x ∧ s' = s := by
  unfold tokName Text
  cases tokenToString t with
  | none => simp [Chk.ofOption, Chk.ub]
  | some y =>
    simp only [Chk.ofOption, pure_ok, Option.some.injEq]
    exact ⟨fun ⟨a, b⟩ => ⟨a, b.symm⟩, fun ⟨a, b⟩ => ⟨a, b.symm⟩⟩

theorem tokName_eq {t : Token} {x} (s : SS) (h : Text t x) : tokName t s = .ok x s := tokName_ok.2 ⟨h, rfl⟩

theorem scopeFindVar_sound {s s' B E id v t} (hi : SInv s B E none) (h : scopeFindVar t s = .ok (id, v) s') :
    s' = s ∧ ∃ x sym, Text t x ∧ E.resolve x = some id ∧ E.decl x = some (.var v.type (!v.isConst)) ∧
      s.syms[id]? = some sym ∧ sym.kind = .var v := by
  unfold scopeFindVar at h
  replace h := bind_ok.1 h
  obtain ⟨x, s₁, h1, h⟩ := h
  replace h1 := tokName_ok.1 h1
  obtain ⟨h1, rfl⟩ := h1
  rw [bind_of _ (lookup_eq hi x)] at h
  cases hr : E.resolve x with
  | none => rw [hr] at h; cases h
  | some id' =>
    rw [hr] at h
    obtain ⟨sym, d, h2, h3, h4, h5⟩ := hi.found hr
    simp only at h
    rw [bind_of _ (symAt_eq h2)] at h
    cases hk : sym.kind with
    | var v' =>
      rw [hk] at h h5
      simp only at h
      split at h
      · cases h
        cases h5
        exact ⟨rfl, x, sym, h1, hr, h3, h2, hk⟩
      · cases h
    | func f => rw [hk] at h; cases h
    | alias => rw [hk] at h; cases h
    | ns j => rw [hk] at h; cases j <;> cases h

theorem scopeFindVar_complete {s B E t x τ m} (hi : SInv s B E none) (ht : Text t x) (hd : E.decl x = some (.var τ m)) :
    ∃ id v, scopeFindVar t s = .ok (id, v) s ∧ v.type = τ ∧ v.isConst = !m ∧ E.resolve x = some id := by
  unfold scopeFindVar
  rw [bind_of _ (tokName_eq s ht), bind_of _ (lookup_eq hi x)]
  cases hr : E.resolve x with
  | none => simp [Env.decl, hr] at hd
  | some id =>
    obtain ⟨sym, d, h2, h3, h4, h5⟩ := hi.found hr
    rw [hd] at h3
    cases h3
    simp only
    rw [bind_of _ (symAt_eq h2)]
    generalize hk : sym.kind = k at h5
    cases h5 with
    | var h =>
      rename_i v
      simp only [h (by simp), if_true]
      exact ⟨id, v, rfl, rfl, by simp, rfl⟩

theorem findFunc_sound {s s' B E id t} (hi : SInv s B E none) (h : findFuncByToken t s = .ok id s') :
    s' = s ∧ ∃ x sym f ps, Text t x ∧ E.resolve x = some id ∧ E.decl x = some (.func ps f.returnType) ∧
      s.syms[id]? = some sym ∧ sym.kind = .func f ∧ f.paramTypes = ps ∧ f.numParams = ps.length := by
  unfold findFuncByToken at h
  replace h := bind_ok.1 h
  obtain ⟨x, s₁, h1, h⟩ := h
  replace h1 := tokName_ok.1 h1
  obtain ⟨h1, rfl⟩ := h1
  rw [bind_of _ (findFuncByName_eq hi x)] at h
  cases hr : E.resolve x with
  | none =>
    have hd : E.decl x = none := by simp [Env.decl, hr]
    rw [hd] at h; cases h
  | some id' =>
    obtain ⟨sym, d, h2, h3, h4, h5⟩ := hi.found hr
    rw [h3, hr] at h
    cases d with
    | func ps r =>
      cases h
      generalize hk : sym.kind = k at h5
      cases h5 with
      | func hf =>
        have := hf (by simp)
        exact ⟨rfl, x, sym, _, ps, h1, hr, h3, h2, hk, this.1, this.2⟩
    | _ => cases h

theorem findFunc_complete {s B E t x ps τ} (hi : SInv s B E none) (ht : Text t x) (hd : E.decl x = some (.func ps τ)) :
    ∃ id, findFuncByToken t s = .ok id s ∧ E.resolve x = some id := by
  unfold findFuncByToken
  rw [bind_of _ (tokName_eq s ht), bind_of _ (findFuncByName_eq hi x), hd]
  cases hr : E.resolve x with
  | none => simp [Env.decl, hr] at hd
  | some id => exact ⟨id, rfl, rfl⟩

theorem funcAt_eq {s : SS} {id : Nat} {sym : Symbol} {f : Func} (hs : s.syms[id]? = some sym) (hk : sym.kind = .func f) :
    funcAt id s = .ok f s := by
  unfold funcAt
  rw [bind_of _ (symAt_eq hs), hk]
  rfl

/- ### Types -/

theorem tokenToType_sound {s s' B E pend o} (hi : SInv s B E pend) :
    ∀ toks, tokenToType toks s = .ok o s' → s' = s ∧ TypeAt E toks o := by
  intro toks
  induction toks generalizing o s' with
  | nil => intro h; cases h
  | cons t rest ih =>
    intro h
    unfold tokenToType at h
    split at h
    · rename_i hid
      replace h := bind_ok.1 h
      obtain ⟨x, s₁, h1, h⟩ := h
      replace h1 := tokName_ok.1 h1
      obtain ⟨h1, rfl⟩ := h1
      rw [findType_eq hi] at h
      cases h
      refine ⟨rfl, .name ?_ h1⟩
      have : t.ty = .dotIdentifier ∨ t.ty = .identifier := by simpa [isIdentLike] using hid
      exact this.symm
    · rename_i hid
      split at h
      · rename_i href
        replace h := bind_ok.1 h
        obtain ⟨o', s₁, h1, h⟩ := h
        replace h1 := ih h1
        obtain ⟨rfl, h2⟩ := h1
        cases h
        exact ⟨rfl, .ref href h2⟩
      · rename_i href
        cases h
        have : t.ty ≠ .identifier ∧ t.ty ≠ .dotIdentifier := by
          constructor <;> (intro e; apply hid; simp [isIdentLike, e])
        exact ⟨rfl, .other this.1 this.2 href⟩

theorem tokenToType_complete {s B E pend toks o} (hi : SInv s B E pend) (h : TypeAt E toks o) :
    tokenToType toks s = .ok o s := by
  induction h with
  | @name t rest x h1 h2 =>
    unfold tokenToType
    rw [if_pos (by simp only [isIdentLike]; rcases h1 with h1 | h1 <;> simp [h1]), bind_of _ (tokName_eq s h2), findType_eq hi]
  | @ref t rest τ h1 h2 ih =>
    unfold tokenToType
    rw [if_neg (by simp [isIdentLike, h1]), if_pos h1, bind_of _ ih]
    rfl
  | @other t rest h1 h2 h3 =>
    unfold tokenToType
    rw [if_neg (by simp [isIdentLike, h1, h2]), if_neg h3]
    rfl

/- ### Literals -/

theorem evalLit_ok {t : Token} {e : Ev α} {s s' : SS} {a : α} : evalLit t e s = .ok a s' ↔ e = .ok a ∧ s' = s := by
  cases e <;> simp [evalLit, Chk.error, Chk.ub, pure_def]
  exact fun _ => eq_comm

theorem validateConst_sound {cfg : Cfg} {W : World} (hW : W.strtod = cfg.strtod) {t s v s'}
    (h : validateConst cfg t s = .ok v s') : s' = s ∧ LitType W t v.type := by
  unfold validateConst at h
  cases ht : t.ty with
  | intConst =>
    rw [ht] at h
    replace h := bind_ok.1 h
    obtain ⟨i, s₁, h1, h⟩ := h
    replace h1 := evalLit_ok.1 h1
    obtain ⟨h1, rfl⟩ := h1
    cases h
    exact ⟨rfl, .int ht h1⟩
  | floatConst =>
    rw [ht] at h
    replace h := bind_ok.1 h
    obtain ⟨i, s₁, h1, h⟩ := h
    replace h1 := evalLit_ok.1 h1
    obtain ⟨h1, rfl⟩ := h1
    cases h
    exact ⟨rfl, .float ht (by rw [hW]; exact h1)⟩
  | boolConst =>
    rw [ht] at h
    cases h
    exact ⟨rfl, .bool ht⟩
  | runeConst =>
    rw [ht] at h
    replace h := bind_ok.1 h
    obtain ⟨i, s₁, h1, h⟩ := h
    replace h1 := evalLit_ok.1 h1
    obtain ⟨h1, rfl⟩ := h1
    cases h
    exact ⟨rfl, .rune ht h1⟩
  | strConst =>
    rw [ht] at h
    replace h := bind_ok.1 h
    obtain ⟨str, s₁, h1, h⟩ := h
    replace h1 := evalLit_ok.1 h1
    obtain ⟨h1, rfl⟩ := h1
    have h1' : evalStr t = some (.ok str) := by
      cases he : evalStr t with
      | none => rw [he] at h1; cases h1
      | some r => rw [he] at h1; simp only [Option.getD_some] at h1; rw [h1]
    unfold toBytes at h
    split at h
    · rename_i hall
      cases h
      refine ⟨rfl, .str ht h1' ?_⟩
      simpa using hall
    · cases h
  | _ => rw [ht] at h; cases h

theorem validateConst_complete {cfg : Cfg} {W : World} (hW : W.strtod = cfg.strtod) {t τ} (s : SS) (h : LitType W t τ) :
    ∃ v, validateConst cfg t s = .ok v s ∧ v.type = τ := by
  unfold validateConst
  cases h with
  | int h1 h2 =>
    simp only [h1]
    rw [bind_of _ (evalLit_ok.2 ⟨h2, rfl⟩)]
    exact ⟨_, rfl, rfl⟩
  | float h1 h2 =>
    simp only [h1]
    rw [hW] at h2
    rw [bind_of _ (evalLit_ok.2 ⟨h2, rfl⟩)]
    exact ⟨_, rfl, rfl⟩
  | bool h1 =>
    simp only [h1]
    exact ⟨_, rfl, rfl⟩
  | rune h1 h2 =>
    simp only [h1]
    rw [bind_of _ (evalLit_ok.2 ⟨h2, rfl⟩)]
    exact ⟨_, rfl, rfl⟩
  | str h1 h2 h3 =>
    simp only [h1]
    rw [bind_of _ (evalLit_ok.2 ⟨by rw [h2]; rfl, rfl⟩)]
    unfold toBytes
    rw [if_pos (by simpa using h3)]
    exact ⟨_, rfl, rfl⟩

/- ### Operators -/

/-- What the check wrote belongs to the expression. -/
def Anno (E : Env) : Expr → AExpr → Prop
  | .ident t, .ident t' id _ _ => t' = t ∧ ∃ x, Text t x ∧ E.resolve x = some id
  | .const t, .const t' _ => t' = t ∧ (t.ty = .intConst → ∃ i, evalInteger t = .ok i)
  | .call n _ _, .call n' _ id _ => n' = n ∧ ∃ x, Text n x ∧ E.resolve x = some id
  | .un o e, .un o' a _ _ => (o' = o ∧ isPrefixOper o = true) ∧ Anno E e a
  | .bin o l r, .bin o' la ra _ _ => (o' = o ∧ isInfixOper o = true) ∧ Anno E l la ∧ Anno E r ra
  | _, _ => False

theorem isNumeric_ok {r : AExpr} {t : Token} {s s' : SS} :
    isNumeric r t s = .ok () s' ↔ (r.type = tInt ∨ r.type = tFloat) ∧ s' = s := by
  unfold isNumeric
  split <;> simp_all [pure_def, Chk.error, eq_comm]

theorem notDivByZero_ok {E e a} (ha : Anno E e a) {s s' : SS} :
    notDivByZero a s = .ok () s' ↔ ¬ ZeroLit e ∧ s' = s := by
  cases e with
  | const t =>
    cases a with
    | const t' v =>
      obtain ⟨e', ha⟩ := ha
      subst e'
      unfold notDivByZero ZeroLit
      by_cases ht : t'.ty = .intConst
      · simp only [ht, if_true, true_and]
        obtain ⟨i, hev⟩ := ha ht
        simp only [hev]
        ·
          simp only [Ev.ok.injEq]
          split
          · rename_i h; simp [Chk.error, h]
          · rename_i h; simp [pure_def, h, eq_comm]
      · simp [ht, pure_def, eq_comm]
    | _ => cases ha
  | ident t => cases a <;> first | (cases ha; done) | simp [notDivByZero, ZeroLit, pure_def, eq_comm]
  | call n args num => cases a <;> first | (cases ha; done) | simp [notDivByZero, ZeroLit, pure_def, eq_comm]
  | un o e => cases a <;> first | (cases ha; done) | simp [notDivByZero, ZeroLit, pure_def, eq_comm]
  | bin o l r => cases a <;> first | (cases ha; done) | simp [notDivByZero, ZeroLit, pure_def, eq_comm]
  | missing => cases a <;> cases ha

theorem chkIf_ok {c : Prop} [Decidable c] {code : Code} {t : Option Token} {s s' : SS} :
    (if c then Chk.error code t else pure () : Chk Unit) s = .ok () s' ↔ ¬ c ∧ s' = s := by
  split
  · rename_i h; simp [Chk.error, h]
  · rename_i h; simp [pure_def, h, eq_comm]

/-- The rules of an operator between operands. -/
theorem binRules {E e r} (o : Oper) (ho : isInfixOper o = true) (ha : Anno E e r) {t : Token} {s s' : SS} {ty : Ty} :
    (∃ s₁, validateRestrictions o r t s = .ok () s₁ ∧ exprType o r.type s₁ = .ok ty s') ↔
      (binType o r.type = some ty ∧ (o = .div ∨ o = .mod → ¬ ZeroLit e)) ∧ s' = s := by
  have hz := fun s s' => notDivByZero_ok (s := s) (s' := s') ha
  cases o <;> simp only [isInfixOper, isPrefixOper] at ho <;>
    first
    | (exfalso; revert ho; decide)
    | skip
  all_goals
    simp only [validateRestrictions, exprType, pure_ok, bind_ok_unit, validatePow, chkIf_ok, hz, isNumeric_ok]
  all_goals
    generalize r.type = τ
    rcases τ with p | τ
    · cases p <;> simp [binType, tInt, tFloat, tBool, Int', Float', Bool'] <;> grind
    · simp [binType, tInt, tFloat, tBool, Int', Float', Bool'] <;> grind

/-- An identifier, and nothing else, is an identifier after the check. -/
theorem anno_ident {E e a} (ha : Anno E e a) : a.oper = .identifier ↔ ∃ t, e = .ident t := by
  cases e <;> cases a <;> first | (cases ha; done) | skip
  · simp [AExpr.oper]
  · simp [AExpr.oper]
  · simp [AExpr.oper]
  · obtain ⟨⟨rfl, h⟩, _⟩ := ha
    simp only [AExpr.oper, reduceCtorEq, exists_const, iff_false]
    intro e; rw [e] at h; revert h; decide
  · obtain ⟨⟨rfl, h⟩, _⟩ := ha
    simp only [AExpr.oper, reduceCtorEq, exists_const, iff_false]
    intro e; rw [e] at h; revert h; decide

theorem derefRule {E e r} (ha : Anno E e r) {t : Token} {s s' : SS} :
    validateRestrictions .deref r t s = .ok () s' ↔ ((∃ t, e = .ident t) ∧ ∃ τ, r.type = .ref τ) ∧ s' = s := by
  unfold validateRestrictions
  cases e <;> cases r <;> first | (cases ha; done) | skip
  · rename_i t' id ty c
    simp only [AExpr.type]
    cases ty <;> simp [Chk.error, pure_def, eq_comm]
  all_goals simp [Chk.error]

/-- The rules of an operator before an operand. -/
theorem unRules {E e r} (o : Oper) (ho : isPrefixOper o = true) (ha : Anno E e r) {t : Token} {s s' : SS} {ty : Ty} :
    (∃ s₁, validateRestrictions o r t s = .ok () s₁ ∧ exprType o r.type s₁ = .ok ty s') ↔
      (unType o r.type = some ty ∨ (o = .ref ∧ (∃ t, e = .ident t) ∧ ty = .ref r.type) ∨
        (o = .deref ∧ (∃ t, e = .ident t) ∧ r.type = .ref ty)) ∧ s' = s := by
  cases o <;> simp only [isPrefixOper] at ho <;> first | (exfalso; revert ho; decide) | skip
  · simp only [validateRestrictions, exprType, pure_ok, isNumeric_ok]
    generalize r.type = τ
    rcases τ with p | τ
    · cases p <;> simp [unType, tInt, tFloat, tBool, Int', Float', Bool'] <;> grind
    · simp [unType, tInt, tFloat, tBool, Int', Float', Bool']
  · simp only [validateRestrictions, exprType, pure_ok, chkIf_ok]
    generalize r.type = τ
    rcases τ with p | τ
    · cases p <;> simp [unType, tInt, tFloat, tBool, Int', Float', Bool'] <;> grind
    · simp [unType, tInt, tFloat, tBool, Int', Float', Bool']
  · simp only [validateRestrictions, exprType, pure_ok, chkIf_ok, anno_ident ha, Classical.not_not]
    have : unType .ref r.type = none := by cases r.type <;> rfl
    simp [this]
    grind
  · simp only [derefRule ha]
    have : unType .deref r.type = none := by cases r.type <;> rfl
    simp only [this, exprType]
    cases r.type with
    | prim p => simp [Chk.ub]
    | ref τ => simp [pure_def]; grind

theorem operFits_ok {b : Bool} {s s' : SS} : operFits b s = .ok () s' ↔ b = true ∧ s' = s := by
  unfold operFits
  cases b <;> simp [pure_def, Chk.ub, eq_comm]

theorem checkCount_ok {f : Func} {name : Token} {params : Args} {num : Nat} {s s' : SS} (hc : Args.Counted params num) :
    checkCount f name params num s = .ok () s' ↔ f.numParams = num ∧ s' = s := by
  unfold checkCount
  by_cases h : f.numParams = num
  · simp only [h, ne_eq, not_true_eq_false, if_false, true_and]
    cases params with
    | nil => simp [pure_def, eq_comm]
    | cons first e next =>
      simp only
      obtain ⟨_, n, hn, _⟩ := hc
      rw [if_neg (by omega)]
      simp [pure_def, eq_comm]
  · simp [h, Chk.error]

theorem sameTypes_ok {l r : AExpr} {s s' : SS} : sameTypes l r s = .ok () s' ↔ l.type = r.type ∧ s' = s := by
  unfold sameTypes
  rw [chkIf_ok]
  simp

mutual

theorem expr_sound {cfg : Cfg} {W : World} (hW : W.strtod = cfg.strtod) {B E} : ∀ (e : Expr) (s : SS) (a : AExpr) (s' : SS),
    validateExpr cfg e s = .ok a s' → SInv s B E none → Expr.Counted e → HasType W E e a.type ∧ Anno E e a ∧ Quiet s s'
  | .missing, s, a, s', h, _, _ => by simp [validateExpr, Chk.ub] at h
  | .ident t, s, a, s', h, hi, _ => by
    simp only [validateExpr] at h
    replace h := bind_ok.1 h
    obtain ⟨⟨id, v⟩, s₁, h1, h⟩ := h
    have h1 := scopeFindVar_sound hi h1
    obtain ⟨rfl, x, sym, h2, h3, h4, h5, h6⟩ := h1
    simp only at h
    obtain ⟨s₂, h7, h8⟩ := updVar_flag (f := fun v => { v with wasRead := true }) h5 (fun v => rfl)
    rw [bind_of _ h7] at h
    cases h
    exact ⟨.ident h2 h4, ⟨rfl, x, h2, h3⟩, h8⟩
  | .const t, s, a, s', h, _, _ => by
    simp only [validateExpr] at h
    replace h := bind_ok.1 h
    obtain ⟨v, s₁, h1, h⟩ := h
    cases h
    replace h1 := validateConst_sound hW h1
    obtain ⟨rfl, h1⟩ := h1
    refine ⟨.const h1, ⟨rfl, fun ht => ?_⟩, .refl _⟩
    generalize v.type = τ at h1
    cases h1 with
    | int _ h => exact ⟨_, h⟩
    | float h => rw [ht] at h; cases h
    | bool h => rw [ht] at h; cases h
    | rune h => rw [ht] at h; cases h
    | str h => rw [ht] at h; cases h
  | .call n params num, s, a, s', h, hi, hc => by
    simp only [validateExpr] at h
    replace h := bind_ok.1 h
    obtain ⟨id, s₁, h1, h⟩ := h
    have h1 := findFunc_sound hi h1
    obtain ⟨rfl, x, sym, f, ps, h2, h3, h4, h5, h6, h7, h8⟩ := h1
    rw [bind_of _ (funcAt_eq h5 h6)] at h
    obtain ⟨s₂, h9, h10⟩ := updFunc_flag (f := fun f => { f with wasCalled := true }) h5 (fun v => rfl)
    rw [bind_of _ h9] at h
    have hc : Args.Counted params num := by simpa only [Expr.Counted] using hc
    replace h := bind_ok_unit.1 h
    obtain ⟨s₃, h11, h⟩ := h
    rw [checkCount_ok hc] at h11
    obtain ⟨h11, rfl⟩ := h11
    replace h := bind_ok.1 h
    obtain ⟨as, s₄, h12, h⟩ := h
    cases h
    have h12 := args_sound hW params ps _ _ _ (h7 ▸ h12) (hi.quiet h10) (by rw [← h8, h11]; exact hc)
    exact ⟨.call h2 h4 h12.1, ⟨rfl, x, h2, h3⟩, h10.trans h12.2⟩
  | .un o e, s, a, s', h, hi, hc => by
    simp only [validateExpr] at h
    replace h := bind_ok_unit.1 h
    obtain ⟨s₀, h0, h⟩ := h
    rw [operFits_ok] at h0
    obtain ⟨h0, rfl⟩ := h0
    replace h := bind_ok.1 h
    obtain ⟨r, s₁, h1, h⟩ := h
    have hc : Expr.Counted e := by simpa only [Expr.Counted] using hc
    have h1 := expr_sound hW e _ _ _ h1 hi hc
    replace h := bind_ok_unit.1 h
    obtain ⟨s₂, h2, h⟩ := h
    replace h := bind_ok.1 h
    obtain ⟨ty, s₃, h3, h⟩ := h
    cases h
    have h4 := (unRules o h0 h1.2.1).1 ⟨_, h2, h3⟩
    obtain ⟨h4, rfl⟩ := h4
    refine ⟨?_, ⟨⟨rfl, h0⟩, h1.2.1⟩, h1.2.2⟩
    rcases h4 with h4 | ⟨rfl, ⟨t, rfl⟩, rfl⟩ | ⟨rfl, ⟨t, rfl⟩, h4⟩
    · exact .un h1.1 h4
    · exact .ref h1.1
    · exact .deref (h4 ▸ h1.1)
  | .bin o l r, s, a, s', h, hi, hc => by
    simp only [validateExpr] at h
    replace h := bind_ok_unit.1 h
    obtain ⟨s₀, h0, h⟩ := h
    rw [operFits_ok] at h0
    obtain ⟨h0, rfl⟩ := h0
    have hc : Expr.Counted l ∧ Expr.Counted r := by simpa only [Expr.Counted] using hc
    replace h := bind_ok.1 h
    obtain ⟨ra, s₁, h1, h⟩ := h
    have h1 := expr_sound hW r _ _ _ h1 hi hc.2
    replace h := bind_ok.1 h
    obtain ⟨la, s₂, h2, h⟩ := h
    have h2 := expr_sound hW l _ _ _ h2 (hi.quiet h1.2.2) hc.1
    replace h := bind_ok_unit.1 h
    obtain ⟨s₃, h3, h⟩ := h
    rw [sameTypes_ok] at h3
    obtain ⟨h3, rfl⟩ := h3
    replace h := bind_ok_unit.1 h
    obtain ⟨s₄, h4, h⟩ := h
    replace h := bind_ok.1 h
    obtain ⟨ty, s₅, h5, h⟩ := h
    cases h
    have h6 := (binRules o h0 h1.2.1).1 ⟨_, h4, h5⟩
    obtain ⟨⟨h6, h7⟩, rfl⟩ := h6
    exact ⟨.bin (h3 ▸ h2.1) h1.1 h6 h7, ⟨⟨rfl, h0⟩, h2.2.1, h1.2.1⟩, h1.2.2.trans h2.2.2⟩

theorem args_sound {cfg : Cfg} {W : World} (hW : W.strtod = cfg.strtod) {B E} : ∀ (args : Args) (ps : List Ty) (s : SS) (as : AArgs)
    (s' : SS), validateArgs cfg ps args s = .ok as s' → SInv s B E none → Args.Counted args ps.length →
      ArgsType W E args ps ∧ Quiet s s'
  | .nil, [], s, as, s', h, _, _ => by
    simp only [validateArgs] at h
    cases h
    exact ⟨.nil, .refl _⟩
  | .nil, p :: ps, s, as, s', h, _, hc => by simp [Args.Counted] at hc
  | .cons first e next, [], s, as, s', h, _, hc => by simp [Args.Counted] at hc
  | .cons first e next, ty :: tys, s, as, s', h, hi, hc => by
    simp only [validateArgs] at h
    replace h := bind_ok.1 h
    obtain ⟨a, s₁, h1, h⟩ := h
    have hc : Expr.Counted e ∧ Args.Counted next tys.length := by
      simp only [Args.Counted, List.length_cons] at hc
      obtain ⟨h1, n, h2, h3⟩ := hc
      have : n = tys.length := by omega
      exact ⟨h1, this ▸ h3⟩
    have h1 := expr_sound hW e _ _ _ h1 hi hc.1
    split at h
    · cases h
    · rename_i hty
      replace h := bind_ok.1 h
      obtain ⟨rest, s₂, h2, h⟩ := h
      cases h
      have h2 := args_sound hW next tys _ _ _ h2 (hi.quiet h1.2.2) hc.2
      have hty : a.type = ty := by simpa using hty
      exact ⟨.cons (hty ▸ h1.1) h2.1, h1.2.2.trans h2.2⟩

end

theorem argsType_counted {W E} : ∀ {args : Args} {ps num}, ArgsType W E args ps → Args.Counted args num → ps.length = num
  | .nil, _, num, .nil, hc => by simp [Args.Counted] at hc; simp [hc]
  | .cons _ _ next, _, num, .cons _ h2, hc => by
    simp only [Args.Counted] at hc
    obtain ⟨_, n, h3, h4⟩ := hc
    have := argsType_counted h2 h4
    simp [this, h3]

mutual

theorem expr_complete {cfg : Cfg} {W : World} (hW : W.strtod = cfg.strtod) {B E} : ∀ (e : Expr) (s : SS) (τ : Ty),
    HasType W E e τ → SInv s B E none → Expr.Counted e → ∃ a s', validateExpr cfg e s = .ok a s' ∧ a.type = τ
  | .missing, s, τ, h, _, _ => by cases h
  | .ident t, s, τ, h, hi, _ => by
    cases h with
    | ident h1 h2 =>
      obtain ⟨id, v, h3, h4, h5, h6⟩ := scopeFindVar_complete hi h1 h2
      obtain ⟨_, x, sym, _, _, _, h7, _⟩ := scopeFindVar_sound hi h3
      obtain ⟨s₂, h8, h9⟩ := updVar_flag (f := fun v => { v with wasRead := true }) h7 (fun v => rfl)
      simp only [validateExpr]
      rw [bind_of _ h3, bind_of _ h8]
      exact ⟨_, _, rfl, h4⟩
  | .const t, s, τ, h, _, _ => by
    cases h with
    | const h1 =>
      obtain ⟨v, h2, h3⟩ := validateConst_complete hW s h1
      simp only [validateExpr]
      rw [bind_of _ h2]
      exact ⟨_, _, rfl, h3⟩
  | .call n params num, s, τ, h, hi, hc => by
    cases h with
    | @call _ x ps _ _ _ h1 h2 h3 =>
      have hc : Args.Counted params num := by simpa only [Expr.Counted] using hc
      obtain ⟨id, h4, h5⟩ := findFunc_complete hi h1 h2
      obtain ⟨_, x', sym, f, ps', h6, h7, h8, h9, h10, h11, h12⟩ := findFunc_sound hi h4
      have hx : x' = x := by
        unfold Text at h1 h6; rw [h1] at h6; cases h6; rfl
      subst hx
      rw [h2] at h8
      cases h8
      obtain ⟨s₂, h13, h14⟩ := updFunc_flag (f := fun f => { f with wasCalled := true }) h9 (fun v => rfl)
      simp only [validateExpr]
      have hnum := argsType_counted h3 hc
      rw [bind_of _ h4, bind_of _ (funcAt_eq h9 h10), bind_of _ h13,
        bind_of _ ((checkCount_ok (s := s₂) hc).2 ⟨h12.trans hnum, rfl⟩)]
      obtain ⟨as, s₃, h15⟩ := args_complete hW params ps s₂ h3 (hi.quiet h14) (hnum ▸ hc)
      rw [h11, bind_of _ h15]
      exact ⟨_, _, rfl, rfl⟩
  | .un o e, s, τ, h, hi, hc => by
    have hc : Expr.Counted e := by simpa only [Expr.Counted] using hc
    have key : ∀ σ, HasType W E e σ → isPrefixOper o = true →
        (unType o σ = some τ ∨ (o = .ref ∧ (∃ t, e = .ident t) ∧ τ = .ref σ) ∨ (o = .deref ∧ (∃ t, e = .ident t) ∧ σ = .ref τ)) →
        ∃ a s', validateExpr cfg (.un o e) s = .ok a s' ∧ a.type = τ := by
      intro σ hσ ho hr
      obtain ⟨r, s₁, h1, h2⟩ := expr_complete hW e s σ hσ hi hc
      have h3 := expr_sound hW e _ _ _ h1 hi hc
      obtain ⟨s₂, h4, h5⟩ := (unRules o ho h3.2.1 (t := r.token) (s := s₁) (s' := s₁) (ty := τ)).2 ⟨h2 ▸ hr, rfl⟩
      simp only [validateExpr]
      rw [bind_of _ (operFits_ok.2 ⟨ho, rfl⟩), bind_of _ h1, bind_of _ h4, bind_of _ h5]
      exact ⟨_, _, rfl, rfl⟩
    cases h with
    | @un _ _ σ _ h1 h2 =>
      refine key σ h1 ?_ (.inl h2)
      cases o <;> first | rfl | (simp [unType] at h2)
    | ref h1 => exact key _ h1 rfl (.inr (.inl ⟨rfl, ⟨_, rfl⟩, rfl⟩))
    | deref h1 => exact key _ h1 rfl (.inr (.inr ⟨rfl, ⟨_, rfl⟩, rfl⟩))
  | .bin o l r, s, τ, h, hi, hc => by
    have hc : Expr.Counted l ∧ Expr.Counted r := by simpa only [Expr.Counted] using hc
    cases h with
    | @bin _ _ _ σ _ h1 h2 h3 h4 =>
      have ho : isInfixOper o = true := by cases o <;> first | rfl | (simp [binType] at h3)
      obtain ⟨ra, s₁, h5, h6⟩ := expr_complete hW r s σ h2 hi hc.2
      have h7 := expr_sound hW r _ _ _ h5 hi hc.2
      have hi' := hi.quiet h7.2.2
      obtain ⟨la, s₂, h8, h9⟩ := expr_complete hW l s₁ σ h1 hi' hc.1
      obtain ⟨s₃, h10, h11⟩ := (binRules o ho h7.2.1 (t := la.token) (s := s₂) (s' := s₂) (ty := τ)).2 ⟨⟨h6 ▸ h3, h4⟩, rfl⟩
      simp only [validateExpr]
      rw [bind_of _ (operFits_ok.2 ⟨ho, rfl⟩), bind_of _ h5, bind_of _ h8, bind_of _ (sameTypes_ok.2 ⟨h9.trans h6.symm, rfl⟩),
        bind_of _ h10, bind_of _ h11]
      exact ⟨_, _, rfl, rfl⟩

theorem args_complete {cfg : Cfg} {W : World} (hW : W.strtod = cfg.strtod) {B E} : ∀ (args : Args) (ps : List Ty) (s : SS),
    ArgsType W E args ps → SInv s B E none → Args.Counted args ps.length → ∃ as s', validateArgs cfg ps args s = .ok as s'
  | .nil, [], s, h, _, _ => ⟨_, _, rfl⟩
  | .nil, p :: ps, s, h, _, _ => by cases h
  | .cons first e next, [], s, h, _, hc => by cases h
  | .cons first e next, ty :: tys, s, h, hi, hc => by
    cases h with
    | cons h1 h2 =>
      have hc : Expr.Counted e ∧ Args.Counted next tys.length := by
        simp only [Args.Counted, List.length_cons] at hc
        obtain ⟨h1, n, h2, h3⟩ := hc
        have : n = tys.length := by omega
        exact ⟨h1, this ▸ h3⟩
      obtain ⟨a, s₁, h3, h4⟩ := expr_complete hW e s ty h1 hi hc.1
      have h5 := expr_sound hW e _ _ _ h3 hi hc.1
      obtain ⟨as, s₂, h6⟩ := args_complete hW next tys s₁ h2 (hi.quiet h5.2.2) hc.2
      simp only [validateArgs]
      rw [bind_of _ h3, if_neg (by simp [h4]), bind_of _ h6]
      exact ⟨_, _, rfl⟩

end

end Skull
