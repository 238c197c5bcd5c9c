import Verif.Spec.Silent
import Verif.Proofs.Scoped
import Verif.Proofs.ParsePlaced
/-
A program that the check refuses gets a diagnostic, but for some declarations.
-/
namespace Skull
open Spec

/-- A pair of a symbol's fields that no step changes. -/
def Symbol.tag (sym : Symbol) : List Char × SymType × Option Ty := (sym.name, sym.kind.symType, sym.exprType)

/-- Symbols stay, and scopes have the tables they had. -/
structure Kept (s s' : SS) : Prop where
  syms : ∀ (id : Nat) (sym : Symbol), s.syms[id]? = some sym → ∃ sym', s'.syms[id]? = some sym' ∧ sym'.tag = sym.tag
  tabs : ∀ sc' ∈ s'.scopes, sc'.symbols = none ∨ ∃ sc ∈ s.scopes, sc'.symbols = sc.symbols

theorem Kept.refl (s : SS) : Kept s s := ⟨fun _ sym h => ⟨sym, h, rfl⟩, fun sc h => .inr ⟨sc, h, rfl⟩⟩

theorem Kept.trans {s s' s'' : SS} (h : Kept s s') (h' : Kept s' s'') : Kept s s'' := by
  refine ⟨fun id sym h1 => ?_, fun sc h1 => ?_⟩
  · obtain ⟨sym', h2, h3⟩ := h.syms id sym h1
    obtain ⟨sym'', h4, h5⟩ := h'.syms id sym' h2
    exact ⟨sym'', h4, h5.trans h3⟩
  · rcases h'.tabs sc h1 with h2 | ⟨sc', h2, h3⟩
    · exact .inl h2
    · rcases h.tabs sc' h2 with h4 | ⟨sc'', h4, h5⟩
      · exact .inl (h3.trans h4)
      · exact .inr ⟨sc'', h4, h3.trans h5⟩

/-- Fields that do not matter. -/
theorem Kept.same {s s' : SS} (h1 : s'.syms = s.syms) (h2 : s'.scopes = s.scopes) : Kept s s' :=
  ⟨fun id sym h => ⟨sym, by rw [h1]; exact h, rfl⟩, fun sc h => .inr ⟨sc, by rw [← h2]; exact h, rfl⟩⟩

/-- The statement declares this symbol. -/
def KnownAs (sym : Symbol) (e : Stmt × List Token) : Prop :=
  Declares sym.name e ∧ (sym.kind.symType = .ns → e.1 = .namespaces) ∧ (sym.kind.symType = .alias → sym.exprType = none → Odd e)

theorem KnownAs.keep {sym sym' : Symbol} {e} (h : KnownAs sym e) (ht : sym'.tag = sym.tag) : KnownAs sym' e := by
  simp only [Symbol.tag, Prod.mk.injEq] at ht
  unfold KnownAs
  rw [ht.1, ht.2.1, ht.2.2]
  exact h

/-- All names in scopes are declared by the statements `D`. -/
def Sourced (D : List (Stmt × List Token)) (s : SS) : Prop :=
  ∀ sc ∈ s.scopes, ∃ own, TabRep sc.symbols own ∧
    ∀ p ∈ own, ∃ sym, s.syms[p.2]? = some sym ∧ sym.name = p.1 ∧ ∃ e ∈ D, KnownAs sym e

theorem Sourced.keep {D s s'} (h : Sourced D s) (hk : Kept s s') : Sourced D s' := by
  intro sc' hsc'
  rcases hk.tabs sc' hsc' with h1 | ⟨sc, h1, h2⟩
  · exact ⟨[], .inl ⟨h1, rfl⟩, (fun p hp => by cases hp)⟩
  · obtain ⟨own, h3, h4⟩ := h sc h1
    refine ⟨own, by rw [h2]; exact h3, fun p hp => ?_⟩
    obtain ⟨sym, h5, h6, e, h7, h8⟩ := h4 p hp
    obtain ⟨sym', h9, h10⟩ := hk.syms _ _ h5
    refine ⟨sym', h9, ?_, e, h7, h8.keep h10⟩
    simp only [Symbol.tag, Prod.mk.injEq] at h10
    rw [h10.1, h6]

theorem Sourced.mono {D D' s} (h : Sourced D s) (hs : ∀ e ∈ D, e ∈ D') : Sourced D' s := by
  intro sc hsc
  obtain ⟨own, h1, h2⟩ := h sc hsc
  refine ⟨own, h1, fun p hp => ?_⟩
  obtain ⟨sym, h3, h4, e, h5, h6⟩ := h2 p hp
  exact ⟨sym, h3, h4, e, hs e h5, h6⟩

/-! ### Steps that tell why they fail -/

/-- The step keeps symbols and tables; when it fails there is a diagnostic. -/
def Told (m : Chk α) : Prop := ∀ s, (∀ a s', m s = .ok a s' → Kept s s') ∧ ∀ s', m s = .fail s' → s'.diags ≠ []

theorem Told.pure (a : α) : Told (Pure.pure a : Chk α) :=
  fun s => ⟨(fun b s' h => by cases h; exact .refl s), fun s' h => by cases h⟩
theorem Told.ub : Told (Chk.ub : Chk α) := fun s => ⟨(fun b s' h => by cases h), fun s' h => by cases h⟩
theorem Told.error (c : Code) (t : Option Token) : Told (Chk.error c t : Chk α) :=
  fun s => ⟨(fun b s' h => by cases h), fun s' h => by cases h; simp [SS.diag]⟩
theorem Told.get : Told Chk.get := fun s => ⟨(fun b s' h => by cases h; exact .refl s), fun s' h => by cases h⟩
theorem Told.ofOption (o : Option α) : Told (Chk.ofOption o) := by
  cases o with
  | none => exact .ub
  | some a => exact .pure a
theorem Told.bind {m : Chk α} {f : α → Chk β} (hm : Told m) (hf : ∀ a, Told (f a)) : Told (m >>= f) := by
  intro s
  rw [bind_def]
  obtain ⟨h1, h2⟩ := hm s
  cases h : m s with
  | ok a s₁ =>
    obtain ⟨h3, h4⟩ := hf a s₁
    exact ⟨fun b s' h' => (h1 a s₁ h).trans (h3 b s' h'), fun s' h' => h4 s' h'⟩
  | fail s₁ => exact ⟨(fun b s' h' => by cases h'), fun s' h' => by cases h'; exact h2 s₁ h⟩
  | ub => exact ⟨(fun b s' h' => by cases h'), fun s' h' => by cases h'⟩
theorem Told.ite {c : Prop} [Decidable c] {m m' : Chk α} (h : Told m) (h' : Told m') : Told (if c then m else m') := by
  split
  · exact h
  · exact h'

theorem Told.lookup (x : List Char) : Told (lookup x) := by
  intro s
  unfold Skull.lookup
  split
  · exact ⟨(fun b s' h => by cases h; exact .refl s), fun s' h => by cases h⟩
  · exact ⟨(fun b s' h => by cases h), fun s' h => by cases h⟩

theorem Told.symAt (id : Nat) : Told (symAt id) := by
  intro s
  unfold Skull.symAt
  split
  · exact ⟨(fun b s' h => by cases h; exact .refl s), fun s' h => by cases h⟩
  · exact ⟨(fun b s' h => by cases h), fun s' h => by cases h⟩

theorem Told.updSym (id : Nat) {f : Symbol → Symbol} (hf : ∀ sym, (f sym).tag = sym.tag) : Told (updSym id f) := by
  intro s
  unfold Skull.updSym
  split
  · rename_i sym hs
    refine ⟨(fun b s' h => ?_), fun s' h => by cases h⟩
    cases h
    refine ⟨fun i sy h => ?_, fun sc h => .inr ⟨sc, h, rfl⟩⟩
    by_cases hi : i = id
    · subst hi
      rw [hs] at h
      cases h
      exact ⟨f sym, by simp [List.getElem?_set, get_lt hs], hf sym⟩
    · exact ⟨sy, by simp only [List.getElem?_set, if_neg (Ne.symm hi)]; exact h, rfl⟩
  · exact ⟨(fun b s' h => by cases h), fun s' h => by cases h⟩

theorem Told.updVar (id : Nat) (f : Variable → Variable) : Told (updVar id f) := by
  apply Told.updSym
  intro sym
  cases hk : sym.kind <;> simp [Symbol.tag, hk, SymKind.symType]

theorem Told.updFunc (id : Nat) (f : Func → Func) : Told (updFunc id f) := by
  apply Told.updSym
  intro sym
  cases hk : sym.kind <;> simp [Symbol.tag, hk, SymKind.symType]

theorem Told.newSym (sym : Symbol) : Told (newSym sym) := by
  intro s
  refine ⟨(fun b s' h => ?_), fun s' h => by cases h⟩
  cases h
  exact ⟨fun i sy h => ⟨sy, by simp only [List.getElem?_append_left (get_lt h)]; exact h, rfl⟩, fun sc h => .inr ⟨sc, h, rfl⟩⟩

theorem Told.report (c : Code) (t : Option Token) : Told (report c t) := by
  intro s
  exact ⟨(fun b s' h => by cases h; exact .same rfl rfl), fun s' h => by cases h⟩

theorem Told.warn (cfg : Cfg) (c : Code) (t : Option Token) : Told (warn cfg c t) := by
  intro s
  unfold Skull.warn
  rw [bind_def]
  simp only [Skull.report]
  split
  · exact ⟨(fun b s' h => by cases h), fun s' h => by cases h; simp [SS.diag]⟩
  · exact ⟨(fun b s' h => by cases h; exact .same rfl rfl), fun s' h => by cases h⟩

theorem Told.tokName (t : Token) : Told (tokName t) := .ofOption _
theorem Told.headTok (l : List Token) : Told (headTok l) := by
  cases l with
  | nil => exact .ub
  | cons => exact .pure _

/-! ### Scopes -/

theorem kept_set {s : SS} {i : Nat} {sc sc' : Scope} {x : Option Nat} (h : s.scopes[i]? = some sc) (hs : sc'.symbols = sc.symbols) :
    Kept s { s with scopes := s.scopes.set i sc', scope := x } := by
  refine ⟨fun id sym h => ⟨sym, h, rfl⟩, fun c hc => ?_⟩
  rcases List.mem_or_eq_of_mem_set hc with h1 | h1
  · exact .inr ⟨c, h1, rfl⟩
  · subst h1; exact .inr ⟨sc, List.mem_of_getElem? h, hs⟩

theorem kept_append {s : SS} {l : List Scope} {x : Option Nat} (hl : ∀ sc ∈ l, sc.symbols = none) :
    Kept s { s with scopes := s.scopes ++ l, scope := x } := by
  refine ⟨fun id sym h => ⟨sym, h, rfl⟩, fun c hc => ?_⟩
  rcases List.mem_append.1 hc with h1 | h1
  · exact .inr ⟨c, h1, rfl⟩
  · exact .inl (hl c h1)

theorem told_parentScope : Told parentScope := by
  intro s
  unfold parentScope
  split
  · exact ⟨(fun b s' h => by cases h; exact .refl s), fun s' h => by cases h⟩
  · refine ⟨(fun b s' h => ?_), fun s' h => by cases h⟩
    cases h
    exact kept_append (s := s) (x := s.scope) (by simp)

theorem told_enterChild (i : Nat) : Told (enterChild i) := by
  intro s
  unfold enterChild
  split
  · exact ⟨(fun b s' h => by cases h), fun s' h => by cases h⟩
  · rename_i sc hsc
    split
    · split
      · exact ⟨(fun b s' h => by cases h), fun s' h => by cases h⟩
      · rename_i hc
        exact ⟨(fun b s' h => by cases h; exact kept_set hc rfl), fun s' h => by cases h⟩
    · refine ⟨(fun b s' h => ?_), fun s' h => by cases h⟩
      cases h
      have h1 : Kept s { s with scopes := s.scopes.set i { sc with child := some s.scopes.length }, scope := s.scope } := kept_set hsc rfl
      exact h1.trans (kept_append (by simp))

theorem told_makeChildScope : Told makeChildScope := .bind told_parentScope told_enterChild

theorem told_makeAdjacent : Told makeAdjacentScope := by
  intro s
  unfold makeAdjacentScope
  split
  · exact ⟨(fun b s' h => by cases h), fun s' h => by cases h⟩
  · split
    · exact ⟨(fun b s' h => by cases h), fun s' h => by cases h⟩
    · rename_i i _ _ sc hsc
      refine ⟨(fun b s' h => ?_), fun s' h => by cases h⟩
      cases h
      have h1 : Kept s { s with scopes := s.scopes.set i { sc with next := some s.scopes.length }, scope := s.scope } := kept_set hsc rfl
      exact h1.trans (kept_append (by simp))

theorem told_isTop : Told isTopLvlScope := by
  intro s
  unfold isTopLvlScope
  refine ⟨fun b s' h => ?_, fun s' h => ?_⟩ <;> split at h <;> try cases h
  · exact .refl s
  · split at h
    · cases h
    · cases h; exact .refl s
  · split at h <;> cases h

theorem told_resetHead : Told resetScopeHead := by
  intro s
  unfold resetScopeHead
  refine ⟨fun b s' h => ?_, fun s' h => ?_⟩ <;> split at h <;> try cases h
  · exact .refl s
  · exact .same rfl rfl

theorem told_toParent : Told toParent := by
  intro s
  unfold toParent
  refine ⟨fun b s' h => ?_, fun s' h => ?_⟩ <;> split at h <;> try cases h
  · exact .refl s
  · split at h <;> cases h
    exact .same rfl rfl
  · split at h <;> cases h

theorem told_restoreParent : Told restoreParentScope := .bind told_resetHead fun _ => told_toParent

/-! ### Expressions -/

theorem told_findFuncByName (x : List Char) : Told (findFuncByName x) := by
  refine .bind (.lookup x) fun o => ?_
  cases o with
  | none => exact .pure _
  | some id =>
    refine .bind (.symAt id) fun sym => ?_
    split <;> exact .pure _

theorem told_findType (x : List Char) : Told (findType x) := by
  refine .bind (.lookup x) fun o => ?_
  cases o with
  | none => exact .pure _
  | some id =>
    refine .bind (.symAt id) fun sym => ?_
    split <;> exact .pure _

theorem told_tokenToType : ∀ l, Told (tokenToType l)
  | [] => .ub
  | t :: rest => by
    unfold tokenToType
    refine .ite (.bind (.tokName t) fun x => told_findType x) (.ite (.bind (told_tokenToType rest) fun _ => .pure _) (.pure _))

theorem told_scopeFindVar (t : Token) : Told (scopeFindVar t) := by
  refine .bind (.tokName t) fun x => .bind (.lookup x) fun o => ?_
  cases o with
  | none => exact .error _ _
  | some id =>
    refine .bind (.symAt id) fun sym => ?_
    split
    · exact .ite (.pure _) (.error _ _)
    all_goals first | exact .error _ _ | exact .ub

theorem told_evalLit (t : Token) (e : Ev α) : Told (evalLit t e) := by
  cases e <;> first | exact .pure _ | exact .error _ _ | exact .ub

theorem told_validateConst (cfg : Cfg) {t : Token} (ht : isLiteral t = true) : Told (validateConst cfg t) := by
  unfold validateConst
  split
  · exact .bind (told_evalLit _ _) fun _ => .pure _
  · exact .bind (told_evalLit _ _) fun _ => .pure _
  · exact .pure _
  · exact .bind (told_evalLit _ _) fun _ => .pure _
  · refine .bind (told_evalLit _ _) fun _ => ?_
    exact .ite (.pure _) (.error _ _)
  · rename_i h1 h2 h3 h4 h5
    simp only [isLiteral, Bool.or_eq_true, decide_eq_true_eq, or_assoc] at ht
    rcases ht with h | h | h | h | h
    · exact absurd h h1
    · exact absurd h h2
    · exact absurd h h3
    · exact absurd h h4
    · exact absurd h h5

theorem told_isNumeric (r : AExpr) (t : Token) : Told (isNumeric r t) := .ite (.pure _) (.error _ _)

theorem told_restrictions (o : Oper) (r : AExpr) (t : Token) : Told (validateRestrictions o r t) := by
  have hd : Told (notDivByZero r) := by
    unfold notDivByZero
    split
    · refine .ite ?_ (.pure _)
      split
      · exact .ite (.error _ _) (.pure _)
      · exact .ub
      · exact .pure _
    · exact .pure _
  have hp : Told (validatePow r) := .ite (.error _ _) (.pure _)
  unfold validateRestrictions
  split
  all_goals first
    | exact told_isNumeric r t
    | exact .bind hd fun _ => told_isNumeric r t
    | exact .bind hp fun _ => told_isNumeric r t
    | exact .ite (.error _ _) (.pure _)
    | exact .pure _
    | (split <;> first | exact .pure _ | exact .error _ _)

theorem told_exprType (o : Oper) (ty : Ty) : Told (exprType o ty) := by
  unfold exprType
  split <;> first | exact .pure _ | (split <;> first | exact .pure _ | exact .ub)

theorem told_funcAt (id : Nat) : Told (funcAt id) := by
  refine .bind (.symAt id) fun sym => ?_
  split
  · exact .pure _
  · exact .ub

theorem told_findFuncByToken (t : Token) : Told (findFuncByToken t) := by
  refine .bind (.tokName t) fun x => .bind (told_findFuncByName x) fun o => ?_
  cases o with
  | none => exact .error _ _
  | some id => exact .pure _

theorem told_checkCount (f : Func) (t : Token) (ps : Args) (n : Nat) : Told (checkCount f t ps n) := by
  unfold checkCount
  refine .ite (.error _ _) ?_
  split
  · exact .ite (.error _ _) (.pure _)
  · exact .pure _

mutual
theorem told_expr (cfg : Cfg) : ∀ e, LeavesOf e → Told (validateExpr cfg e)
  | .missing, _ => by unfold validateExpr; exact .ub
  | .ident t, _ => by
    unfold validateExpr
    exact .bind (told_scopeFindVar t) fun p => .bind (.updVar _ _) fun _ => .pure _
  | .const t, h => by
    unfold validateExpr
    exact .bind (told_validateConst cfg h) fun _ => .pure _
  | .call name params num, h => by
    unfold validateExpr
    exact .bind (told_findFuncByToken name) fun id => .bind (told_funcAt id) fun f => .bind (.updFunc _ _) fun _ =>
      .bind (told_checkCount _ _ _ _) fun _ => .bind (told_args cfg params h.2 _) fun _ => .pure _
  | .un o rhs, h => by
    unfold validateExpr
    exact .bind (.ite (.pure _) .ub) fun _ => .bind (told_expr cfg rhs h) fun r => .bind (told_restrictions _ _ _) fun _ =>
      .bind (told_exprType _ _) fun _ => .pure _
  | .bin o lhs rhs, h => by
    unfold validateExpr
    exact .bind (.ite (.pure _) .ub) fun _ => .bind (told_expr cfg rhs h.2) fun r => .bind (told_expr cfg lhs h.1) fun l =>
      .bind (.ite (.error _ _) (.pure _)) fun _ => .bind (told_restrictions _ _ _) fun _ =>
      .bind (told_exprType _ _) fun _ => .pure _
theorem told_args (cfg : Cfg) : ∀ args, LeavesOfArgs args → ∀ tys, Told (validateArgs cfg tys args)
  | .nil, _, [] => by unfold validateArgs; exact .pure _
  | .nil, _, _ :: _ => by unfold validateArgs; exact .ub
  | .cons _ _ _, _, [] => by unfold validateArgs; exact .pure _
  | .cons first e next, h, ty :: tys => by
    unfold validateArgs
    exact .bind (told_expr cfg e h.1) fun a => .ite (.error _ _) (.bind (told_args cfg next h.2 tys) fun _ => .pure _)
end

/-! ### Names that are there -/

theorem splitDot_plain : ∀ {x : List Char}, '.' ∉ x → splitDot x = none
  | [], _ => rfl
  | c :: s, h => by
    unfold splitDot
    rw [if_neg (fun e => h (by rw [e]; exact .head _)), splitDot_plain (fun e => h (.tail _ e))]
    rfl

theorem splitName_none {symbols : Option (HashTable Nat)} {x : List Char} (h : '.' ∉ x) : splitName symbols x = none := by
  cases symbols with
  | none => rfl
  | some _ => exact splitDot_plain h

/-- A name without a dot is found in a table. -/
theorem findName_in {scopes : List Scope} {syms : List Symbol} {x : List Char} (hx : '.' ∉ x) :
    ∀ (f : Nat) (i : Option Nat) (id : Nat), findName f scopes syms i x = some (some id) →
      ∃ sc ∈ scopes, htGet sc.symbols x = some (some id)
  | 0, _, _, h => by cases h
  | _ + 1, none, _, h => by cases h
  | f + 1, some i, id, h => by
    unfold findName at h
    split at h
    · cases h
    · rename_i sc hsc
      split at h
      · cases h
      · rw [splitName_none hx] at h
        simp only at h
        split at h
        · cases h
        · rename_i id' hg
          cases h
          exact ⟨sc, List.mem_of_getElem? hsc, hg⟩
        · split at h
          · exact findName_in hx f _ _ h
          · split at h
            · exact findName_in hx f _ _ h
            · cases h

/-- What is in the table of the current scope is found. -/
theorem findName_here {scopes : List Scope} {syms : List Symbol} {x : List Char} (hx : '.' ∉ x) {f i id : Nat} {sc : Scope}
    (hsc : scopes[i]? = some sc) (hg : htGet sc.symbols x = some (some id)) : findName (f + 1) scopes syms (some i) x = some (some id) := by
  have h1 : sc.symbols.isSome = true := by
    cases h : sc.symbols with
    | none => rw [h] at hg; cases hg
    | some _ => rfl
  unfold findName
  simp [hsc, h1, splitName_none hx, hg]

theorem Sourced.found {D s x id} (hk : Sourced D s) (hx : '.' ∉ x) (h : s.find x = some (some id)) :
    ∃ sym, s.syms[id]? = some sym ∧ sym.name = x ∧ ∃ e ∈ D, KnownAs sym e := by
  obtain ⟨sc, h1, h2⟩ := findName_in hx _ _ _ h
  obtain ⟨own, h3, h4⟩ := hk sc h1
  rw [tabRep_get h3] at h2
  exact h4 _ (mem_of_lookup (Option.some.inj h2))

/-- What the search for a kind of symbol says. -/
theorem findSymbolType_ok {x : List Char} {s s' : SS} {ty : SymType} (h : findSymbolType x s = .ok ty s') :
    s' = s ∧
    (ty = .unknown → ∀ id sym, s.find x = some (some id) → s.syms[id]? = some sym →
      sym.kind.symType = .alias ∧ sym.exprType = none) ∧
    (ty = .ns → ∃ id sym, s.find x = some (some id) ∧ s.syms[id]? = some sym ∧ sym.kind.symType = .ns) := by
  unfold findSymbolType at h
  rw [bind_def] at h
  unfold lookup at h
  cases hf : s.find x with
  | none => rw [hf] at h; cases h
  | some o =>
    rw [hf] at h
    simp only at h
    rw [bind_def] at h
    cases o with
    | none =>
      simp only [directType, pure_def] at h
      have h0 : s' = s ∧ ty ≠ .ns := by
        simp only [funcOrAlias, findFuncByName, findType, bind_def, Skull.lookup, hf, pure_def] at h
        cases hb : findBuiltinType x with
        | none => rw [hb] at h; cases h; exact ⟨rfl, nofun⟩
        | some _ => rw [hb] at h; cases h; exact ⟨rfl, nofun⟩
      exact ⟨h0.1, fun _ id sym h1 => (by cases h1), fun h1 => absurd h1 h0.2⟩
    | some id =>
      simp only [directType, bind_def] at h
      unfold Skull.symAt at h
      cases hs : s.syms[id]? with
      | none => rw [hs] at h; cases h
      | some sym =>
        rw [hs] at h
        simp only at h
        cases hk : sym.kind with
        | var v =>
          simp only [hk, pure_def] at h
          cases h
          exact ⟨rfl, nofun, nofun⟩
        | ns v =>
          simp only [hk, pure_def] at h
          cases h
          exact ⟨rfl, nofun, fun _ => ⟨id, sym, rfl, hs, by rw [hk]; rfl⟩⟩
        | func v =>
          simp only [hk, pure_def, funcOrAlias, findFuncByName, bind_def, Skull.lookup, hf, Skull.symAt, hs] at h
          cases h
          exact ⟨rfl, nofun, nofun⟩
        | alias =>
          simp only [hk, pure_def, funcOrAlias, findFuncByName, findType, bind_def, Skull.lookup, hf, Skull.symAt, hs] at h
          cases he : sym.exprType with
          | none =>
            rw [he] at h
            cases h
            refine ⟨rfl, fun _ i sy h1 h2 => ?_, nofun⟩
            cases h1
            rw [hs] at h2
            cases h2
            exact ⟨by rw [hk]; rfl, he⟩
          | some _ =>
            rw [he] at h
            cases h
            exact ⟨rfl, nofun, nofun⟩

/-! ### Declarations -/

/-- Symbols of `B` are as they were. -/
def Lasting (B : List Symbol) (s : SS) : Prop :=
  ∀ (id : Nat) (sym : Symbol), B[id]? = some sym → ∃ sym', s.syms[id]? = some sym' ∧ sym'.tag = sym.tag

theorem Lasting.keep {B s s'} (h : Lasting B s) (hk : Kept s s') : Lasting B s' := by
  intro id sym h1
  obtain ⟨sym', h2, h3⟩ := h id sym h1
  obtain ⟨sym'', h4, h5⟩ := hk.syms id sym' h2
  exact ⟨sym'', h4, h5.trans h3⟩

/-- Both at once. -/
structure From (B : List Symbol) (D : List (Stmt × List Token)) (s : SS) : Prop where
  src : Sourced D s
  last : Lasting B s

theorem From.keep {B D s s'} (h : From B D s) (hk : Kept s s') : From B D s' := ⟨h.src.keep hk, h.last.keep hk⟩
theorem From.mono {B D D' s} (h : From B D s) (hs : ∀ e ∈ D, e ∈ D') : From B D' s := ⟨h.src.mono hs, h.last⟩

/-- Started where `I` holds, the step ends where `Q` holds; when it fails there is a diagnostic, or `P`. -/
def Tri (P : Prop) (I : SS → Prop) (m : Chk α) (Q : α → SS → Prop) : Prop :=
  ∀ s, I s → (∀ a s', m s = .ok a s' → Q a s') ∧ ∀ s', m s = .fail s' → s'.diags ≠ [] ∨ P

theorem Tri.bind {P : Prop} {I : SS → Prop} {m : Chk α} {Q : α → SS → Prop} {f : α → Chk β} {R : β → SS → Prop}
    (hm : Tri P I m Q) (hf : ∀ a, Tri P (Q a) (f a) R) : Tri P I (m >>= f) R := by
  intro s hs
  rw [bind_def]
  obtain ⟨h1, h2⟩ := hm s hs
  cases h : m s with
  | ok a s₁ => exact hf a s₁ (h1 a s₁ h)
  | fail s₁ => exact ⟨(fun b s' h' => by cases h'), fun s' h' => by cases h'; exact h2 s₁ h⟩
  | ub => exact ⟨(fun b s' h' => by cases h'), fun s' h' => by cases h'⟩

theorem Tri.pure {P : Prop} {I : SS → Prop} {a : α} {Q : α → SS → Prop} (h : ∀ s, I s → Q a s) : Tri P I (Pure.pure a) Q :=
  fun s hs => ⟨(fun b s' h' => by cases h'; exact h s hs), fun s' h' => by cases h'⟩

theorem Tri.pre {P : Prop} {I I' : SS → Prop} {m : Chk α} {Q : α → SS → Prop} (h : Tri P I' m Q) (hi : ∀ s, I s → I' s) : Tri P I m Q :=
  fun s hs => h s (hi s hs)

theorem Tri.post {P : Prop} {I : SS → Prop} {m : Chk α} {Q Q' : α → SS → Prop} (h : Tri P I m Q) (hq : ∀ a s, Q a s → Q' a s) :
    Tri P I m Q' :=
  fun s hs => ⟨fun a s' h' => hq a s' ((h s hs).1 a s' h'), (h s hs).2⟩

/-- What is said stays said while symbols and tables do. -/
def Firm (I : SS → Prop) : Prop := ∀ s s', I s → Kept s s' → I s'

theorem From.firm (B D) : Firm (From B D) := fun _ _ h hk => h.keep hk

/-- There is a symbol that the statement declares. -/
def Names (e : Stmt × List Token) (id : Nat) (s : SS) : Prop := ∃ sym, s.syms[id]? = some sym ∧ KnownAs sym e

theorem has_firm (B D e id) : Firm (fun s => From B D s ∧ Names e id s) := by
  rintro s s' ⟨h1, sym, h2, h3⟩ hk
  obtain ⟨sym', h4, h5⟩ := hk.syms _ _ h2
  exact ⟨h1.keep hk, sym', h4, h3.keep h5⟩

theorem Told.tri {P : Prop} {I : SS → Prop} {m : Chk α} (h : Told m) (hi : Firm I) : Tri P I m (fun _ => I) :=
  fun s hs => ⟨fun a s' h' => hi s s' hs ((h s).1 a s' h'), fun s' h' => .inl ((h s).2 s' h')⟩

theorem newSym_tri {P : Prop} {B D e} {sym : Symbol} (h : KnownAs sym e) : Tri P (From B D) (newSym sym) (fun id s => From B D s ∧ Names e id s) := by
  intro s hs
  refine ⟨fun a s' h' => ?_, fun s' h' => by cases h'⟩
  refine ⟨hs.keep ((Told.newSym sym s).1 a s' h'), sym, ?_, h⟩
  cases h'
  simp

theorem currentScope_told : Told currentScope := by
  intro s
  unfold currentScope
  split
  · exact ⟨(fun b s' h => by cases h; exact .refl s), fun s' h => by cases h⟩
  · exact ⟨(fun b s' h => by cases h; exact kept_append (by simp)), fun s' h => by cases h⟩

theorem currentScope_ok {s s' : SS} {i : Nat} (h : currentScope s = .ok i s') :
    (s' = s ∧ s.scope = some i) ∨ (s.scope = none ∧ s'.scopes[i]? = some {}) := by
  unfold currentScope at h
  split at h
  · rename_i i' hi
    cases h
    exact .inl ⟨rfl, hi⟩
  · rename_i hi
    cases h
    exact .inr ⟨hi, by simp⟩

theorem addToScope_known {B D D' s s' e i id sym b} (hk : From B D s) (hs : s.syms[id]? = some sym) (he : e ∈ D') (hD : ∀ e ∈ D, e ∈ D')
    (hka : KnownAs sym e) (h : addToScope i sym.name id s = .ok b s') :
    (b = true ∧ From B D' s') ∨ (b = false ∧ s'.diags = s.diags ∧ ∃ sc id', s.scopes[i]? = some sc ∧ htGet sc.symbols sym.name = some (some id')) := by
  unfold addToScope at h
  split at h
  · cases h
  · rename_i sc hsc
    obtain ⟨own, h1, h2⟩ := hk.src sc (List.mem_of_getElem? hsc)
    obtain ⟨ht, h3, h4⟩ := tabRep_add h1 sym.name id
    rw [h3] at h
    simp only [SRes.ok.injEq] at h
    obtain ⟨rfl, rfl⟩ := h
    cases hl : own.lookup sym.name with
    | none =>
      left
      refine ⟨rfl, fun c hc => ?_, hk.last⟩
      rcases List.mem_or_eq_of_mem_set hc with h5 | h5
      · obtain ⟨own', h6, h7⟩ := hk.src c h5
        refine ⟨own', h6, fun p hp => ?_⟩
        obtain ⟨sy, h8, h9, e', h10, h11⟩ := h7 p hp
        exact ⟨sy, h8, h9, e', hD e' h10, h11⟩
      · subst h5
        refine ⟨_, h4 hl, fun p hp => ?_⟩
        rcases List.mem_cons.1 hp with rfl | hp
        · exact ⟨sym, hs, rfl, e, he, hka⟩
        · obtain ⟨sy, h8, h9, e', h10, h11⟩ := h2 p hp
          exact ⟨sy, h8, h9, e', hD e' h10, h11⟩
    | some id' =>
      right
      exact ⟨rfl, rfl, sc, id', hsc, by rw [tabRep_get h1, hl]⟩

theorem pair_sublist {a b : α} {l : List α} (h : a ∈ l) : [a, b].Sublist (l ++ [b]) := by
  have h1 : [a].Sublist l := List.singleton_sublist.2 h
  exact h1.append (List.Sublist.refl [b])

theorem told_directType (o : Option Nat) : Told (directType o) := by
  cases o with
  | none => exact .pure _
  | some id =>
    refine .bind (.symAt id) fun sym => ?_
    split <;> exact .pure _

theorem told_findSymbolType (x : List Char) : Told (findSymbolType x) := by
  refine .bind (.lookup x) fun o => .bind (told_directType o) fun d => ?_
  split
  · refine .bind (told_findFuncByName x) fun o => ?_
    split
    · exact .pure _
    · refine .bind (told_findType x) fun o => ?_
      split <;> exact .pure _
  · exact .pure _

theorem told_exists (sym : Symbol) : Told (symbolAlreadyExists sym) := by
  refine .bind (told_findSymbolType _) fun ty => .ite (.pure _) (.bind ?_ fun _ => .pure _)
  exact .ite (.report _ _) (.ite (.report _ _) (.ite (.report _ _) (.ite (.report _ _) (.pure _))))

theorem scopeAddSymbol_fail {id : Nat} {s s' : SS} (h : scopeAddSymbol id s = .fail s') : s'.diags ≠ [] := by
  unfold scopeAddSymbol at h
  rw [bind_def] at h
  cases h1 : symAt id s with
  | fail s₁ => rw [h1] at h; cases h; exact (Told.symAt id s).2 _ h1
  | ub => rw [h1] at h; cases h
  | ok sym s₁ =>
    rw [h1] at h
    simp only at h
    rw [bind_def] at h
    cases h2 : symbolAlreadyExists sym s₁ with
    | fail s₂ => rw [h2] at h; cases h; exact (told_exists sym s₁).2 _ h2
    | ub => rw [h2] at h; cases h
    | ok b s₂ =>
      rw [h2] at h
      cases b with
      | true => cases h
      | false =>
        simp only [Bool.false_eq_true, if_false] at h
        rw [bind_def] at h
        unfold currentScope at h
        split at h
        · rename_i i s₃ h3
          unfold addToScope at h
          split at h
          · cases h
          · split at h <;> cases h
        · rename_i s₃ h3
          split at h3 <;> cases h3
        · cases h

/-- Adding a symbol fails with a diagnostic, or the names say why not. -/
theorem mustAdd_tri {B D e id} :
    Tri (Redeclares (D ++ [e])) (fun s => From B D s ∧ Names e id s) (mustAdd id) (fun _ s => From B (D ++ [e]) s) := by
  rintro s ⟨hk, sym, hs, hka⟩
  have hadd : ∀ b s', scopeAddSymbol id s = .ok b s' →
      (b = true → From B (D ++ [e]) s') ∧ (b = false → s'.diags ≠ [] ∨ Redeclares (D ++ [e])) := by
    intro b s' h
    unfold scopeAddSymbol at h
    obtain ⟨sy, s₁, h1, hA⟩ := bind_ok.1 h
    clear h
    unfold Skull.symAt at h1
    rw [hs] at h1
    cases h1
    obtain ⟨ex, s₂, h2, h⟩ := bind_ok.1 hA
    clear hA
    unfold symbolAlreadyExists at h2
    obtain ⟨ty, s₃, h3, h2'⟩ := bind_ok.1 h2
    clear h2
    obtain ⟨rfl, hun, hns⟩ := findSymbolType_ok h3
    by_cases hd : '.' ∈ sym.name
    · refine ⟨?_, fun _ => .inr (.inl ⟨e, sym.name, by simp, hka.1, hd⟩)⟩
      intro hb
      subst hb
      split at h2'
      · cases h2'
        simp only [Bool.false_eq_true, if_false] at h
        obtain ⟨i, s₄, h4, h⟩ := bind_ok.1 h
        have k := (currentScope_told _).1 _ _ h4
        obtain ⟨sy', h5, h6⟩ := k.syms _ _ hs
        have h5' : s₄.syms[id]? = some sym := by
          have : s₄.syms = s₂.syms := by unfold currentScope at h4; split at h4 <;> cases h4 <;> rfl
          rw [this]; exact hs
        rcases addToScope_known (hk.keep k) h5' (D' := D ++ [e]) (e := e) (by simp) (fun x hx => by simp [hx]) hka h with h7 | h7
        · exact h7.2
        · cases h7.1
      · obtain ⟨u, s₄, h4, h2''⟩ := bind_ok.1 h2'
        cases h2''
        simp only [if_true] at h
        cases h
    · split at h2'
      · rename_i hty
        cases h2'
        simp only [Bool.false_eq_true, if_false] at h
        obtain ⟨i, s₄, h4, h⟩ := bind_ok.1 h
        have k := (currentScope_told _).1 _ _ h4
        have h5' : s₄.syms[id]? = some sym := by
          have : s₄.syms = s₂.syms := by unfold currentScope at h4; split at h4 <;> cases h4 <;> rfl
          rw [this]; exact hs
        rcases addToScope_known (hk.keep k) h5' (D' := D ++ [e]) (e := e) (by simp) (fun x hx => by simp [hx]) hka h with h7 | ⟨h7, _, sc, id', h8, h9⟩
        · exact ⟨fun _ => h7.2, fun hb => by rw [h7.1] at hb; cases hb⟩
        · refine ⟨(fun hb => by rw [h7] at hb; cases hb), fun _ => .inr (.inr ?_)⟩
          rcases currentScope_ok h4 with ⟨rfl, h10⟩ | ⟨_, h10⟩
          · have hf : s₄.find sym.name = some (some id') := by
              unfold SS.find
              rw [h10]
              have : ∃ f, findFuel s₄.scopes sym.name = f + 1 := ⟨findFuel s₄.scopes sym.name - 1, by
                have : 0 < findFuel s₄.scopes sym.name := Nat.mul_pos (by omega) (by omega)
                omega⟩
              obtain ⟨f, hf⟩ := this
              rw [hf]
              exact findName_here hd h8 h9
            obtain ⟨sy', h11, h12, e', h13, h14⟩ := hk.src.found hd hf
            obtain ⟨h15, h16⟩ := hun hty id' sy' hf h11
            exact ⟨e', e, sym.name, pair_sublist h13, h12 ▸ h14.1, hka.1, .inr (h14.2.2 h15 h16)⟩
          · rw [h10] at h8
            cases h8
            cases h9
      · rename_i hty
        obtain ⟨u, s₄, h4, h2''⟩ := bind_ok.1 h2'
        cases h2''
        simp only [if_true] at h
        cases h
        refine ⟨nofun, fun _ => ?_⟩
        unfold reportExisting at h4
        split at h4
        · cases h4; exact .inl (by simp [SS.diag])
        · rename_i hne
          simp only [ne_eq, Decidable.not_not] at hne
          split at h4
          · cases h4; exact .inl (by simp [SS.diag])
          · split at h4
            · cases h4; exact .inl (by simp [SS.diag])
            · split at h4
              · cases h4; exact .inl (by simp [SS.diag])
              · have hn : ty = .ns := by cases ty <;> simp_all
                obtain ⟨id', sy', h5, h6, h7⟩ := hns hn
                obtain ⟨sy'', h8, h9, e', h10, h11⟩ := hk.src.found hd h5
                rw [h6] at h8
                cases h8
                refine .inr (.inr ⟨e', e, sym.name, pair_sublist h10, h9 ▸ h11.1, hka.1, .inl ⟨h11.2.1 h7, hka.2.1 ?_⟩⟩)
                rw [← hne, hn]
  unfold mustAdd
  rw [bind_def]
  cases h : scopeAddSymbol id s with
  | ok b s' =>
    obtain ⟨h1, h2⟩ := hadd b s' h
    cases b with
    | true => exact ⟨(fun a s'' h' => by cases h'; exact h1 rfl), fun s'' h' => by cases h'⟩
    | false => exact ⟨(fun a s'' h' => by cases h'), fun s'' h' => by cases h'; exact h2 rfl⟩
  | fail s' => exact ⟨(fun a s'' h' => by cases h'), fun s'' h' => by cases h'; exact .inl (scopeAddSymbol_fail h)⟩
  | ub => exact ⟨(fun a s'' h' => by cases h'), fun s'' h' => by cases h'⟩

theorem From.more {B D s e} (h : From B D s) : From B (D ++ [e]) s := h.mono fun x hx => by simp [hx]

/-! ### Statements -/

theorem told_makeVariable (ty : Ty) (x : List Char) (c : Bool) : Told (makeVariable ty x c) := .ite (.pure _) .ub

theorem Tri.assume {P V : Prop} {I : SS → Prop} {m : Chk α} {Q : α → SS → Prop} (h : V → Tri P I m Q) :
    Tri P (fun s => I s ∧ V) m Q := fun s hs => h hs.2 s hs.1

theorem Told.triVal {P : Prop} {I : SS → Prop} {m : Chk α} {V : α → Prop} (h : Told m) (hi : Firm I)
    (hv : ∀ s a s', m s = .ok a s' → V a) : Tri P I m (fun a s => I s ∧ V a) :=
  fun s hs => ⟨fun a s' h' => ⟨hi s s' hs ((h s).1 a s' h'), hv s a s' h'⟩, fun s' h' => .inl ((h s).2 s' h')⟩

theorem Tri.fail {P : Prop} {I : SS → Prop} {m : Chk α} {Q : α → SS → Prop} (h : Told m) (hn : ∀ s a s', m s ≠ .ok a s') : Tri P I m Q :=
  fun s _ => ⟨fun a s' h' => absurd h' (hn s a s'), fun s' h' => .inl ((h s).2 s' h')⟩

theorem Tri.error {P : Prop} {I : SS → Prop} {c : Code} {t : Option Token} {Q : α → SS → Prop} : Tri P I (Chk.error c t) Q :=
  .fail (.error c t) fun _ _ _ h => by cases h

theorem Tri.ub {P : Prop} {I : SS → Prop} {Q : α → SS → Prop} : Tri P I Chk.ub Q := .fail .ub fun _ _ _ h => by cases h

theorem tokName_tri {P : Prop} {B D} (t : Token) : Tri P (From B D) (tokName t) (fun x s => From B D s ∧ Text t x) :=
  (Told.tokName t).triVal (From.firm B D) fun _ _ _ h => (tokName_ok.1 h).1

theorem headTok_tri {P : Prop} {B D} (l : List Token) : Tri P (From B D) (headTok l) (fun t s => From B D s ∧ l.head? = some t) :=
  (Told.headTok l).triVal (From.firm B D) fun _ _ _ h => by
    obtain ⟨⟨ts, rfl⟩, _⟩ := headTok_ok.1 h
    rfl

theorem lookup_still' (x : List Char) : Still (lookup x) := by
  intro s a s' h
  unfold Skull.lookup at h
  split at h <;> cases h
  rfl

theorem symAt_still' (id : Nat) : Still (symAt id) := by
  intro s a s' h
  unfold Skull.symAt at h
  split at h <;> cases h
  rfl

theorem tokenToType_still : ∀ l, Still (tokenToType l)
  | [] => fun _ _ _ h => by cases h
  | t :: rest => by
    unfold tokenToType
    refine .ite (.bind (fun s a s' h => (tokName_ok.1 h).2) fun x => .bind (lookup_still' x) fun o => ?_)
      (.ite (.bind (tokenToType_still rest) fun _ => .pure _) (.pure _))
    cases o with
    | none => exact .pure _
    | some id =>
      refine .bind (symAt_still' id) fun sym => ?_
      split <;> exact .pure _

/-- An alias that has no type comes from an odd statement. -/
theorem typeAlias_tri {B D e isConst expr} {tok : List Token} (hd : ∀ t x, tok.head? = some t → Text t x → Declares x e)
    (hns : e.1 ≠ .namespaces) :
    Tri (Redeclares (D ++ [e])) (fun s => From B D s ∧ (isConst = true → validateTypeAlias.isTypeExpr expr = true → (∃ τ, tokenToType tok.tail.tail s = .ok (some τ) s) ∨ Odd e))
      (validateTypeAlias isConst expr tok) (fun _ s => From B (D ++ [e]) s) := by
  have herr : ∀ (l : List Token) (c : Code) (I : SS → Prop) (Q : Unit → SS → Prop),
      Tri (Redeclares (D ++ [e])) I (do let t ← headTok l; Chk.error c t) Q := fun l c I Q =>
    .fail (.bind (.headTok l) fun _ => .error _ _) fun s a s' h => by
      obtain ⟨_, _, _, h'⟩ := bind_ok.1 h
      cases h'
  unfold validateTypeAlias
  split
  · exact herr _ _ _ _
  · rename_i hc
    split
    · exact herr _ _ _ _
    · rename_i ht
      refine .bind (Q := fun ty s => From B D s ∧ (ty = none → Odd e)) ?_ fun ty => .assume fun ho =>
        .bind (headTok_tri tok) fun first => .assume fun hf => .bind (tokName_tri first) fun x => .assume fun hx =>
        .bind (newSym_tri (e := e) ⟨hd _ _ hf hx, nofun, fun _ h => ho h⟩) fun id => mustAdd_tri
      rintro s ⟨hk, hs⟩
      refine ⟨fun ty s' h => ?_, fun s' h => .inl ((told_tokenToType _ s).2 s' h)⟩
      refine ⟨hk.keep ((told_tokenToType _ s).1 _ _ h), fun hn => ?_⟩
      rcases hs (by simpa using hc) (by simpa using ht) with ⟨τ, h1⟩ | h1
      · rw [h1] at h
        cases h
        cases hn
      · exact h1

theorem told_linkage (cfg : Cfg) (ex : Bool) (x : List Char) : Told (linkageName cfg ex x) := .ite (.ofOption _) (.pure _)

theorem nodeToVar_tri {B D e cfg name isConst isImplicit isExported a} (hd : ∀ t x, name.head? = some t → Text t x → Declares x e) :
    Tri (Redeclares (D ++ [e])) (From B D) (nodeToVar cfg name isConst isImplicit isExported a) (fun _ s => From B (D ++ [e]) s) := by
  unfold nodeToVar
  have h1 : Told (notVoidFuncAssign a) := by
    unfold notVoidFuncAssign
    split
    · exact .ite (.error _ _) (.pure _)
    · exact .pure _
  have h2 : Told (declaredType isImplicit a name) := by
    unfold declaredType
    refine .ite (.pure _) (.bind (told_tokenToType _) fun o => ?_)
    split
    · exact .pure _
    · exact .error _ _
  refine .bind (h1.tri (From.firm B D)) fun _ => .bind (h2.tri (From.firm B D)) fun ty => .bind (headTok_tri name) fun t => .assume fun ht =>
    .bind (tokName_tri t) fun x => .assume fun hx => .bind ((told_makeVariable _ _ _).tri (From.firm B D)) fun v =>
    .bind ((told_linkage _ _ _).tri (From.firm B D)) fun l => .bind (newSym_tri (e := e) ⟨hd _ _ ht hx, nofun, nofun⟩) fun id =>
    .bind mustAdd_tri fun _ => .pure fun _ h => h

theorem told_warnTrivial (cfg : Cfg) (e : AExpr) (b : Bool) : Told (warnTrivial cfg e b) := by
  unfold warnTrivial
  split
  · exact .ite (.pure _) (.warn _ _ _)
  · exact .pure _

theorem told_varAt (id : Nat) : Told (varAt id) := by
  refine .bind (.symAt id) fun sym => ?_
  split
  · exact .pure _
  · exact .ub

theorem told_compatible (e : AExpr) (ty : Ty) : Told (compatible e ty) := .ite (.error _ _) (.pure _)

theorem varDef_tri {B D cfg name isConst isImplicit isExported expr} {tok tokEnd ts : List Token}
    (hw : Written tok ts (.varDef name isConst isImplicit isExported expr))
    (hv : ValueAt (.varDef name isConst isImplicit isExported expr) tokEnd) (hl : LeavesOf expr) :
    Tri (Redeclares (D ++ [(.varDef name isConst isImplicit isExported expr, tok)])) (From B D)
      (validateVarDef cfg name isConst isImplicit isExported expr tok tokEnd)
      (fun _ s => From B (D ++ [(.varDef name isConst isImplicit isExported expr, tok)]) s) := by
  unfold validateVarDef
  refine .bind (Q := fun o s => From B D s ∧ tokenToType tokEnd.tail s = .ok o s) ?_ fun o => ?_
  · intro s hs
    refine ⟨fun o s' h => ?_, fun s' h => .inl ((told_tokenToType _ s).2 s' h)⟩
    obtain rfl := tokenToType_still _ _ _ _ h
    exact ⟨hs, h⟩
  · cases o with
    | some τ =>
      refine .bind (.pre (typeAlias_tri (fun t x ht hx => ⟨t, .inr ht, hx⟩) nofun) ?_) fun _ => .pure fun _ h => h
      rintro s ⟨hk, ht⟩
      refine ⟨hk, fun hc hte => ?_⟩
      by_cases ho : isImplicit = true ∧ isExported = false
      · left
        refine ⟨τ, ?_⟩
        obtain ⟨n, ty, h1, h2, _⟩ := hv
        obtain rfl := h2 ho.1
        have : tok = name := by
          cases hw with
          | implicit hm =>
            cases hm with
            | none => rfl
            | «mut» => cases hc
            | «export» => cases ho.2
          | explicit => cases ho.1
        rw [this, h1]
        exact ht
      · right
        have h1 : IsTypeExpr expr := by
          unfold validateTypeAlias.isTypeExpr at hte
          unfold IsTypeExpr
          split at hte <;> simp_all
        cases isImplicit <;> cases isExported <;> simp_all [Odd]
    | none =>
      refine .pre (I' := From B D) ?_ fun s h => h.1
      unfold validateVar
      refine .bind ((told_expr cfg _ hl).tri (From.firm B D)) fun a => .bind (nodeToVar_tri fun t x ht hx => ⟨t, .inl ht, hx⟩) fun id =>
        .bind ((Told.updVar _ _).tri (From.firm B _)) fun _ => .bind ((told_varAt _).tri (From.firm B _)) fun v =>
        .bind ((told_compatible _ _).tri (From.firm B _)) fun _ => .bind ((told_warnTrivial _ _ _).tri (From.firm B _)) fun _ => .pure fun _ h => h

theorem scopeAddVar_tri {P : Prop} {B D e id} (he : e ∈ D) :
    Tri P (fun s => From B D s ∧ Names e id s) (scopeAddVar id) (fun b s => b = true → From B D s) := by
  rintro s ⟨hk, sym, hs, hka⟩
  refine ⟨fun b s' h => ?_, fun s' h => ?_⟩
  · intro hb
    subst hb
    unfold scopeAddVar at h
    obtain ⟨sy, s₁, h1, hA⟩ := bind_ok.1 h
    obtain rfl := symAt_still' _ _ _ _ h1
    obtain ⟨o, s₂, h2, hB⟩ := bind_ok.1 hA
    obtain rfl := lookup_still' _ _ _ _ h2
    cases o with
    | some _ => cases hB
    | none =>
      clear h hA
      unfold scopeAddSymbol at hB
      obtain ⟨sy, s₃, h3, hC⟩ := bind_ok.1 hB
      obtain rfl := symAt_still' _ _ _ _ h3
      unfold Skull.symAt at h3
      rw [hs] at h3
      cases h3
      obtain ⟨ex, s₄, h4, hD⟩ := bind_ok.1 hC
      have k4 := (told_exists _ _).1 _ _ h4
      cases ex with
      | true => cases hD
      | false =>
        simp only [Bool.false_eq_true, if_false] at hD
        obtain ⟨i, s₅, h5, hE⟩ := bind_ok.1 hD
        have k5 := k4.trans ((currentScope_told _).1 _ _ h5)
        obtain ⟨sym', h6, h7⟩ := k5.syms _ _ hs
        have hn : sym'.name = sym.name := by simp only [Symbol.tag, Prod.mk.injEq] at h7; exact h7.1
        rw [← hn] at hE
        rcases addToScope_known (hk.keep k5) h6 he (fun x hx => hx) (hka.keep h7) hE with h8 | h8
        · exact h8.2
        · cases h8.1
  · left
    unfold scopeAddVar at h
    rw [bind_def] at h
    cases h1 : symAt id s with
    | fail s₁ => rw [h1] at h; cases h; exact (Told.symAt id s).2 _ h1
    | ub => rw [h1] at h; cases h
    | ok sy s₁ =>
      rw [h1] at h
      simp only at h
      rw [bind_def] at h
      cases h2 : lookup sy.name s₁ with
      | fail s₂ => rw [h2] at h; cases h; exact (Told.lookup _ s₁).2 _ h2
      | ub => rw [h2] at h; cases h
      | ok o s₂ =>
        rw [h2] at h
        cases o with
        | some _ => cases h
        | none => exact scopeAddSymbol_fail h

theorem params_tri {P : Prop} {B D e ext} (he : e ∈ D) : ∀ ps : List Param, (∀ q ∈ ps, ∀ x, Text q.name x → Declares x e) →
    Tri P (From B D) (validateParams ext ps) (fun _ s => From B D s)
  | [], _ => .pure fun _ h => h
  | q :: ps, hd => by
    unfold validateParams
    refine .bind ((told_tokenToType _).tri (From.firm B D)) fun o => ?_
    cases o with
    | none => exact .error
    | some ty =>
      refine .bind (tokName_tri q.name) fun x => .assume fun hx => .bind ((told_makeVariable _ _ _).tri (From.firm B D)) fun v =>
        .bind (newSym_tri (e := e) ⟨hd q (.head _) x hx, nofun, nofun⟩) fun id => .bind (scopeAddVar_tri he) fun b => ?_
      cases b with
      | false => exact .error
      | true =>
        refine .pre (I' := From B D) ?_ fun s h => h rfl
        exact .bind (params_tri he ps fun r hr => hd r (.tail _ hr)) fun _ => .pure fun _ h => h

theorem told_enterFunc (id : Nat) : Told (enterFunc id) :=
  fun _ => ⟨(fun b s' h => by cases h; exact .same rfl rfl), fun s' h => by cases h⟩

theorem told_returnType (r : Option (List Token)) : Told (validateReturnType r) := by
  unfold validateReturnType
  split
  · exact .pure _
  · refine .bind (told_tokenToType _) fun o => ?_
    split
    · exact .pure _
    · exact .error _ _

theorem funcDecl_tri {B D cfg p tok} :
    Tri (Redeclares (D ++ [(.funcProto p, tok)])) (From B D) (validateFuncDecl cfg p) (fun _ s => From B (D ++ [(.funcProto p, tok)]) s) := by
  unfold validateFuncDecl
  have h1 : Told (notNested p) := .bind told_isTop fun _ => .ite (.error _ _) (.pure _)
  refine .bind (h1.tri (From.firm B D)) fun _ => .bind ((told_returnType _).tri (From.firm B D)) fun ret =>
    .bind (tokName_tri p.name) fun x => .assume fun hx => .bind ((told_linkage _ _ _).tri (From.firm B D)) fun l =>
    .bind (newSym_tri (e := (.funcProto p, tok)) ⟨.inl hx, nofun, nofun⟩) fun id => .bind ((told_enterFunc id).tri (has_firm _ _ _ _)) fun _ =>
    .bind mustAdd_tri fun _ => .bind ?_ fun _ => .pure fun _ h => h
  unfold validateFuncParams
  split
  · exact .pure fun _ h => h
  · exact .bind (told_makeChildScope.tri (From.firm B _)) fun _ =>
      .bind (params_tri (e := (.funcProto p, tok)) (by simp) _ fun q hq x hx => .inr ⟨q, List.mem_of_mem_take hq, hx⟩) fun _ =>
      .bind ((Told.updFunc _ _).tri (From.firm B _)) fun _ => .bind (told_restoreParent.tri (From.firm B _)) fun _ => .pure fun _ h => h

theorem namespace_tri {B D tok} :
    Tri (Redeclares (D ++ [(.namespaces, tok)])) (From B D) (declareNamespace tok)
      (fun id s => From B (D ++ [(.namespaces, tok)]) s ∧ ∃ sym, s.syms[id]? = some sym ∧ sym.kind.symType = .ns) := by
  have hns : ∀ id s a s', mustAdd id s = .ok a s' → s'.syms = s.syms := fun _ _ _ _ h => mustAdd_grow h
  unfold declareNamespace
  exact .bind (headTok_tri _) fun t => .assume fun ht => .bind (tokName_tri t) fun x => .assume fun hx =>
    .bind (Q := fun id s => (From B D s ∧ Names (.namespaces, tok) id s) ∧ ∃ sym, s.syms[id]? = some sym ∧ sym.kind.symType = .ns)
      (fun s hs => ⟨fun id s' h => ⟨(newSym_tri (P := True) (e := (.namespaces, tok)) (sym := { name := x, loc := some t, kind := .ns none }) ⟨⟨t, ht, hx⟩, fun _ => rfl, nofun⟩ s hs).1 id s' h, by cases h; exact ⟨_, push_get s _, rfl⟩⟩,
        fun s' h => by cases h⟩) fun id =>
    .bind (Q := fun _ s => From B (D ++ [(.namespaces, tok)]) s ∧ ∃ sym, s.syms[id]? = some sym ∧ sym.kind.symType = .ns)
      (fun s hs => ⟨fun u s' h => ⟨(mustAdd_tri s hs.1).1 u s' h, by rw [hns _ _ _ _ h]; exact hs.2⟩, (mustAdd_tri s hs.1).2⟩) fun _ =>
    .pure fun _ h => h

/-- Closing a namespace changes nothing but its scope. -/
theorem close_kept {id : Nat} {s s' : SS} {u : Unit} {sym : Symbol} (hs : s.syms[id]? = some sym) (hk : sym.kind.symType = .ns)
    (h : closeNamespace id s = .ok u s') : Kept s s' := by
  unfold closeNamespace at h
  split at h
  · cases h
  · unfold Skull.updSym at h
    rw [hs] at h
    cases h
    refine ⟨fun i sy h => ?_, fun sc h => .inr ⟨sc, h, rfl⟩⟩
    by_cases hi : i = id
    · subst hi
      rw [hs] at h
      cases h
      refine ⟨_, by simp [List.getElem?_set, get_lt hs]; rfl, ?_⟩
      show (sym.name, SymType.ns, sym.exprType) = (sym.name, sym.kind.symType, sym.exprType)
      rw [hk]
    · exact ⟨sy, by simp only [List.getElem?_set, if_neg (Ne.symm hi)]; exact h, rfl⟩

theorem close_fails {id : Nat} {s s' : SS} : closeNamespace id s ≠ .fail s' := by
  unfold closeNamespace
  split
  · nofun
  · unfold Skull.updSym
    split <;> nofun

/-! ### Blocks and statements -/

theorem told_setDepth (d : Nat) : Told (setDepth d) :=
  fun _ => ⟨(fun b s' h => by cases h; exact .same rfl rfl), fun s' h => by cases h⟩

theorem told_sane (t : Tree) : Told (assertSaneChild t) := by
  unfold assertSaneChild
  split
  · exact .pure _
  · exact .pure _
  · split
    all_goals first
      | exact .pure _
      | exact .ub
      | exact .bind (.headTok _) fun _ => .error _ _

theorem told_noDead : ∀ t : Tree, Told (noDeadCodeBelow t)
  | .nil => .pure _
  | .node stmt tok te child next => by
    unfold noDeadCodeBelow
    split
    · exact told_noDead next
    · exact told_noDead next
    · exact told_noDead next
    · exact .bind (.headTok _) fun _ => .error _ _

theorem told_needIf (b : List Stmt) (tok : List Token) : Told (needIf b tok) := .ite (.pure _) (.bind (.headTok _) fun _ => .error _ _)

theorem told_needBlock (c : Tree) (tok : List Token) : Told (needBlock c tok) := by
  unfold needBlock
  split
  · exact .pure _
  · exact .bind (.headTok _) fun _ => .error _ _

theorem told_condition (cfg : Cfg) {c : Expr} (h : LeavesOf c) : Told (condition cfg c) := by
  refine .bind (told_expr cfg c h) fun e => .bind ?_ fun _ => .pure _
  unfold validateCond
  refine .ite (.error _ _) ?_
  split
  · exact .warn _ _ _
  · exact .pure _

theorem told_jump (c : Code) (tok : List Token) (next : Tree) : Told (validateJump c tok next) :=
  .bind .get fun _ => .ite (told_noDead _) (.bind (.headTok _) fun _ => .error _ _)

theorem told_return (cfg : Cfg) {e : Expr} (h : LeavesOf e) (tok : List Token) (next : Tree) : Told (validateReturn cfg e tok next) := by
  have h1 : Told (validateOptExpr cfg e) := by
    unfold validateOptExpr
    split
    · exact .pure _
    · exact .bind (told_expr cfg _ h) fun _ => .pure _
  have h2 : ∀ b f o, Told (checkReturn b f o tok) := by
    intro b f o
    unfold checkReturn
    split
    · exact .ite (.bind (.headTok _) fun _ => .error _ _) (.pure _)
    · exact .ite (.error _ _) (.ite (.error _ _) (.pure _))
  exact .bind (told_sane _) fun _ => .bind h1 fun _ => .bind .get fun _ => .bind (told_funcAt _) fun _ => .bind (h2 _ _ _) fun _ =>
    .bind (told_noDead _) fun _ => .pure _

theorem told_assign (cfg : Cfg) {e : Expr} (h : LeavesOf e) (tok : List Token) : Told (validateVarAssign cfg e tok) := by
  refine .bind (.headTok _) fun t => .bind (told_scopeFindVar t) fun p => .ite (.error _ _) (.bind (.updVar _ _) fun _ =>
    .bind (told_expr cfg e h) fun a => .bind (told_compatible _ _) fun _ => .bind ?_ fun _ => .pure _)
  unfold notRedundant
  split
  · exact .ite (.error _ _) (.pure _)
  · exact .pure _

theorem told_import (cfg : Cfg) (tok : List Token) : Told (validateImport cfg tok) :=
  .bind (.headTok _) fun _ => .bind (.tokName _) fun _ => .ite (.error _ _) (.ite (.error _ _) (.pure _))

theorem told_postFunc (child : Tree) : Told (postValidateFunc child) := by
  refine .bind .get fun _ => .bind (told_funcAt _) fun _ => .ite (.pure _) (.bind (.ite (.error _ _) (.ite (.error _ _) (.pure _))) fun _ => ?_)
  intro s
  unfold leaveFunc
  split
  · exact ⟨(fun b s' h => by cases h), fun s' h => by cases h⟩
  · exact ⟨(fun b s' h => by cases h; exact .same rfl rfl), fun s' h => by cases h⟩

theorem block_tri {P : Prop} {B D D'} {nodes : Chk ATree} (h : Tri P (From B D) nodes (fun _ s => From B D' s)) :
    Tri P (From B D) (block nodes) (fun _ s => From B D' s) :=
  .bind (told_makeChildScope.tri (From.firm B _)) fun _ => .bind h fun _ => .bind (told_resetHead.tri (From.firm B _)) fun _ =>
    .bind (told_restoreParent.tri (From.firm B _)) fun _ => .bind (told_makeAdjacent.tri (From.firm B _)) fun _ => .pure fun _ h => h

/-- The expressions of a statement. -/
def StmtLeaves : Stmt → Prop
  | .ret e | .varDef _ _ _ _ e | .varAssign e | .expr e | .ifs e | .elifs e | .whiles e => LeavesOf e
  | _ => True

theorem written_leaves {pos ts : List Token} {st : Stmt} (h : Written pos ts st) : StmtLeaves st := by
  cases h with
  | returnExpr _ h => exact h.2.2.2.1
  | «if» _ h => exact h.2.2.2.1
  | elif _ h => exact h.2.2.2.1
  | «while» _ h => exact h.2.2.2.1
  | implicit _ _ _ h => exact h.2.2.2.1
  | explicit _ _ _ h => exact h.2.2.2.1
  | assign _ _ h => exact h.2.2.2.1
  | expr h => exact h.2.2.2.1
  | «return» => exact trivial
  | _ => trivial

theorem redeclares_mono {l l' : List (Stmt × List Token)} (h : Redeclares l) (hs : l.Sublist l') : Redeclares l' := by
  rcases h with ⟨e, x, h1, h2⟩ | ⟨a, b, x, h1, h2⟩
  · exact .inl ⟨e, x, hs.subset h1, h2⟩
  · exact .inr ⟨a, b, x, h1.trans hs, h2⟩

theorem Tri.weaken {P P' : Prop} {I : SS → Prop} {m : Chk α} {Q : α → SS → Prop} (h : Tri P I m Q) (hp : P → P') : Tri P' I m Q :=
  fun s hs => ⟨(h s hs).1, fun s' h' => ((h s hs).2 s' h').imp id hp⟩

theorem Told.on {P : Prop} {B D D'} {m : Chk α} (h : Told m) (hs : ∀ e ∈ D, e ∈ D') : Tri P (From B D) m (fun _ s => From B D' s) :=
  (h.tri (From.firm B D)).post fun _ _ hk => hk.mono hs

theorem stmt_tri {P : Prop} {B D cfg before stmt tok tokEnd child next nodes C} (hp : AsWritten stmt tok tokEnd)
    (hP : Redeclares (D ++ [(stmt, tok)]) → P)
    (hn : ∀ B, Tri P (From B (D ++ [(stmt, tok)])) nodes (fun _ s => From B (D ++ [(stmt, tok)] ++ C) s)) :
    Tri P (From B D) (validateStmt cfg before stmt tok tokEnd child next nodes) (fun _ s => From B (D ++ [(stmt, tok)] ++ C) s) := by
  have hl : StmtLeaves stmt := by
    rcases hp with rfl | ⟨⟨ts, h⟩, _⟩
    · trivial
    · exact written_leaves h
  have hD : ∀ e ∈ D, e ∈ D ++ [(stmt, tok)] ++ C := fun e he => by simp [he]
  have hD1 : ∀ e ∈ D, e ∈ D ++ [(stmt, tok)] := fun e he => by simp [he]
  have hD2 : ∀ e ∈ D ++ [(stmt, tok)], e ∈ D ++ [(stmt, tok)] ++ C := fun e he => List.mem_append_left _ he
  have hb := block_tri (hn B)
  unfold validateStmt
  split
  · exact (Told.bind (told_return cfg hl _ _) fun _ => .pure _).on hD
  · exact (Told.bind (told_noDead _) fun _ => .pure _).on hD
  · exact .bind (Told.get.tri (From.firm B _)) fun s => .bind ((told_setDepth 0).tri (From.firm B _)) fun _ =>
      .bind (funcDecl_tri.weaken hP) fun r => .bind hb fun body => .bind ((told_postFunc _).tri (From.firm B _)) fun _ =>
      .bind ((told_setDepth _).tri (From.firm B _)) fun _ => .pure fun _ h => h
  · rcases hp with h | ⟨⟨ts, h⟩, hv⟩
    · cases h
    · exact .bind ((varDef_tri h hv hl).weaken hP) fun _ => .pure fun _ h => h.mono hD2
  · exact (Told.bind (told_assign cfg hl _) fun _ => .pure _).on hD
  · exact .ub
  · exact (Told.bind (told_expr cfg _ hl) fun _ => .pure _).on hD
  · exact (Told.bind (.headTok _) fun _ => .error _ _).on hD
  · exact .bind ((told_needBlock _ _).on hD1) fun _ => .bind ((told_condition cfg hl).tri (From.firm B _)) fun _ => .bind hb fun _ => .pure fun _ h => h
  · exact .bind ((told_needIf _ _).on hD1) fun _ => .bind ((told_needBlock _ _).tri (From.firm B _)) fun _ => .bind hb fun _ => .pure fun _ h => h
  · exact .bind ((told_needBlock _ _).on hD1) fun _ => .bind ((told_needIf _ _).tri (From.firm B _)) fun _ =>
      .bind ((told_condition cfg hl).tri (From.firm B _)) fun _ => .bind hb fun _ => .pure fun _ h => h
  · exact .bind (Told.get.tri (From.firm B _)) fun s => .bind ((told_setDepth _).on hD1) fun _ => .bind ((told_needBlock _ _).tri (From.firm B _)) fun _ =>
      .bind ((told_condition cfg hl).tri (From.firm B _)) fun _ => .bind hb fun _ => .bind (Told.get.tri (From.firm B _)) fun s =>
      .bind ((told_setDepth _).tri (From.firm B _)) fun _ => .pure fun _ h => h
  · exact (Told.bind (told_jump _ _ _) fun _ => .pure _).on hD
  · exact (Told.bind (told_jump _ _ _) fun _ => .pure _).on hD
  · refine .bind (namespace_tri.weaken hP) fun id => .bind
      (Q := fun _ s => From B (D ++ [(.namespaces, tok)] ++ C) s ∧ ∃ sym, s.syms[id]? = some sym ∧ sym.kind.symType = .ns) ?_ fun _ =>
      .bind (Q := fun _ s => From B (D ++ [(.namespaces, tok)] ++ C) s) ?_ fun _ => .pure fun _ h => h
    · rintro s ⟨hk, sym, h1, h2⟩
      have h3 := block_tri (hn s.syms) s ⟨hk.src, fun i sy h => ⟨sy, h, rfl⟩⟩
      refine ⟨fun a s' h => ?_, h3.2⟩
      have h4 := h3.1 a s' h
      refine ⟨⟨h4.src, fun i sy h5 => ?_⟩, ?_⟩
      · obtain ⟨sy', h6, h7⟩ := hk.last i sy h5
        obtain ⟨sy'', h8, h9⟩ := h4.last i sy' h6
        exact ⟨sy'', h8, h9.trans h7⟩
      · obtain ⟨sy', h6, h7⟩ := h4.last id sym h1
        simp only [Symbol.tag, Prod.mk.injEq] at h7
        exact ⟨sy', h6, h7.2.1.trans h2⟩
    · rintro s ⟨hk, sym, h1, h2⟩
      exact ⟨fun u s' h => hk.keep (close_kept h1 h2 h), fun s' h => absurd h close_fails⟩
  · exact (Told.bind (told_import cfg _) fun _ => .pure _).on hD
  · exact (Told.pure _).on hD
  · exact (Told.pure _).on hD
  · exact (Told.pure _).on hD

theorem nodes_tri {cfg : Cfg} : ∀ (t : Tree) (P : Prop) (B D) (before : List Stmt), AllNodes AsWritten t → (Redeclares (D ++ statements t) → P) →
    Tri P (From B D) (validateNodes cfg before t) (fun _ s => From B (D ++ statements t) s)
  | .nil, P, B, D, before, _, _ => .pure fun _ h => by simpa [statements] using h
  | .node stmt tok te child next, P, B, D, before, hn, hP => by
    unfold validateNodes
    have e1 : D ++ statements (.node stmt tok te child next) = D ++ [(stmt, tok)] ++ statements child ++ statements next := by simp [statements]
    have h1 : (D ++ [(stmt, tok)]).Sublist (D ++ [(stmt, tok)] ++ statements child) := List.sublist_append_left ..
    have h2 : (D ++ [(stmt, tok)] ++ statements child).Sublist (D ++ [(stmt, tok)] ++ statements child ++ statements next) := List.sublist_append_left ..
    rw [e1] at hP ⊢
    exact .bind ((told_sane _).tri (From.firm B _)) fun _ =>
      .bind (stmt_tri hn.1 (fun h => hP (redeclares_mono h (h1.trans h2))) (fun B => nodes_tri child P B _ [] hn.2.1 fun h => hP (redeclares_mono h h2))) fun r =>
      .bind (nodes_tri next P B _ _ hn.2.2 hP) fun _ => .pure fun _ h => h

/-! ### The whole check -/

/-- What the warnings about symbols that are not used leave. -/
def Warns (err : Bool) (m : Chk Bool) : Prop :=
  ∀ s, (∀ s', m s ≠ .fail s') ∧ ∀ r s', m s = .ok r s' → (s.diags ≠ [] → s'.diags ≠ []) ∧ (r = true → err = true ∨ s'.diags ≠ [])

theorem Warns.pure (err : Bool) : Warns err (Pure.pure err : Chk Bool) :=
  fun s => ⟨nofun, fun r s' h => by cases h; exact ⟨id, .inl⟩⟩

theorem Warns.ub (err : Bool) : Warns err (Chk.ub : Chk Bool) := fun s => ⟨nofun, nofun⟩

theorem Warns.bind {err : Bool} {m : Chk Bool} {f : Bool → Chk Bool} (hm : Warns err m) (hf : ∀ b, Warns b (f b)) : Warns err (m >>= f) := by
  intro s
  rw [bind_def]
  cases h : m s with
  | fail s' => exact absurd h ((hm s).1 s')
  | ub => exact ⟨nofun, nofun⟩
  | ok b s₁ =>
    obtain ⟨h1, h2⟩ := (hm s).2 b s₁ h
    refine ⟨(hf b s₁).1, fun r s' h' => ?_⟩
    obtain ⟨h3, h4⟩ := (hf b s₁).2 r s' h'
    refine ⟨fun h5 => h3 (h1 h5), fun h5 => ?_⟩
    rcases h4 h5 with h6 | h6
    · exact (h2 h6).imp id h3
    · exact .inr h6

theorem warnIf_warns (cfg : Cfg) (cond err : Bool) (c : Code) (t : Option Token) : Warns err (warnIf cfg cond err c t) := by
  unfold warnIf
  split
  · intro s
    rw [bind_def]
    exact ⟨nofun, fun r s' h => by cases h; exact ⟨fun _ => by simp [SS.diag], fun _ => .inr (by simp [SS.diag])⟩⟩
  · exact .pure err

theorem Warns.sym {err : Bool} (id : Nat) {f : Symbol → Chk Bool} (hf : ∀ sym, Warns err (f sym)) : Warns err (symAt id >>= f) := by
  intro s
  rw [bind_def]
  unfold Skull.symAt
  split
  · rename_i h; split at h <;> cases h; exact hf _ _
  · rename_i h; split at h <;> cases h
  · exact ⟨nofun, nofun⟩

theorem unusedSym_warns (cfg : Cfg) (err : Bool) (sym : Symbol) : Warns err (unusedSym cfg err sym) := by
  unfold unusedSym
  split
  · exact .bind (warnIf_warns _ _ _ _ _) fun _ => warnIf_warns _ _ _ _ _
  · exact warnIf_warns _ _ _ _ _
  · exact .ub _

theorem checkUnused_warns (cfg : Cfg) (a : ATree) (err : Bool) : Warns err (checkUnused cfg err a) := by
  fun_induction checkUnused cfg err a with
  | case1 err => exact .pure _
  | case2 => exact .pure _
  | case3 => exact .ub _
  | case4 err id _ _ _ _ next ih => exact .sym id fun sym => .bind (unusedSym_warns _ _ _) ih
  | case5 err id _ _ _ _ next ih => exact .sym id fun sym => .bind (unusedSym_warns _ _ _) ih
  | case6 => assumption
  | case7 err _ _ _ child next _ _ _ ihc ihn =>
    intro s
    rw [bind_def]
    cases h : checkUnused cfg false child s with
    | fail s' => exact absurd h ((ihc s).1 s')
    | ub => exact ⟨nofun, nofun⟩
    | ok b s₁ =>
      obtain ⟨h1, _⟩ := (ihc s).2 b s₁ h
      refine ⟨(ihn b s₁).1, fun r s' h' => ?_⟩
      obtain ⟨h3, h4⟩ := (ihn b s₁).2 r s' h'
      refine ⟨fun h5 => h3 (h1 h5), fun h5 => ?_⟩
      rcases h4 h5 with h6 | h6
      · simp at h6; exact .inl h6.1
      · exact .inr h6

theorem check_told {cfg : Cfg} {t : Tree} (hp : AllNodes AsWritten t) {s : SS} (h : semantic cfg t = .fail s) :
    s.diags ≠ [] ∨ Redeclares (statements t) := by
  unfold semantic at h
  split at h
  · cases h
  · rename_i s₀ h0
    have hk : From [] [] s₀ := by
      refine ⟨?_, fun id sym h => by cases h⟩
      unfold setupState at h0
      cases hm : createMainFuncName cfg.filename with
      | none => rw [hm] at h0; cases h0
      | some name =>
        rw [hm] at h0
        cases h0
        intro sc hsc
        cases hsc
    have hv := nodes_tri t (Redeclares (statements t)) [] [] [] hp (cfg := cfg) (fun h => by simpa using h)
    unfold validateAstTree at h
    have : Tri (Redeclares (statements t)) (From [] []) (validateAstTree cfg t) (fun _ _ => True) := by
      unfold validateAstTree
      refine .bind hv fun a => .bind (told_resetHead.tri (From.firm [] _)) fun _ => .bind (told_resetHead.tri (From.firm [] _)) fun _ => ?_
      split
      · exact .pure fun _ _ => trivial
      · intro s _
        refine ⟨fun _ _ _ => trivial, fun s' h => ?_⟩
        rw [bind_def] at h
        cases h1 : checkUnused cfg false a s with
        | fail s₁ => exact absurd h1 ((checkUnused_warns cfg a false s).1 s₁)
        | ub => rw [h1] at h; cases h
        | ok r s₁ =>
          rw [h1] at h
          cases r with
          | false => cases h
          | true =>
            cases h
            rcases ((checkUnused_warns cfg a false s).2 _ _ h1).2 rfl with h2 | h2
            · cases h2
            · exact .inl h2
    exact (this s₀ hk).2 s h

end Skull
