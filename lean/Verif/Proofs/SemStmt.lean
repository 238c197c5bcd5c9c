import Verif.Proofs.SemExpr
import Verif.Proofs.ClassifyWord
/-
Statements: what the check accepts is well formed.
-/
namespace Skull
open Spec

/- ### New symbols and finished symbols -/

theorem SInv.of_eq {s s' : SS} {B E pend} (hi : SInv s B E pend) (h1 : s'.scopes = s.scopes) (h2 : s'.scope = s.scope)
    (h3 : s'.syms = s.syms) : SInv s' B E pend := by
  obtain ⟨a, b, c, d, e, f⟩ := hi
  refine ⟨by rw [h3]; exact a, by rw [h1, h2, h3]; exact b, by rw [h1, h2]; exact c, d, ?_, by rw [h1, h2]; exact f⟩
  have key : ∀ h par, BlkAt s h par → BlkAt s' h par := by
    intro h par hb
    unfold BlkAt at hb ⊢
    rw [h1, h2]
    exact hb
  match B, e with
  | none, .inl h => exact .inl (h2.trans h)
  | none, .inr ⟨h, hb⟩ => exact .inr ⟨h, key _ _ hb⟩
  | some (h, p), ⟨hb, hp⟩ => exact ⟨key _ _ hb, hp⟩

theorem Frame.of_eq {s s' : SS} (h1 : s'.scopes = s.scopes) (h2 : s'.scope = s.scope) (h3 : s'.syms = s.syms) : Frame s s' :=
  ⟨by rw [h1]; exact Nat.le_refl _, fun j _ _ => by rw [h1], fun i sc _ h => ⟨sc, by rw [h1, h], rfl, rfl⟩, .inl h2,
    fun id sym h => ⟨sym, by rw [h3, h], rfl⟩⟩

theorem SymIs.pend {scopes cur pend pend' n id et k d} (h : SymIs scopes cur pend n id et k d)
    (hp : pend = pend' ∨ pend = none ∨ (pend = some id' ∧ id' ≠ id)) : SymIs scopes cur pend' n id et k d := by
  have key : pend' ≠ some id → pend ≠ some id := by
    intro h1 h2
    rcases hp with e | e | ⟨e, hne⟩
    · exact h1 (e ▸ h2)
    · rw [e] at h2; cases h2
    · rw [e] at h2; cases h2; exact hne rfl
  cases h with
  | var h => exact .var fun hp => h (key hp)
  | func h => exact .func fun hp => h (key hp)
  | alias => exact .alias
  | nsNone => exact .nsNone
  | ns h1 h2 h3 => exact .ns h1 h2 h3

theorem SymIs.more {scopes cur pend n n' id et k d} (h : SymIs scopes cur pend n id et k d) (hn : n ≤ n') :
    SymIs scopes cur pend n' id et k d :=
  h.keep (fun _ sc hsc _ => ⟨sc, hsc, sameLook_refl sc⟩) (fun _ h => .inl h) hn

/-- The state with one more symbol. -/
def SS.push (s : SS) (sym : Symbol) : SS := { s with syms := s.syms ++ [sym] }

theorem newSym_eq (sym : Symbol) (s : SS) : newSym sym s = .ok s.syms.length (s.push sym) := rfl

theorem push_get (s : SS) (sym : Symbol) : (s.push sym).syms[s.syms.length]? = some sym := getElem?_append_new _ _

theorem push_frame (s : SS) (sym : Symbol) : Frame s (s.push sym) :=
  ⟨Nat.le_refl _, fun _ _ _ => rfl, fun _ sc _ h => ⟨sc, h, rfl, rfl⟩, .inl rfl, fun _ sym' h => ⟨sym', getElem?_append_old h, rfl⟩⟩

theorem push_inv {s B E pend pend' sym d} (hi : SInv s B E pend)
    (hk : SymIs s.scopes s.scope pend' (E.decls.length + 1) E.decls.length sym.exprType sym.kind d)
    (hp : pend = pend' ∨ pend = none) : SInv (s.push sym) B ⟨E.vis, E.decls ++ [d]⟩ pend' := by
  refine ⟨by simp [SS.push, hi.len], ?_, hi.vis, ?_, ?_, hi.tip⟩
  · intro id sym' hs
    simp only [List.length_append, List.length_cons, List.length_nil, Nat.zero_add]
    by_cases e : id < s.syms.length
    · have hs' : s.syms[id]? = some sym' := by
        simp only [SS.push] at hs
        rw [List.getElem?_append_left e] at hs
        exact hs
      obtain ⟨d', h1, h2⟩ := hi.sym id sym' hs'
      refine ⟨d', getElem?_append_old h1, ?_⟩
      refine SymIs.pend (id' := 0) (SymIs.more h2 (Nat.le_succ _)) ?_
      rcases hp with h | h
      · exact .inl h
      · exact .inr (.inl h)
    · have hlt := get_lt hs
      simp only [SS.push, List.length_append, List.length_cons, List.length_nil] at hlt
      have : id = s.syms.length := by omega
      subst this
      rw [push_get] at hs
      cases hs
      rw [hi.len]
      exact ⟨d, getElem?_append_new _ _, hk⟩
  · intro p hp
    have := hi.ids p hp
    simp only [List.length_append, List.length_cons, List.length_nil]
    omega
  · have hb := hi.blk
    match B, hb with
    | none, .inl h => exact .inl h
    | none, .inr ⟨h, hb⟩ => exact .inr ⟨h, hb⟩
    | some (h, p), ⟨hb, hp⟩ => exact ⟨hb, hp⟩

/-- A symbol is replaced. -/
theorem set_inv {s B E pend pend' id sym sym' d} (hi : SInv s B E pend) (hs : s.syms[id]? = some sym)
    (hk : SymIs s.scopes s.scope pend' E.decls.length id sym'.exprType sym'.kind d) (hp : pend = pend' ∨ pend = some id) :
    SInv { s with syms := s.syms.set id sym' } B ⟨E.vis, E.decls.set id d⟩ pend' := by
  refine ⟨by simp [hi.len], ?_, hi.vis, ?_, ?_, hi.tip⟩
  · intro id' sym'' hs'
    simp only [List.length_set] at hs' ⊢
    by_cases e : id = id'
    · subst e
      rw [getElem?_set_self' hs] at hs'
      cases hs'
      have hlt : id < E.decls.length := by rw [← hi.len]; exact get_lt hs
      exact ⟨d, List.getElem?_set_self hlt, hk⟩
    · rw [List.getElem?_set_ne e] at hs' ⊢
      obtain ⟨d', h1, h2⟩ := hi.sym id' sym'' hs'
      refine ⟨d', h1, SymIs.pend (id' := id) h2 ?_⟩
      rcases hp with h | h
      · exact .inl h
      · exact .inr (.inr ⟨h, e⟩)
  · intro p hp
    simp only [List.length_set]
    exact hi.ids p hp
  · have hb := hi.blk
    match B, hb with
    | none, .inl h => exact .inl h
    | none, .inr ⟨h, hb⟩ => exact .inr ⟨h, hb⟩
    | some (h, p), ⟨hb, hp⟩ => exact ⟨hb, hp⟩

theorem set_same {E : Env} {id d} (h : E.decls[id]? = some d) : (⟨E.vis, E.decls.set id d⟩ : Env) = E := by
  have : E.decls.set id d = E.decls := by
    apply List.ext_getElem?
    intro j
    by_cases e : id = j
    · subst e; rw [getElem?_set_self' h, h]
    · rw [List.getElem?_set_ne e]
  rw [this]

theorem set_frame {s : SS} {id sym sym'} (hs : s.syms[id]? = some sym) (hc : sym'.core = sym.core) :
    Frame s { s with syms := s.syms.set id sym' } := by
  refine ⟨Nat.le_refl _, fun _ _ _ => rfl, fun _ sc _ h => ⟨sc, h, rfl, rfl⟩, .inl rfl, fun id' sym'' h => ?_⟩
  by_cases e : id = id'
  · subst e
    rw [hs] at h; cases h
    exact ⟨sym', getElem?_set_self' hs, hc⟩
  · exact ⟨sym'', by simp only [List.getElem?_set_ne e, h], rfl⟩

/- ### A declaration more does not change what names denote -/

theorem follow_append {decls : List Decl} (d : Decl)
    (hc : ∀ (id : Nat) members, decls[id]? = some (.ns members) → ∀ p ∈ members, p.2 < decls.length) :
    ∀ (p : List (List Char)) (vis : List (List Char × Nat)), (∀ q ∈ vis, q.2 < decls.length) →
      follow (decls ++ [d]) vis p = follow decls vis p
  | [], _, _ => by simp [follow]
  | [x], vis, hv => by simp [follow]
  | x :: y :: more, vis, hv => by
    unfold follow
    cases hl : vis.lookup x with
    | none => simp
    | some k =>
      have hk := hv _ (mem_of_lookup hl)
      simp only [Option.bind_some]
      rw [List.getElem?_append_left hk]
      cases hd : decls[k]? with
      | none => simp
      | some d' =>
        cases d' with
        | ns members => simp only; exact follow_append d hc (y :: more) members (hc k members hd)
        | _ => rfl

theorem resolve_append {s B E pend} (hi : SInv s B E pend) (d : Decl) (x : List Char) :
    (⟨E.vis, E.decls ++ [d]⟩ : Env).resolve x = E.resolve x :=
  follow_append d hi.closed _ _ hi.ids

theorem decl_append {s B E pend} (hi : SInv s B E pend) (d : Decl) (x : List Char) :
    (⟨E.vis, E.decls ++ [d]⟩ : Env).decl x = E.decl x := by
  unfold Env.decl
  rw [resolve_append hi]
  cases hr : E.resolve x with
  | none => rfl
  | some id =>
    simp only [Option.bind_some]
    exact List.getElem?_append_left (hi.resolve_lt hr)

theorem free_append {s B E pend} (hi : SInv s B E pend) (d : Decl) (x : List Char) :
    (⟨E.vis, E.decls ++ [d]⟩ : Env).Free x ↔ E.Free x := by
  unfold Env.Free
  rw [decl_append hi]

/-- A new symbol with a name. -/
theorem declare_sound {s s' B E pend pend' sym d} (hi : SInv s B E pend)
    (hk : SymIs s.scopes s.scope pend' (E.decls.length + 1) E.decls.length sym.exprType sym.kind d)
    (hp : pend = pend' ∨ pend = none) (h : scopeAddSymbol s.syms.length (s.push sym) = .ok true s') :
    E.Free sym.name ∧ SInv s' B (E.add sym.name d) pend' ∧ Frame s s' ∧ Same s s' ∧ s'.syms = s.syms ++ [sym] ∧
      ∀ i, s.scope = some i → s'.scope = some i := by
  have hi' := push_inv hi hk hp
  obtain ⟨h1, h2, h3, h4, h5, h6⟩ := scopeAdd_sound hi' (push_get s sym) h
  refine ⟨(free_append hi d _).1 h1, ?_, (push_frame s sym).trans h3, h4, h5, h6⟩
  rw [← hi.len] at *
  simpa only [Env.add, hi.len] using h2

theorem declare_complete {s B E pend pend' sym d} (hi : SInv s B E pend)
    (hk : SymIs s.scopes s.scope pend' (E.decls.length + 1) E.decls.length sym.exprType sym.kind d)
    (hp : pend = pend' ∨ pend = none) (hf : E.Free sym.name) (hn : E.vis.lookup sym.name = none) :
    ∃ s', scopeAddSymbol s.syms.length (s.push sym) = .ok true s' := by
  have hi' := push_inv hi hk hp
  obtain ⟨s', ok, h1, h2, _⟩ := scopeAdd_free hi' (push_get s sym) ((free_append hi d _).2 hf)
  rw [h2 hn] at h1
  exact ⟨s', h1⟩

theorem mustAdd_ok {id : Nat} {s s' : SS} : mustAdd id s = .ok () s' ↔ scopeAddSymbol id s = .ok true s' := by
  unfold mustAdd
  rw [bind_ok]
  constructor
  · rintro ⟨b, s₁, h1, h2⟩
    cases b with
    | true => cases h2; exact h1
    | false => cases h2
  · intro h
    exact ⟨true, s', h, rfl⟩

/- ### Names of variables -/

theorem varName_iff (x : List Char) : isValidIdentifier x = true ↔ VarName x := by
  cases x with
  | nil =>
    simp only [isValidIdentifier, Bool.false_eq_true, false_iff]
    rintro ⟨c, body, _, _, ⟨h, _⟩ | h⟩ <;> cases h
  | cons c t =>
    rw [isValidIdentifier_cons, identLoop_iff]
    constructor
    · rintro ⟨hc, body, hb, h⟩
      refine ⟨c, body, hc, fun d hd => ?_, ?_⟩
      · rcases hb d hd with (h | h | h) | h
        · exact .inl h
        · exact .inr (.inl h)
        · exact .inr (.inr (.inl h))
        · exact .inr (.inr (.inr h))
      · rcases h with ⟨rfl, h⟩ | rfl
        · exact .inl ⟨rfl, h⟩
        · exact .inr rfl
    · rintro ⟨c', body, hc, hb, h⟩
      have : c' = c ∧ ((t = body ∧ body.getLast? ≠ some '.') ∨ t = body ++ [':']) := by
        rcases h with ⟨h, h'⟩ | h
        · cases h; exact ⟨rfl, .inl ⟨rfl, h'⟩⟩
        · cases h; exact ⟨rfl, .inr rfl⟩
      obtain ⟨rfl, h'⟩ := this
      refine ⟨hc, body, fun d hd => ?_, h'⟩
      rcases hb d hd with h | h | h | h
      · exact .inl (.inl h)
      · exact .inl (.inr (.inl h))
      · exact .inl (.inr (.inr h))
      · exact .inr h

theorem makeVariable_ok {type name isConst} {v : Variable} {s s' : SS} : makeVariable type name isConst s = .ok v s' ↔
    VarName name ∧ v = { type, name, linkageName := name, isConst } ∧ s' = s := by
  unfold makeVariable
  rw [← varName_iff]
  cases isValidIdentifier name with
  | true => simp only [if_true, pure_ok, true_and]; exact ⟨fun ⟨a, b⟩ => ⟨a.symm, b.symm⟩, fun ⟨a, b⟩ => ⟨a.symm, b.symm⟩⟩
  | false => simp [Chk.ub]

/- ### Conditions without effect -/

theorem headTok_ok {l : List Token} {t : Token} {s s' : SS} : headTok l s = .ok t s' ↔ (∃ ts, l = t :: ts) ∧ s' = s := by
  cases l with
  | nil => simp [headTok, Chk.ub]
  | cons a l =>
    simp only [headTok, pure_ok, List.cons.injEq]
    constructor
    · rintro ⟨rfl, rfl⟩; exact ⟨⟨l, rfl, rfl⟩, rfl⟩
    · rintro ⟨⟨ts, rfl, rfl⟩, rfl⟩; exact ⟨rfl, rfl⟩

theorem failTok_ok {l : List Token} {code : Code} {a : α} {s s' : SS} :
    ¬ (do let t ← headTok l; Chk.error code t : Chk α) s = .ok a s' := by
  intro h
  replace h := bind_ok.1 h
  obtain ⟨t, s₁, h1, h⟩ := h
  cases h

theorem saneChild_ok {stmt : Stmt} {tok tokEnd child next} {s s' : SS} :
    assertSaneChild (.node stmt tok tokEnd child next) s = .ok () s' → (child ≠ .nil → MayHaveBlock stmt) ∧ s' = s := by
  intro h
  cases child with
  | nil => simp only [assertSaneChild, pure_ok] at h; exact ⟨fun h => absurd rfl h, h.2.symm⟩
  | node cs ctok ctokEnd cc cn =>
    cases stmt with
    | expr e =>
      cases e with
      | call => simp only [assertSaneChild, pure_ok] at h; exact ⟨fun _ => trivial, h.2.symm⟩
      | missing => simp [assertSaneChild, Chk.ub] at h
      | _ => simp only [assertSaneChild] at h; exact absurd h failTok_ok
    | ifs | elifs | elses | whiles | funcProto | namespaces =>
      simp only [assertSaneChild, pure_ok] at h; exact ⟨fun _ => trivial, h.2.symm⟩
    | _ => simp only [assertSaneChild] at h; exact absurd h failTok_ok

theorem saneChild_eq {stmt : Stmt} {tok tokEnd child next} {s : SS} (h : child ≠ .nil → MayHaveBlock stmt) :
    assertSaneChild (.node stmt tok tokEnd child next) s = .ok () s := by
  cases child with
  | nil => rfl
  | node cs ctok ctokEnd cc cn =>
    have h := h (by simp)
    cases stmt with
    | expr e =>
      cases e with
      | call => rfl
      | _ => exact h.elim
    | ifs | elifs | elses | whiles | funcProto | namespaces => rfl
    | _ => exact h.elim

theorem noDead_ok : ∀ {next : Tree} {s s' : SS}, noDeadCodeBelow next s = .ok () s' ↔ NoCode next ∧ s' = s
  | .nil, s, s' => by simp [noDeadCodeBelow, NoCode, pure_def, eq_comm]
  | .node stmt tok tokEnd child next, s, s' => by
    have ih := @noDead_ok next s s'
    cases stmt with
    | comment | noop | unreachable => simp only [noDeadCodeBelow, NoCode]; exact ih
    | _ => simp only [noDeadCodeBelow, NoCode, false_and, iff_false]; exact failTok_ok

theorem notMissingIf_iff : ∀ before, notMissingIf before = true ↔ AfterIf before
  | [] => by simp [notMissingIf, AfterIf]
  | stmt :: before => by
    have ih := notMissingIf_iff before
    cases stmt with
    | comment => simp only [notMissingIf, AfterIf]; exact ih
    | _ => simp [notMissingIf, AfterIf]

theorem needIf_ok {before tok} {s s' : SS} : needIf before tok s = .ok () s' ↔ AfterIf before ∧ s' = s := by
  unfold needIf
  rw [← notMissingIf_iff]
  cases notMissingIf before with
  | true => simp [pure_def, eq_comm]
  | false => simp only [Bool.false_eq_true, if_false, false_and, iff_false]; exact failTok_ok

theorem needBlock_ok {child : Tree} {tok} {s s' : SS} : needBlock child tok s = .ok () s' ↔ child ≠ .nil ∧ s' = s := by
  cases child with
  | nil => simp only [needBlock, ne_eq, not_true_eq_false, false_and, iff_false]; exact failTok_ok
  | node => simp [needBlock, pure_def, eq_comm]

theorem returnsValue_iff : ∀ t, returnsValue t = true ↔ ReturnsValue t
  | .nil => by simp [returnsValue, ReturnsValue]
  | .node stmt tok tokEnd child next => by
    have ih := returnsValue_iff next
    cases stmt with
    | ret e => cases e <;> simp [returnsValue, ReturnsValue]
    | unreachable => simp [returnsValue, ReturnsValue]
    | _ => simp only [returnsValue, ReturnsValue]; exact ih

theorem isTypeExpr_iff (e : Expr) : validateTypeAlias.isTypeExpr e = true ↔ IsTypeExpr e := by
  cases e with
  | un o e => cases o <;> simp [validateTypeAlias.isTypeExpr, IsTypeExpr]
  | _ => simp [validateTypeAlias.isTypeExpr, IsTypeExpr]

theorem diag_quiet (s : SS) (code : Code) (t : Option Token) : Quiet s (s.diag code t) := ⟨rfl, rfl, rfl, rfl, rfl, rfl⟩

theorem warn_quiet {cfg : Cfg} {code : Code} {t : Option Token} {s s' : SS} (h : warn cfg code t s = .ok () s') : Quiet s s' := by
  unfold warn at h
  replace h := bind_ok_unit.1 h
  obtain ⟨s₁, h1, h⟩ := h
  cases h1
  split at h
  · cases h
  · cases h; exact diag_quiet _ _ _

theorem warn_eq {cfg : Cfg} (hw : cfg.werror = false) (code : Code) (t : Option Token) (s : SS) :
    warn cfg code t s = .ok () (s.diag code t) := by
  unfold warn
  rw [bind_of _ (show report code t s = .ok () (s.diag code t) from rfl), hw]
  rfl

theorem validateCond_sound {cfg : Cfg} {e : AExpr} {s s' : SS} (h : validateCond cfg e s = .ok () s') :
    e.type = Bool' ∧ Quiet s s' := by
  unfold validateCond at h
  split at h
  · cases h
  · rename_i ht
    refine ⟨by simpa using ht, ?_⟩
    split at h
    · exact warn_quiet h
    · cases h; exact .refl _

theorem validateCond_complete {cfg : Cfg} (hw : cfg.werror = false) {e : AExpr} (s : SS) (h : e.type = Bool') :
    ∃ s', validateCond cfg e s = .ok () s' := by
  unfold validateCond
  rw [if_neg (by simp [h])]
  split
  · exact ⟨_, warn_eq hw _ _ _⟩
  · exact ⟨_, rfl⟩

theorem condition_sound {cfg : Cfg} {W : World} (hW : W.strtod = cfg.strtod) {B E e s a s'} (h : condition cfg e s = .ok a s')
    (hi : SInv s B E none) (hc : Expr.Counted e) : HasType W E e Bool' ∧ Quiet s s' := by
  unfold condition at h
  replace h := bind_ok.1 h
  obtain ⟨a', s₁, h1, h⟩ := h
  replace h := bind_ok_unit.1 h
  obtain ⟨s₂, h2, h⟩ := h
  cases h
  have h1 := expr_sound hW e _ _ _ h1 hi hc
  have h2 := validateCond_sound h2
  exact ⟨h2.1 ▸ h1.1, h1.2.2.trans h2.2⟩

theorem condition_complete {cfg : Cfg} {W : World} (hW : W.strtod = cfg.strtod) (hw : cfg.werror = false) {B E e s}
    (h : HasType W E e Bool') (hi : SInv s B E none) (hc : Expr.Counted e) : ∃ a s', condition cfg e s = .ok a s' := by
  obtain ⟨a, s₁, h1, h2⟩ := expr_complete hW e s _ h hi hc
  obtain ⟨s₂, h3⟩ := validateCond_complete hw s₁ h2
  unfold condition
  rw [bind_of _ h1, bind_of _ h3]
  exact ⟨_, _, rfl⟩

end Skull
