import Verif.Spec.CWritable
import Verif.Proofs.CText
import Verif.Proofs.Shaped
import Verif.Proofs.ParsePlaced
/-
When the C back end writes a text: expressions always, statements if they are `Writable`.
-/
namespace Skull
open Spec Spec.C

/-- Only that functions of the run time are called is noted. -/
def Noted (s s' : CState) : Prop :=
  s'.globals = s.globals ∧ s'.indent = s.indent ∧ (s.calledIntPow = true → s'.calledIntPow = true) ∧
    (s.calledFloatPow = true → s'.calledFloatPow = true) ∧ (s.calledStrcmp = true → s'.calledStrcmp = true)

theorem Noted.refl (s : CState) : Noted s s := ⟨rfl, rfl, id, id, id⟩

theorem Noted.trans {a b c : CState} (h : Noted a b) (h' : Noted b c) : Noted a c :=
  ⟨h'.1.trans h.1, h'.2.1.trans h.2.1, fun x => h'.2.2.1 (h.2.2.1 x), fun x => h'.2.2.2.1 (h.2.2.2.1 x), fun x => h'.2.2.2.2 (h.2.2.2.2 x)⟩

theorem format_total {o : Oper} {ty rt : Ty} (hb : binType o rt = some ty) (s : CState) :
    ∃ f s', formatC o rt ty s = some (f, s') ∧ Noted s s' := by
  have plain : ∀ op, infixC o = some op → o ≠ .is → o ≠ .isnt → o ≠ .pow → ∃ f s', formatC o rt ty s = some (f, s') ∧ Noted s s' := by
    intro op h h1 h2 h3
    refine ⟨("(".toList, ' ' :: op ++ " ".toList), s, ?_, .refl s⟩
    unfold formatC
    simp only
    rw [h]
    rfl
  have cmp : ∀ f : CState → CState, (∀ s, Noted s (f s)) → ∀ r : List Char × List Char, ∃ x s', ((CGen.modify f >>= fun _ => pure r : CGen _) s) = some (x, s') ∧ Noted s s' := by
    intro f hf r
    exact ⟨r, f s, by rw [cgen_bind (a := ()) (s' := f s) rfl]; rfl, hf s⟩
  cases o with
  | pow =>
    have : ty = .prim .int ∨ ty = .prim .float := by
      revert hb
      cases rt with
      | prim p => cases p <;> simp [binType] <;> (intro h; simp [← h])
      | ref t => simp [binType]
    rcases this with rfl | rfl
    · exact cmp (fun s => { s with calledIntPow := true }) (fun s => ⟨rfl, rfl, fun _ => rfl, id, id⟩) _
    · exact cmp (fun s => { s with calledFloatPow := true }) (fun s => ⟨rfl, rfl, id, fun _ => rfl, id⟩) _
  | is =>
    unfold formatC
    simp only
    split
    · exact cmp (fun s => { s with calledStrcmp := true }) (fun s => ⟨rfl, rfl, id, id, fun _ => rfl⟩) _
    · exact ⟨_, s, rfl, .refl s⟩
  | isnt =>
    unfold formatC
    simp only
    split
    · exact cmp (fun s => { s with calledStrcmp := true }) (fun s => ⟨rfl, rfl, id, id, fun _ => rfl⟩) _
    · exact ⟨_, s, rfl, .refl s⟩
  | unknown | unaryNeg | not | ref | deref | identifier | const | func =>
    exfalso
    revert hb
    cases rt with
    | prim p => cases p <;> simp [binType]
    | ref t => simp [binType]
  | _ => exact plain _ rfl (by simp) (by simp) (by simp)

mutual
theorem expr_total {syms dbg fmtA} : ∀ {e : AExpr}, WtE syms e → ∀ s, ∃ text s', genExprC ⟨syms, dbg, fmtA⟩ e s = some (text, s') ∧ Noted s s'
  | .ident t id ty k, hw, s => by
    cases hw with
    | @ident _ _ _ v h1 h2 h3 h4 =>
      refine ⟨v.name, s, ?_, .refl s⟩
      unfold genExprC
      rw [cgen_bind (by rw [var_eq h1 h2]; rfl)]
      rfl
  | .const t v, hw, s => ⟨_, s, by unfold genExprC; rfl, .refl s⟩
  | .call n args id ty, hw, s => by
    cases hw with
    | @call _ _ _ sym f h1 h2 h3 h4 =>
      obtain ⟨texts, s₁, a1, a2⟩ := args_total (dbg := dbg) (fmtA := fmtA) h4 s
      refine ⟨sym.name ++ "(".toList ++ joinArgs texts ++ ")".toList, s₁, ?_, a2⟩
      unfold genExprC
      rw [cgen_bind (a := (sym, f)) (s' := s) (by rw [func_eq h1 h2]; rfl)]
      rw [← h3] at a1
      rw [cgen_bind a1]
      rfl
  | .un o r ty k, hw, s => by
    have key : ∀ f, prefixC o = some f → WtE syms r → ∃ text s', genExprC ⟨syms, dbg, fmtA⟩ (.un o r ty k) s = some (text, s') ∧ Noted s s' := by
      intro f hf hr
      obtain ⟨rt, s₁, g1, g2⟩ := expr_total (dbg := dbg) (fmtA := fmtA) hr s
      refine ⟨f.1 ++ rt ++ f.2, s₁, ?_, g2⟩
      unfold genExprC
      rw [cgen_bind (a := f) (s' := s) (by rw [hf]; rfl), cgen_bind g1]
      rfl
    cases hw with
    | un h1 h2 =>
      cases o with
      | unaryNeg => exact key _ rfl h2
      | not => exact key _ rfl h2
      | _ => revert h1; cases r.type <;> simp [unType]
    | ref h1 => exact key _ rfl h1
    | deref h1 => exact key _ rfl h1
  | .bin o l r ty k, hw, s => by
    cases hw with
    | bin h1 h2 h3 h4 h5 =>
      obtain ⟨f, s₀, f1, f2⟩ := format_total h4 s
      obtain ⟨lt, s₁, g1, g2⟩ := expr_total (dbg := dbg) (fmtA := fmtA) h1 s₀
      obtain ⟨rt, s₂, k1, k2⟩ := expr_total (dbg := dbg) (fmtA := fmtA) h2 s₁
      refine ⟨f.1 ++ lt ++ f.2 ++ rt ++ ")".toList, s₂, ?_, (f2.trans g2).trans k2⟩
      unfold genExprC
      rw [cgen_bind (by rw [h3]; exact f1), cgen_bind g1, cgen_bind k1]
      rfl
theorem args_total {syms dbg fmtA} : ∀ {args : AArgs} {tys : List Ty}, WtA syms tys args → ∀ s, ∃ texts s',
    genArgsC ⟨syms, dbg, fmtA⟩ tys.length args s = some (texts, s') ∧ Noted s s'
  | .nil, tys, hw, s => by
    cases hw
    exact ⟨[], s, rfl, .refl s⟩
  | .unchecked _, tys, hw, s => by
    cases hw
    exact ⟨[], s, rfl, .refl s⟩
  | .cons t e next, tys, hw, s => by
    cases hw with
    | @cons _ _ _ ty tys h1 h2 h3 =>
      obtain ⟨et, s₁, g1, g2⟩ := expr_total (dbg := dbg) (fmtA := fmtA) h1 s
      obtain ⟨ts, s₂, k1, k2⟩ := args_total (dbg := dbg) (fmtA := fmtA) h3 s₁
      refine ⟨et :: ts, s₂, ?_, g2.trans k2⟩
      simp only [List.length_cons]
      unfold genArgsC
      rw [cgen_bind g1, cgen_bind k1]
      rfl
end

/- ### Statements -/

/-- The step goes on exactly if `ok`, and then gives what `P` says. -/
def Does (m : CGen α) (s : CState) (ok : Prop) (P : α → CState → Prop) : Prop :=
  (ok → ∃ a s', m s = some (a, s') ∧ P a s') ∧ (¬ ok → m s = none)

namespace Does

theorem bind {m : CGen α} {f : α → CGen β} {s : CState} {ok ok' : Prop} {P : α → CState → Prop} {Q : β → CState → Prop}
    (hm : Does m s ok P) (hf : ∀ a s', P a s' → Does (f a) s' ok' Q) : Does (m >>= f) s (ok ∧ ok') Q := by
  constructor
  · rintro ⟨h1, h2⟩
    obtain ⟨a, s', h3, h4⟩ := hm.1 h1
    obtain ⟨b, s'', h5, h6⟩ := (hf a s' h4).1 h2
    exact ⟨b, s'', by rw [cgen_bind h3]; exact h5, h6⟩
  · intro h
    by_cases h1 : ok
    · obtain ⟨a, s', h3, h4⟩ := hm.1 h1
      rw [cgen_bind h3]
      exact (hf a s' h4).2 fun h2 => h ⟨h1, h2⟩
    · show CGen.bind m f s = none
      unfold CGen.bind
      rw [hm.2 h1]

theorem pure {a : α} {s : CState} {P : α → CState → Prop} (h : P a s) : Does (Pure.pure a : CGen α) s True P :=
  ⟨fun _ => ⟨a, s, rfl, h⟩, fun h => absurd trivial h⟩

theorem yes {m : CGen α} {s : CState} {P : α → CState → Prop} (h : ∃ a s', m s = some (a, s') ∧ P a s') : Does m s True P :=
  ⟨fun _ => h, fun h => absurd trivial h⟩

theorem iff {m : CGen α} {s : CState} {ok ok' : Prop} {P : α → CState → Prop} (h : Does m s ok P) (e : ok ↔ ok') : Does m s ok' P :=
  ⟨fun h' => h.1 (e.2 h'), fun h' => h.2 fun h'' => h' (e.1 h'')⟩

theorem mono {m : CGen α} {s : CState} {ok : Prop} {P Q : α → CState → Prop} (h : Does m s ok P) (hq : ∀ a s', P a s' → Q a s') : Does m s ok Q :=
  ⟨fun h' => let ⟨a, s', h1, h2⟩ := h.1 h'; ⟨a, s', h1, hq a s' h2⟩, h.2⟩

/-- A step that always goes on, first. -/
theorem first {m : CGen α} {f : α → CGen β} {s : CState} {ok : Prop} {P : α → CState → Prop} {Q : β → CState → Prop}
    (hm : Does m s True P) (hf : ∀ a s', P a s' → Does (f a) s' ok Q) : Does (m >>= f) s ok Q :=
  (hm.bind hf).iff ⟨fun h => h.2, fun h => ⟨trivial, h⟩⟩

/-- A step that always goes on, last. -/
theorem last {m : CGen α} {f : α → CGen β} {s : CState} {ok : Prop} {P : α → CState → Prop} {Q : β → CState → Prop}
    (hm : Does m s ok P) (hf : ∀ a s', P a s' → Does (f a) s' True Q) : Does (m >>= f) s ok Q :=
  (hm.bind hf).iff ⟨fun h => h.1, fun h => ⟨h, trivial⟩⟩

end Does

/-- Statements that the parser has made are somewhere in the file, and exported variables cannot be changed. -/
def Tokened : ATree → Prop
  | .nil => True
  | .unchecked _ => True
  | .node _ stmt tok child next => (stmt ≠ .unknown → tok ≠ []) ∧
    (∀ n c i x e, stmt = .varDef n c i x e → x = true → c = true) ∧ Tokened child ∧ Tokened next

section
variable {syms : List Symbol} {dbg : Option (List Char)} {fmtA : Nat → List Char}

theorem does_expr {e : AExpr} (h : WtE syms e) (s : CState) : Does (genExprC ⟨syms, dbg, fmtA⟩ e) s True (fun _ s' => s'.indent = s.indent) := by
  obtain ⟨t, s', h1, h2⟩ := expr_total (dbg := dbg) (fmtA := fmtA) h s
  exact .yes ⟨t, s', h1, h2.2.1⟩

theorem does_get (s : CState) : Does (fun s => some (s, s) : CGen CState) s True (fun a s' => a = s ∧ s' = s) := .yes ⟨s, s, rfl, rfl, rfl⟩

theorem does_modify (f : CState → CState) (s : CState) : Does (CGen.modify f) s True (fun _ s' => s' = f s) := .yes ⟨(), f s, rfl, rfl⟩

theorem does_option {o : Option α} {a : α} (h : o = some a) (s : CState) : Does (CGen.ofOption o) s True (fun b s' => b = a ∧ s' = s) :=
  .yes ⟨a, s, by rw [h]; rfl, rfl, rfl⟩

theorem does_notNull {o : Option (List Char)} (s : CState) : Does (notNull o) s (o.isSome = true) (fun _ s' => s' = s) := by
  cases o with
  | none => exact ⟨fun h => by simp at h, fun _ => rfl⟩
  | some t => exact ⟨fun _ => ⟨t, s, rfl, rfl⟩, fun h => by simp at h⟩

theorem does_debug {tok : List Token} (ht : tok ≠ []) (t : List Char) (s : CState) :
    Does (debugC ⟨syms, dbg, fmtA⟩ tok t) s True (fun _ s' => s' = s) := by
  cases tok with
  | nil => exact absurd rfl ht
  | cons a r => cases dbg <;> exact .yes ⟨_, s, rfl, rfl⟩

/-- What a block does; `d` is the level around it and `d'` that of its statements. -/
def DoesBlock (body : CGen (Option (List Char))) (d d' : Nat) (child : ATree) : Prop :=
  ∀ s, s.indent = d → Does body s (Writable d' child) (fun r s' => s'.indent = d ∧ r.isSome = Speaks d' child)

theorem does_tree {d : Nat} {child : ATree} {r : Option (List Char)} {d' : Nat} (hr : r.isSome = Speaks d' child) {s : CState} (hs : s.indent = d)
    (f : CState → List Char → List Char) : Does (do let s ← fun s => some (s, s); let tree ← notNull r; pure (f s tree) : CGen (List Char)) s
      (Speaks d' child = true) (fun _ s' => s'.indent = d) := by
  rw [← hr]
  refine .first (does_get s) fun a s₁ ⟨_, h1⟩ => .last (does_notNull s₁) fun t s₂ h2 => .pure ?_
  rw [h2, h1, hs]

theorem does_control {word e body child} {d : Nat} (he : WtE syms e) (hb : DoesBlock body d (d + 1) child) {s : CState} (hs : s.indent = d) :
    Does (controlC ⟨syms, dbg, fmtA⟩ word e body) s (Speaks (d + 1) child = true ∧ Writable (d + 1) child)
      (fun _ s' => s'.indent = d) := by
  unfold controlC
  refine .first (does_expr he s) fun t s₁ h1 => ?_
  refine Does.iff (.bind (hb s₁ (h1.trans hs)) fun r s₂ h2 => does_tree h2.2 h2.1 _) And.comm

theorem does_plain {word body child} {d : Nat} (hb : DoesBlock body d (d + 1) child) {s : CState} (hs : s.indent = d) :
    Does (plainBlockC word body) s (Speaks (d + 1) child = true ∧ Writable (d + 1) child) (fun _ s' => s'.indent = d) := by
  unfold plainBlockC
  refine Does.iff (.bind (hb s hs) fun r s₂ h2 => does_tree h2.2 h2.1 _) And.comm

theorem does_some {m : CGen α} {s : CState} {ok : Prop} {d : Nat} (h : Does m s ok (fun _ s' => s'.indent = d)) :
    Does (do let t ← m; pure (some t)) s ok (fun r s' => s'.indent = d ∧ r.isSome = true) :=
  .last h fun _ _ h => .pure ⟨h, rfl⟩

theorem does_assign {name e} (he : WtE syms e) (s : CState) : Does (assignC ⟨syms, dbg, fmtA⟩ name e) s True (fun _ s' => s'.indent = s.indent) :=
  .first (does_expr he s) fun _ _ h => .pure h

theorem does_varDef {id e sym} {v : Variable} (he : WtE syms e) (h1 : syms[id]? = some sym) (h2 : sym.kind = .var v) (s : CState) :
    Does (varDefC ⟨syms, dbg, fmtA⟩ id e) s (s.indent = 1 → e.isConstExpr = true → v.isExported = true → v.isConst = true)
      (fun r s' => s'.indent = s.indent ∧ r.isSome = (s.indent != 1 || !e.isConstExpr)) := by
  unfold varDefC
  refine .first (does_option (var_eq h1 h2) s) ?_
  rintro w _ ⟨hw, rfl⟩
  rw [hw]
  clear hw w
  refine .first (does_get _) ?_
  rintro _ s ⟨rfl, hs⟩
  subst hs
  split
  · rename_i hd
    unfold globalVarC
    split
    · rename_i hc
      refine Does.last (P := fun _ s' => s'.indent = s.indent) ?_ fun _ s' h => .pure ⟨h, by simp [hd, hc]⟩
      unfold constGlobalC
      refine .first (does_expr he s) fun t s₁ h1 => ?_
      split
      · rename_i hx
        split
        · rename_i hk
          exact Does.iff (Does.yes ⟨(), _, rfl, h1⟩) ⟨fun _ _ _ _ => hk, fun _ => trivial⟩
        · rename_i hk
          exact ⟨fun h => absurd (h hd hc hx) hk, fun _ => rfl⟩
      · rename_i hx
        exact Does.iff (Does.yes ⟨(), _, rfl, h1⟩) ⟨fun _ _ _ h => absurd h hx, fun _ => trivial⟩
    · rename_i hc
      have key : ∀ text : List Char, Does (do appendGlobal text; let t ← assignC ⟨syms, dbg, fmtA⟩ v.name e; pure (some t)) s
          (s.indent = 1 → e.isConstExpr = true → v.isExported = true → v.isConst = true)
          (fun r s' => s'.indent = s.indent ∧ r.isSome = (s.indent != 1 || !e.isConstExpr)) := by
        intro text
        refine Does.iff (ok := True) ?_ ⟨fun _ _ h => absurd h hc, fun _ => trivial⟩
        refine .first (does_modify _ s) fun _ s₁ h1 => .first (does_assign he s₁) fun t s₂ h2 => .pure ⟨?_, by simp [hc]⟩
        rw [h2, h1]
      split
      · exact key _
      · exact key _
  · rename_i hd
    refine Does.iff (ok := True) ?_ ⟨fun _ h => absurd h hd, fun _ => trivial⟩
    unfold stackVarC
    refine .first (P := fun _ s' => s'.indent = s.indent) (.first (does_expr he s) fun t s₁ h1 => .pure h1) fun t s₁ h1 => .pure ⟨h1, by simp [hd]⟩

theorem does_map {f : α → CGen β} {P : α → Prop} (hf : ∀ a, P a → ∀ s, Does (f a) s True (fun _ s' => s' = s)) : ∀ (as : List α) (s : CState),
    (∀ a ∈ as, P a) → Does (mapGen f as) s True (fun _ s' => s' = s)
  | [], s, _ => .pure rfl
  | a :: as, s, h => by
    unfold mapGen
    refine .first (hf a (h a List.mem_cons_self) s) fun b s₁ h1 => .first (does_map hf as s₁ fun x hx => h x (List.mem_cons_of_mem _ hx)) fun bs s₂ h2 => .pure ?_
    rw [h2, h1]

theorem does_params {f : Func} {params : List Nat} (hp : ∀ id ∈ params, ∃ sym v, syms[id]? = some sym ∧ sym.kind = .var v) (s : CState) :
    Does (paramsC ⟨syms, dbg, fmtA⟩ f params) s True (fun _ s' => s' = s) := by
  unfold paramsC
  refine .first (does_map (P := fun id => ∃ sym v, syms[id]? = some sym ∧ sym.kind = .var v) ?_ _ s fun id h => hp id (List.take_subset _ _ h)) fun _ s₁ h => .pure h
  rintro id ⟨sym, v, h1, h2⟩ s
  unfold paramC
  refine .first (does_option (var_eq h1 h2) s) ?_
  rintro _ _ ⟨rfl, rfl⟩
  exact .pure rfl

theorem does_function {id params tok body sym f child} {d : Nat} (h1 : syms[id]? = some sym) (h2 : sym.kind = .func f)
    (hp : ∀ id ∈ params, ∃ sym v, syms[id]? = some sym ∧ sym.kind = .var v) (ht : tok ≠ []) (hb : DoesBlock body 0 1 child)
    {s : CState} (hs : s.indent = d) :
    Does (functionDefC ⟨syms, dbg, fmtA⟩ id params tok body) s (f.isExternal = false → Speaks 1 child = true ∧ Writable 1 child)
      (fun _ s' => s'.indent = d) := by
  unfold functionDefC
  refine Does.last (P := fun _ s' => s'.indent = d) ?_ fun t s₁ h1 => .yes ⟨(), _, rfl, h1⟩
  unfold prototypeC
  refine .first (does_option (func_eq h1 h2) s) ?_
  rintro _ _ ⟨rfl, rfl⟩
  refine .first (does_params hp _) ?_
  rintro ps s₁ rfl
  simp only
  split
  · rename_i hx
    exact Does.iff (.pure hs) ⟨fun _ (h : _ = false) => absurd (hx.symm.trans h) (by decide), fun _ => trivial⟩
  · rename_i hx
    refine .first (does_get _) ?_
    rintro _ s ⟨rfl, hs'⟩
    subst hs'
    refine .first (does_modify _ s) ?_
    rintro _ _ rfl
    refine Does.iff (ok := Writable 1 child ∧ Speaks 1 child = true) (.bind (hb _ rfl) ?_) ⟨fun h _ => h.symm, fun h => (h (by simpa using hx)).symm⟩
    rintro r s₂ ⟨h3, h4⟩
    refine .first (does_modify _ s₂) ?_
    rintro _ _ rfl
    refine .last ((does_notNull _).iff (by rw [h4])) ?_
    rintro t s₃ rfl
    refine (does_debug ht _ _).mono fun _ s' h => ?_
    rw [h]
    exact hs

/-- The first part of `Writable`. -/
def stmtOk (level : Nat) (stmt : Stmt) (child : ATree) : Prop :=
  match stmt with
      | .ifs _ | .elifs _ | .elses | .whiles _ | .namespaces => Speaks (level + 1) child = true ∧ Writable (level + 1) child
      | .funcProto p => p.isExternal = false → Speaks 1 child = true ∧ Writable 1 child
      | _ => True

theorem does_stmt {loop before ann stmt tok child next body} {d : Nat} (hw : WtNode syms loop before ann stmt child next)
    (ht : stmt ≠ .unknown → tok ≠ []) (hm : ∀ n c i x e, stmt = .varDef n c i x e → x = true → c = true) (hb : ∀ d, DoesBlock body d (d + 1) child) {s : CState} (hs : s.indent = d) :
    Does (genStmtC ⟨syms, dbg, fmtA⟩ ann stmt tok body) s (stmtOk d stmt child) (fun r s' => s'.indent = d ∧ r.isSome = speaks d ann stmt) := by
  cases hw with
  | alias => exact .pure ⟨hs, rfl⟩
  | varDef h1 h2 h3 h4 h5 h6 h7 h8 h9 =>
    subst hs
    exact Does.iff (does_varDef h9 h1 h2 s) ⟨fun _ => trivial, fun _ _ _ hx => by rw [h4]; exact hm _ _ _ _ _ rfl (h5.symm.trans hx)⟩
  | assign h1 h2 h3 h4 h5 h6 h7 =>
    refine .first (does_option (var_eq h1 h2) s) ?_
    rintro _ _ ⟨rfl, rfl⟩
    exact (does_some (does_assign h7 _)).mono fun r s' h => ⟨h.1.trans hs, h.2⟩
  | ret => exact .pure ⟨hs, rfl⟩
  | retValue _ h => exact .first (does_expr h s) fun _ s' h => .pure ⟨h.trans hs, rfl⟩
  | call h => exact .first (does_expr h s) fun _ s' h => .pure ⟨h.trans hs, rfl⟩
  | ifs h => exact does_some (does_control h (hb d) hs)
  | elifs h => exact does_some (does_control h (hb d) hs)
  | elses => exact does_some (does_plain (hb d) hs)
  | whiles h => exact does_some (does_control h (hb d) hs)
  | breaks => exact .pure ⟨hs, rfl⟩
  | continues => exact .pure ⟨hs, rfl⟩
  | @func p id sym f params _ _ h1 h2 h3 h4 h5 h6 h7 h8 h9 =>
    refine Does.iff (.last (does_function h1 h2 ?_ (ht (by simp)) (hb 0) hs) fun _ s' h => .pure ⟨h, rfl⟩) (by rw [h3]; rfl)
    intro id hid
    obtain ⟨i, hi⟩ := List.getElem?_of_mem hid
    have hlt : i < f.paramTypes.length := by
      have := (List.getElem?_eq_some_iff.1 hi).1
      omega
    obtain ⟨sym, v, k1, k2, _⟩ := h8 i id _ hi (List.getElem?_eq_getElem hlt)
    exact ⟨sym, v, k1, k2⟩
  | ns h1 =>
    refine .first (does_option h1 s) ?_
    rintro _ _ ⟨rfl, rfl⟩
    exact does_some (does_plain (hb d) hs)
  | unreachable => exact .pure ⟨hs, rfl⟩
  | other h => rcases h with rfl | rfl | rfl | rfl <;> exact .pure ⟨hs, rfl⟩

theorem does_indent {tok : List Token} {t : Option (List Char)} (ht : t.isSome = true → tok ≠ []) {d : Nat} {s : CState} (hs : s.indent = d) :
    Does (indentC ⟨syms, dbg, fmtA⟩ tok t) s True (fun r s' => s'.indent = d ∧ r.isSome = t.isSome) := by
  cases t with
  | none => exact .pure ⟨hs, rfl⟩
  | some t =>
    unfold indentC
    refine .first (does_get s) ?_
    rintro _ _ ⟨rfl, rfl⟩
    refine .first (does_debug (ht rfl) _ _) ?_
    rintro _ _ rfl
    exact .pure ⟨hs, rfl⟩

theorem does_nodes : ∀ {t : ATree} {loop before}, WtTree syms loop before t → Tokened t → ∀ (acc : Option (List Char)) (d : Nat) (s : CState), s.indent = d →
    Does (genNodesC ⟨syms, dbg, fmtA⟩ acc t) s (Writable d t) (fun r s' => s'.indent = d ∧ r.isSome = (acc.isSome || Speaks d t))
  | .nil, _, _, _, _, acc, d, s, hs => by
    unfold genNodesC Writable
    exact .pure ⟨hs, by simp [Speaks]⟩
  | .unchecked _, _, _, _, _, acc, d, s, hs => by
    unfold genNodesC Writable
    exact ⟨fun h => h.elim, fun _ => rfl⟩
  | .node ann stmt tok child next, loop, before, hw, ht, acc, d, s, hs => by
    cases hw with
    | node h1 h2 h3 =>
      obtain ⟨t1, tm, t2, t3⟩ := ht
      unfold genNodesC Writable
      refine .bind (does_stmt h1 t1 tm ?_ hs) ?_
      · intro d s hs
        refine .first (does_modify _ s) ?_
        rintro _ _ rfl
        refine .last (does_nodes h2 t2 none (d + 1) _ (by simp [hs])) ?_
        rintro r s₁ ⟨h4, h5⟩
        refine .first (does_modify _ s₁) ?_
        rintro _ _ rfl
        exact .pure ⟨by simp [h4], by simpa using h5⟩
      · rintro r s₁ ⟨h4, h5⟩
        refine .first (does_indent ?_ h4) ?_
        · intro h
          refine t1 ?_
          rintro rfl
          rw [h5] at h
          simp [speaks] at h
        · rintro r' s₂ ⟨h6, h7⟩
          refine (does_nodes h3 t3 _ d s₂ h6).mono ?_
          rintro r'' s₃ ⟨h8, h9⟩
          refine ⟨h8, ?_⟩
          rw [h9, Speaks, ← h5, ← h7]
          cases acc <;> cases r' <;> simp [joinStmts]

end

/- ### The tokens of statements -/

theorem written_tok {tok ts : List Token} {st : Stmt} (h : Written tok ts st) : tok ≠ [] := by
  cases h with
  | expr h => simp [exprOf_ne h]
  | _ => simp

theorem stmt_tokened {cfg before stmt tok tokEnd child next nodes} (hn : Gives nodes Tokened) :
    Gives (validateStmt cfg before stmt tok tokEnd child next nodes) fun r => Tokened r.2 := by
  unfold validateStmt
  split
  case h_1 => exact .andThen fun _ => .pure trivial
  case h_2 => exact .andThen fun _ => .pure trivial
  case h_3 => exact .andThen fun _ => .andThen fun _ => .andThen fun _ => .bind (block_gives hn) fun _ h => .andThen fun _ => .andThen fun _ => .pure h
  case h_4 => exact .andThen fun _ => .pure trivial
  case h_5 => exact .andThen fun _ => .pure trivial
  case h_6 => exact .ub
  case h_7 => exact .andThen fun _ => .pure (by cases child <;> trivial)
  case h_8 => exact .andThen fun _ => .error
  case h_9 => exact .andThen fun _ => .andThen fun _ => .bind (block_gives hn) fun _ h => .pure h
  case h_10 => exact .andThen fun _ => .andThen fun _ => .bind (block_gives hn) fun _ h => .pure h
  case h_11 => exact .andThen fun _ => .andThen fun _ => .andThen fun _ => .bind (block_gives hn) fun _ h => .pure h
  case h_12 =>
    exact .andThen fun _ => .andThen fun _ => .andThen fun _ => .andThen fun _ => .bind (block_gives hn) fun _ h =>
      .andThen fun _ => .andThen fun _ => .pure h
  case h_13 => exact .andThen fun _ => .pure trivial
  case h_14 => exact .andThen fun _ => .pure trivial
  case h_15 => exact .andThen fun _ => .bind (block_gives hn) fun _ h => .andThen fun _ => .pure h
  case h_16 => exact .andThen fun _ => .pure trivial
  all_goals exact .pure trivial

theorem nodes_tokened {cfg : Cfg} : ∀ (t : Tree) (before : List Stmt), AllNodes AsWritten t → Gives (validateNodes cfg before t) Tokened
  | .nil, before, _ => by unfold validateNodes; exact .pure trivial
  | .node stmt tok tokEnd child next, before, h => by
    unfold validateNodes
    refine .andThen fun _ => .bind (stmt_tokened (nodes_tokened child [] h.2.1)) fun r hr =>
      .bind (nodes_tokened next (stmt :: before) h.2.2) fun rest hrest => .pure ⟨fun hu => ?_, fun n c i x e he hx => ?_, hr, hrest⟩
    · rcases h.1 with h | ⟨⟨ts, h⟩, _⟩
      · exact absurd h hu
      · exact written_tok h
    · rcases h.1 with h | ⟨⟨ts, h⟩, _⟩
      · rw [he] at h
        cases h
      · rw [he, hx] at h
        cases h with
        | implicit h => cases h; rfl
        | explicit h => cases h; rfl

theorem semantic_tokened {cfg t a s} (hp : Parsed t) (h : semantic cfg t = .ok a s) : Tokened a := by
  unfold semantic at h
  split at h
  · cases h
  · rename_i s₀ _
    unfold validateAstTree at h
    obtain ⟨a', s₁, h1, h⟩ := bind_ok.1 h
    have : a' = a := by
      obtain ⟨s₂, _, h⟩ := bind_ok_unit.1 h
      obtain ⟨s₃, _, h⟩ := bind_ok_unit.1 h
      split at h
      · cases h; rfl
      · obtain ⟨b, s₄, _, h⟩ := bind_ok.1 h
        split at h
        · cases h
        · cases h; rfl
    subst this
    obtain ⟨toks, ps, hp⟩ := hp
    exact nodes_tokened t [] (parsed_placed hp) _ _ _ h1

/-- The C back end writes a text for an accepted program exactly if it is `Writable`. -/
theorem genModuleC_iff {cfg : Cfg} {t : Tree} {a : ATree} {s : SS} (hp : Parsed t) (h : semantic cfg t = .ok a s)
    (dbg : Option (List Char)) (fmtA : Nat → List Char) :
    (∃ r, genModuleC ⟨s.syms, dbg, fmtA⟩ a = some r) ↔ Writable 1 a := by
  have hd := does_nodes (dbg := dbg) (fmtA := fmtA) (semantic_wt hp h).2 (semantic_tokened hp h) none 1 { ({} : CState) with indent := 1 } rfl
  have e : ∀ x, genNodesC ⟨s.syms, dbg, fmtA⟩ none a { ({} : CState) with indent := 1 } = x →
      genModuleC ⟨s.syms, dbg, fmtA⟩ a = x.map fun r => (r.1, { r.2 with indent := r.2.indent - 1 }) := by
    intro x hx
    unfold genModuleC
    rw [cgen_bind (a := ()) (s' := { ({} : CState) with indent := 1 }) rfl]
    cases x with
    | none =>
      show CGen.bind _ _ _ = none
      unfold CGen.bind
      rw [hx]
    | some r =>
      rw [cgen_bind hx]
      rfl
  constructor
  · rintro ⟨r, hr⟩
    refine Classical.byContradiction fun hw => ?_
    rw [e _ (hd.2 hw)] at hr
    cases hr
  · intro hw
    obtain ⟨r, s', h1, _⟩ := hd.1 hw
    exact ⟨_, e _ h1⟩

end Skull
