import Verif.Proofs.CSimRun
/-
The C form of a program does what the program does: calls, and all of it together.
-/
namespace Skull.CSim
open Spec Spec.C

section
variable {ω : Type} {c : RunCtx ω} {d : CRunCtx ω} {fmtA : Nat → List Char} {F : Floats}

theorem cType_void {ty : Ty} : cType ty = .base "void".toList ↔ ty = .prim .void := by
  constructor
  · intro h
    match ty with
    | .prim .int | .prim .float | .prim .rune | .prim .str | .prim .bool => revert h; decide
    | .prim .void => rfl
    | .ref _ => simp only [cType] at h; cases h
  · rintro rfl; rfl

theorem toVal_cval {u x} (h : cval u = some x) : x.toVal = some u := by
  cases u with
  | int i => cases h; rfl
  | bool b => cases h; cases b <;> rfl
  | rune r =>
    simp only [cval] at h
    split at h
    · cases h; simp [CVal.toVal]
    · cases h
  | float b => cases h; rfl
  | str s => cases h; rfl
  | unit => cases h

theorem extern_ok {ty v} (h : HasTy ty v) :
    ∃ ox, externResult (cType ty) v = some ox ∧ ((v = .unit ∧ ox = none) ∨ ∃ x, ox = some x ∧ cval v = some x) := by
  unfold HasTy at h
  split at h
  · refine ⟨_, ?_, .inr ⟨_, rfl, rfl⟩⟩
    unfold externResult
    rw [if_neg (by decide)]
    simp only [cType, ofVal]
    rw [if_pos ⟨trivial, h⟩]
    rfl
  · exact ⟨_, rfl, .inr ⟨_, rfl, rfl⟩⟩
  · exact ⟨_, rfl, .inr ⟨_, rfl, rfl⟩⟩
  · rename_i r
    refine ⟨some (.int .uint r), ?_, .inr ⟨_, rfl, by simp only [cval, if_pos h]⟩⟩
    unfold externResult
    rw [if_neg (by decide)]
    simp only [cType, ofVal]
    rw [if_pos ⟨trivial, h⟩]
    rfl
  · exact ⟨_, rfl, .inr ⟨_, rfl, rfl⟩⟩
  · exact ⟨none, rfl, .inl ⟨rfl, rfl⟩⟩
  · exact h.elim

/-- A parameter with its argument. -/
def ParamRel (syms : List Symbol) (p : Nat × Val) (b : Auto) : Prop :=
  ∃ v, varOf syms p.1 = some v ∧ b.name = nameOf syms p.1 ∧ b.isConst = false ∧ b.ty = cType v.type ∧ cval p.2 = some b.val ∧ Typed v.type p.2

theorem bindArgs_ok {syms : List Symbol} : ∀ {ps cps tys vs xs}, ParamsOf syms ps cps → ps.length = tys.length →
    (∀ (i id : Nat) (ty : Ty), ps[i]? = some id → tys[i]? = some ty → IsParam syms id ty) → ArgsOk tys vs xs →
    ∃ a, bindArgs cps xs = some a ∧ All2 (ParamRel syms) (ps.zip vs) a ∧ ps.length = vs.length := by
  intro ps
  induction ps with
  | nil =>
    intro cps tys vs xs hp hl ht ha
    cases hp
    match tys, hl with
    | [], _ =>
      match vs, xs, ha with
      | [], [], _ => exact ⟨[], rfl, .nil, rfl⟩
  | cons id ps ih =>
    intro cps tys vs xs hp hl ht ha
    match tys, hl with
    | ty :: tys, hl =>
      match vs, xs, ha with
      | v :: vs, x :: xs, ha =>
        cases hp with
        | cons h1 h2 =>
          obtain ⟨sym, w, hs, hk, rfl⟩ := h1
          obtain ⟨a, e1, e2, e3⟩ := ih h2 (by simpa using hl) (fun i => ht (i + 1)) ha.2.2
          obtain ⟨sym', w', hs', hk', _, _, _, hty, _⟩ := ht 0 id ty rfl rfl
          rw [hs] at hs'
          cases hs'
          rw [hk] at hk'
          cases hk'
          subst hty
          obtain ⟨u, hc, hv⟩ := convert_stands ha.1 ha.2.1
          refine ⟨⟨sym.name, false, cType w.type, u⟩ :: a, ?_, .cons ⟨w, varOf_eq hs hk, (nameOf_eq hs).symm, rfl, rfl, hc, ha.2.1⟩ e2, by simp [e3]⟩
          simp only [bindArgs, hv, e1]

theorem toVals_ok {syms : List Symbol} : ∀ {ps : List Nat} {vs a}, All2 (ParamRel syms) (ps.zip vs) a → ps.length = vs.length → toVals a = some vs := by
  intro ps
  induction ps with
  | nil =>
    intro vs a h hl
    match vs, hl with
    | [], _ => cases h; rfl
  | cons id ps ih =>
    intro vs a h hl
    match vs, hl with
    | v :: vs, hl =>
      cases h with
      | cons h1 h2 =>
        obtain ⟨w, _, _, _, _, hc, _⟩ := h1
        simp only [toVals, toVal_cval hc, ih h2 (by simpa using hl)]

theorem lookup_zip {ps : List Nat} : ∀ {vs : List Val}, ps.Nodup → ∀ p ∈ ps.zip vs, (ps.zip vs).lookup p.1 = some p.2 := by
  induction ps with
  | nil => intro vs _ p h; simp at h
  | cons id ps ih =>
    intro vs hn p h
    cases vs with
    | nil => simp at h
    | cons v vs =>
      rw [List.nodup_cons] at hn
      simp only [List.zip_cons_cons, List.mem_cons] at h
      simp only [List.zip_cons_cons, List.lookup_cons]
      rcases h with rfl | h
      · simp
      · have h1 : p.1 ∈ ps := (List.of_mem_zip (a := p.1) (b := p.2) h).1
        have : (p.1 == id) = false := by
          rw [beq_eq_false_iff_ne]
          rintro rfl
          exact hn.1 h1
        rw [this]
        exact ih hn.2 p h

theorem lookup_some {ps : List Nat} : ∀ {vs : List Val} {id v}, (ps.zip vs).lookup id = some v → (id, v) ∈ ps.zip vs := by
  induction ps with
  | nil => intro vs id v h; simp at h
  | cons i ps ih =>
    intro vs id v h
    cases vs with
    | nil => simp at h
    | cons w vs =>
      simp only [List.zip_cons_cons, List.lookup_cons] at h
      simp only [List.zip_cons_cons, List.mem_cons]
      split at h
      · rename_i he
        cases h
        rw [beq_iff_eq] at he
        exact .inl (by rw [he])
      · exact .inr (ih h)

theorem All2.ofZip {β : Type} {R : Nat × Val → β → Prop} {Q : Nat → β → Prop} : ∀ {ps : List Nat} {vs a}, All2 R (ps.zip vs) a → ps.length = vs.length →
    (∀ p ∈ ps.zip vs, ∀ b, R p b → Q p.1 b) → All2 Q ps a := by
  intro ps
  induction ps with
  | nil =>
    intro vs a h _ _
    simp at h
    cases h
    exact .nil
  | cons id ps ih =>
    intro vs a h hl hi
    match vs, hl with
    | v :: vs, hl =>
      cases h with
      | cons h1 h2 => exact .cons (hi (id, v) (by simp) _ h1) (ih h2 (by simpa using hl) fun p hp => hi p (by simp [hp]))

theorem All2.mem {α β : Type} {R : α → β → Prop} : ∀ {l : List α} {m : List β}, All2 R l m → ∀ x ∈ l, ∃ y, R x y
  | _, _, .nil, _, h => by cases h
  | _, _, .cons h t, x, hx => by
    rcases List.mem_cons.1 hx with rfl | hx
    · exact ⟨_, h⟩
    · exact t.mem x hx

theorem find_of_findIdx {α : Type} {p : α → Bool} : ∀ {l : List α} {j}, l.findIdx? p = some j → ∃ x, l.find? p = some x ∧ l[j]? = some x ∧ p x = true := by
  intro l
  induction l with
  | nil => intro j h; simp at h
  | cons y l ih =>
    intro j h
    rw [List.findIdx?_cons] at h
    cases hp : p y with
    | true =>
      rw [hp] at h
      cases h
      exact ⟨y, by simp [hp], rfl, hp⟩
    | false =>
      rw [hp] at h
      simp only [Bool.false_eq_true, if_false] at h
      obtain ⟨i, hi, rfl⟩ := Option.map_eq_some_iff.1 h
      obtain ⟨x, h1, h2, h3⟩ := ih hi
      exact ⟨x, by simp [hp, h1], h2, h3⟩

theorem sim_call (hl : Linked c d fmtA F) {n : Nat} (ih : ExecSim c d fmtA F n) : CallSim c d (n + 1) := by
  intro id vs S v S' j sym f xs T h hj hs hk hargs hg
  obtain ⟨⟨id', ps, body⟩, hfind, hget, hid⟩ := find_of_findIdx hj
  simp only [decide_eq_true_eq] at hid
  subst hid
  obtain ⟨sym', f', hf⟩ := hl.func j id' ps body hget
  have h1 := hf.symbol
  rw [hs] at h1
  cases h1
  have h2 := hf.kind
  rw [hk] at h2
  cases h2
  obtain ⟨sn, sl, sp, su, sk⟩ := sym
  simp only at hk
  subst hk
  simp only [callF, hfind, hs] at h
  cases hext : f.isExternal with
  | true =>
    obtain ⟨e1, e2, cps, e3, e4⟩ := hf.ext hext
    obtain ⟨a, b1, b2, b3⟩ := bindArgs_ok e4 hf.length hf.types hargs
    simp only at e1 e2 e3
    rw [if_pos b3, if_pos hext] at h
    split at h
    · rename_i u w hx
      cases h
      obtain ⟨ox, r1, r2⟩ := extern_ok (hl.typed id' _ f hs rfl hext _ _ _ _ hx)
      refine ⟨ox, ⟨T.objs, w⟩, .of fun m => ?_, r2, HasTy.typed (hl.typed id' _ f hs rfl hext _ _ _ _ hx), ⟨rfl, hg.tops, hg.inits, hg.typed⟩,
        ⟨fun _ _ => rfl, fun _ h => h, fun _ _ => rfl⟩⟩
      rw [e1] at hx
      simp only [callX, e2, e3, b1, toVals_ok b2 b3, hl.ext, hg.world, hx, r1]
    · cases h
  | false =>
    obtain ⟨cps, ss, its, tops, e1, e2, e3, e4, e5, e6, e7, e8⟩ := hf.code hext
    obtain ⟨a, b1, b2, b3⟩ := bindArgs_ok e2 hf.length hf.types hargs
    rw [if_pos b3, hext] at h
    simp only [Bool.false_eq_true, if_false] at h
    split at h
    · rename_i o S1 hx
      have hkk : KOk c ⟨ps, ps, [], tops, j, some j, f.returnType⟩ := by
        refine ⟨fun j h => by cases h; rfl, fun p hp => (hf.params p hp).1, fun p hp => (hf.params p hp).2, hf.nodup, e4, fun h => (by cases h), ?_, ?_, ?_, ?_, ?_⟩ <;>
        · intro i hi; cases hi
      have hrl : RelL c ⟨ps, ps, [], tops, j, some j, f.returnType⟩ (bindParams ps vs) S a T := by
        refine ⟨b2.ofZip b3 ?_, fun i hi => (by cases hi), fun i => ?_, fun h => (by cases h), ?_⟩
        · rintro p hp b ⟨w, w1, w2, w3, w4, w5, w6⟩
          refine ⟨w, p.2, w1, w2, (by rw [w3]; intro h; cases h), w4, ?_, w5⟩
          unfold valOf bindParams
          rw [lookup_zip hf.nodup p hp]
        · unfold bindParams
          constructor
          · intro h
            obtain ⟨u, hu⟩ := Option.isSome_iff_exists.1 h
            exact ⟨rfl, .inl (List.of_mem_zip (lookup_some hu)).1⟩
          · rintro ⟨_, h | h⟩
            · have h : i ∈ ps := h
              obtain ⟨k, hk, rfl⟩ := List.mem_iff_getElem.1 h
              have hm : (ps[k], vs[k]'(by omega)) ∈ ps.zip vs := by
                rw [List.mem_iff_getElem]
                exact ⟨k, by simp; omega, by simp⟩
              rw [lookup_zip hf.nodup _ hm]
              rfl
            · cases h
        · intro i u w hu hw
          obtain ⟨b, w', w1, _, _, _, _, w6⟩ := b2.mem _ (lookup_some hu)
          rw [hw] at w1
          cases w1
          exact w6
      obtain ⟨co, T', s1, s2, s3, s4⟩ := ih hx ⟨⟨its, e3⟩, e5, e6, ⟨_, _, e7⟩, e8, by simp⟩ hkk hg hrl rfl
      have fr := s4 rfl
      split at h
      · rename_i u hres
        cases h
        have hcall : ∀ ox, co.result (cType f.returnType) = some ox → Soon fun m => callX d m sn xs T = some (ox, T') := by
          intro ox ho
          refine s1.step fun m hm => ?_
          simp only [callX, e1, b1, hm, ho]
        have hnone : ∀ (hv : (if f.returnType = .prim .void then some Val.unit else none) = some v)
            (hco : co.result (cType f.returnType) = if cType f.returnType = .base "void".toList then some none else none),
            ∃ ox T', Soon (fun m => callX d m sn xs T = some (ox, T')) ∧ ((v = .unit ∧ ox = none) ∨ ∃ x, ox = some x ∧ cval v = some x) ∧
              Typed f.returnType v ∧ RelG c d S' T' ∧ Frame c (j + 1) S T S' T' := by
          intro hv hco
          split at hv
          · rename_i ht
            cases hv
            rw [if_pos (cType_void.2 ht)] at hco
            exact ⟨none, T', hcall _ hco, .inl ⟨rfl, rfl⟩, by rw [ht]; trivial, s3, fr⟩
          · cases hv
        cases o with
        | normal L' =>
          cases co with
          | normal a' => exact hnone hres rfl
          | _ => exact s2.elim
        | broke => cases hres
        | continued => cases hres
        | returned ov =>
          cases ov with
          | none =>
            cases co with
            | returned ox =>
              cases ox with
              | none => exact hnone hres rfl
              | some x => exact s2.elim
            | _ => exact s2.elim
          | some u =>
            cases co with
            | returned ox =>
              cases ox with
              | none => exact s2.elim
              | some x =>
                simp only [Out.result] at hres
                split at hres
                · cases hres
                · cases hres
                  obtain ⟨cv, c1, c2⟩ := convert_stands s2.1 s2.2
                  refine ⟨some cv, T', hcall _ ?_, .inr ⟨cv, rfl, c1⟩, s2.2, s3, fr⟩
                  simp only [COut.result, c2, Option.map_some]
            | _ => exact s2.elim
      · cases h
    · cases h

structure SimAt (c : RunCtx ω) (d : CRunCtx ω) (fmtA : Nat → List Char) (F : Floats) (n : Nat) : Prop where
  expr : ExprSim c d fmtA F n
  args : ArgsSim c d fmtA F n
  call : CallSim c d n
  exec : ExecSim c d fmtA F n
  els : ElseSim c d fmtA F n
  block : AndSim c d fmtA F n
  loop : LoopSim c d fmtA F n

theorem simAt (hl : Linked c d fmtA F) : ∀ n, SimAt c d fmtA F n := by
  intro n
  induction n with
  | zero =>
    refine ⟨?_, ?_, ?_, ?_, ?_, ?_, ?_⟩
    · intro _ _ _ _ _ _ _ _ _ h; simp [evalE] at h
    · intro _ _ _ _ _ _ _ _ _ _ h; simp [evalA] at h
    · intro _ _ _ _ _ _ _ _ _ _ h; simp [callF] at h
    · intro _ _ _ _ _ _ _ _ _ _ _ _ h; simp [execT] at h
    · intro _ _ _ _ _ _ _ _ _ _ _ _ _ h; simp [execT] at h
    · intro _ _ _ _ _ _ _ _ _ _ _ _ _ _ h; simp [andThen] at h
    · intro _ _ _ _ _ _ _ _ _ _ _ _ _ h; simp [loopW] at h
  | succ n ih =>
    have hx : ExecSim c d fmtA F (n + 1) := sim_exec hl ih.expr ih.exec ih.els ih.block ih.loop
    exact ⟨sim_expr hl ih.expr ih.args ih.call, sim_args ih.expr ih.args, sim_call hl ih.exec, hx,
      sim_else hl ih.expr hx ih.els ih.block, sim_and ih.exec, sim_loop ih.expr ih.exec ih.loop⟩

end

end Skull.CSim
