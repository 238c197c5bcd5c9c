import Verif.Proofs.CSimExec
/-
Programs: all statements and calls.
-/
namespace Skull.CSim
open Spec Spec.C

section
variable {ω : Type} {c : RunCtx ω} {d : CRunCtx ω} {fmtA : Nat → List Char} {F : Floats}

theorem texts_node {P : AExpr → Prop} {ann stmt tok child next} (h : ∀ e ∈ (ATree.node ann stmt tok child next).exprs, P e) :
    (∀ e, ann.value = some e → P e) ∧ (∀ e ∈ child.exprs, P e) ∧ ∀ e ∈ next.exprs, P e := by
  simp only [ATree.exprs, List.mem_append, or_imp, forall_and] at h
  exact ⟨fun e he => h.1.1 e (by rw [he]; simp), h.1.2, h.2⟩

/-- Behind an `if`, statements that are no alternatives. -/
theorem chain_same {top : Bool} : ∀ {n lvl t ss its L} {S : SState ω} {loop before}, CForm c.syms fmtA lvl t ss its → WtTree c.syms loop before t →
    execT c n top true t L S = execT c n top false t L S
  | 0, _, _, _, _, _, _, _, _, _, _ => rfl
  | n + 1, lvl, t, ss, its, L, S, loop, before, hf, hw => by
    cases hf with
    | nil => simp only [execT]
    | silent h hn =>
      cases hw with
      | node w wc wn =>
        rcases h with rfl | rfl | rfl
        · simp only [execT]; exact chain_same hn wn
        · simp only [execT]
        · simp only [execT]
    | known | unknown | loc | assign | external | func | ns | expr =>
      cases hw with
      | node w wc wn => cases w <;> simp only [execT]
    | _ => simp only [execT]

theorem StOk.after {K deep lvl ss} : ∀ {t : ATree}, StOk c d fmtA F K deep lvl t ss → StOk c d fmtA F K deep lvl (afterChain t) ss
  | .nil, h => h
  | .unchecked _, h => h
  | .node ann stmt tok child next, h => by
    obtain ⟨⟨its, hf⟩, hfit, hsep, ⟨loop, before, hw⟩, htx, hlvl⟩ := h
    by_cases hs : stmt = .comment
    · subst hs
      cases hw with
      | node w wc wn =>
        have hn : CForm c.syms fmtA lvl next ss its := by
          cases hf with
          | silent _ hn => exact hn
          | known | unknown | loc | assign | external | func | ns => cases w
        refine StOk.after (t := next) ⟨⟨its, hn⟩, ?_, ?_, ⟨_, _, wn⟩, (texts_node htx).2.2, hlvl⟩
        · unfold fitsT at hfit; simpa using hfit
        · unfold Sep at hsep; exact hsep.2
    · have : afterChain (.node ann stmt tok child next) = .node ann stmt tok child next := by
        cases hw with
        | node w wc wn =>
          cases hf with
          | silent h hn => rcases h with rfl | rfl | rfl <;> first | exact absurd rfl hs | rfl
          | known | unknown | loc | assign | external | func | ns => cases w <;> rfl
          | _ => rfl
      rw [this]
      exact ⟨⟨its, hf⟩, hfit, hsep, ⟨loop, before, hw⟩, htx, hlvl⟩

theorem ElOk.after {K deep lvl} : ∀ {t : ATree} {els ss}, ElOk c d fmtA F K deep lvl t els ss → StOk c d fmtA F K deep lvl (afterChain t) ss
  | t, els, ss, ⟨⟨its, hf⟩, hfit, hsep, ⟨loop, before, hw⟩, htx, hlvl⟩ => by
    cases hf with
    | none hf => exact StOk.after ⟨⟨its, hf⟩, hfit, hsep, ⟨loop, before, hw⟩, htx, hlvl⟩
    | @comment _ ann tok child next _ _ _ hn =>
      cases hw with
      | node w wc wn =>
        refine ElOk.after (t := next) ⟨⟨its, hn⟩, ?_, ?_, ⟨_, _, wn⟩, (texts_node htx).2.2, hlvl⟩
        · unfold fitsT at hfit; simpa using hfit
        · unfold Sep at hsep; exact hsep.2
    | @els _ ann tok child next body _ bi ni hc hn =>
      cases hw with
      | node w wc wn =>
        refine ⟨⟨ni, hn⟩, ?_, ?_, ⟨_, _, wn⟩, (texts_node htx).2.2, hlvl⟩
        · unfold fitsT at hfit
          rw [Bool.and_eq_true] at hfit
          exact hfit.2
        · unfold Sep at hsep; exact hsep.2
    | @elif _ a' e ce tok child next body els' _ bi ni hr hc hn =>
      cases hw with
      | node w wc wn =>
        refine ElOk.after (t := next) ⟨⟨ni, hn⟩, ?_, ?_, ⟨_, _, wn⟩, (texts_node htx).2.2, hlvl⟩
        · unfold fitsT at hfit
          simp only [Bool.and_eq_true] at hfit
          exact hfit.2
        · unfold Sep at hsep; exact hsep.2
termination_by t => sizeOf t

theorem soon_exec {m ss a r} {T : Store ω} (h : execX d m ss a T = some r) : Soon fun m => execX d m ss a T = some r := by
  refine ⟨m, fun m' hm => ?_⟩
  induction hm with
  | refl => exact h
  | step _ ih => exact (cmonoAt _ _).exec ih

theorem leave_leave {a a' : List Auto} : leave a (leave a a') = leave a a' := by
  unfold leave
  rw [List.length_drop]
  have : a'.length - (a'.length - a.length) - a.length = 0 := by omega
  rw [this, List.drop_zero]

theorem leave_self {a : List Auto} : leave a a = a := by simp [leave]

theorem close_close {a : List Auto} {o : COut} : (o.close a).close a = o.close a := by
  cases o <;> simp only [COut.close, leave_leave]

/-- `else if` is an `else` with an `if` in it. -/
theorem blockX_ifs {a : List Auto} {T T1 : Store ω} {e body els ss v b r} (he : Soon fun m => evalX d m e a T = some (some v, T1))
    (hv : v.nonzero = some b) (hb : Soon fun m => blockX d m (if b then body else els) ss a T1 = some r) :
    Soon fun m => blockX d m (.ifs e body els .nil) ss a T = some r := by
  obtain ⟨m0, h0⟩ := hb
  have h0' := h0 (m0 + 1) (by omega)
  simp only [blockX] at h0'
  split at h0'
  · rename_i o T2 ho
    have hx : Soon fun m => execX d m (if b then body else els) a T1 = some (o, T2) :=
      soon_exec ho
    have hB : Soon fun m => blockX d m (if b then body else els) .nil a T1 = some (o.close a, T2) := by
      refine (hx.and (.of (P := fun m => ∀ a', execX d m .nil a' T2 = some (.normal a', T2)) fun m a' => by simp only [execX])).step fun m hm => ?_
      simp only [blockX, hm.1]
      cases o with
      | normal a' => simp only [COut.close, hm.2]
      | _ => simp only [COut.close]
    have hI : Soon fun m => execX d m (.ifs e body els .nil) a T = some (o.close a, T2) :=
      he.step₂ hB fun m h1 h2 => by simp only [execX, h1, hv, h2]
    cases hcl : o.close a with
    | normal a1 =>
      rw [hcl] at h0' hI
      have hN : Soon fun m => execX d m ss a1 T2 = some r := soon_exec h0'
      refine hI.step₂ hN fun m h1 h2 => ?_
      have : (COut.normal a1).close a = .normal a1 := by rw [← hcl, close_close]
      simp only [blockX, h1, this, h2]
    | _ =>
      rw [hcl] at h0' hI
      cases h0'
      refine hI.step fun m h1 => ?_
      have hcc := close_close (a := a) (o := o)
      rw [hcl] at hcc
      simp only [blockX, h1, hcc]
  · cases h0'

theorem sim_else (_hl : Linked c d fmtA F) {n : Nat} (ihe : ExprSim c d fmtA F n) (ih : ExecSim c d fmtA F (n + 1)) (ihE : ElseSim c d fmtA F n)
    (ihA : AndSim c d fmtA F n) : ElseSim c d fmtA F (n + 1) := by
  intro K deep lvl t els ss L S a T o S' top h hs hk hg hr htop
  have hs' := hs
  obtain ⟨⟨its, hf⟩, hfit, hsep, ⟨loop, before, hw⟩, htx, hlvl⟩ := hs
  cases hf with
  | none hf =>
    rw [chain_same hf hw] at h
    refine (ih h ⟨⟨its, hf⟩, hfit, hsep, ⟨loop, before, hw⟩, htx, hlvl⟩ hk hg hr htop).pre
      (.of (P := fun m => execX d m .nil a T = some (.normal a, T)) fun m => by simp only [execX]) (fun m r h1 h2 => ?_) .refl rfl fun _ => ⟨rfl, .refl⟩
    simp only [blockX, h1, COut.close, leave_self, h2]
  | @comment _ ann tok child next _ _ _ hn =>
    simp only [execT] at h
    cases hw with
    | node w wc wn =>
      unfold fitsT at hfit
      unfold Sep at hsep
      exact ihE h ⟨⟨its, hn⟩, by simpa using hfit, hsep.2, ⟨_, _, wn⟩, (texts_node htx).2.2, hlvl⟩ hk hg hr htop
  | @els _ ann tok child next body _ bi ni hc hn =>
    simp only [execT, if_true] at h
    cases hw with
    | node w wc wn =>
      unfold fitsT at hfit
      rw [Bool.and_eq_true] at hfit
      unfold Sep at hsep
      exact ihA (lvl := lvl) h ⟨⟨bi, hc⟩, hfit.1, hsep.1, ⟨_, _, wc⟩, (texts_node htx).2.1, by omega, by simp; omega⟩
        ⟨⟨ni, hn⟩, hfit.2, hsep.2, ⟨_, _, wn⟩, (texts_node htx).2.2, hlvl⟩ hk hg hr htop
  | @elif _ a' e ce tok child next body els' _ bi ni hrd hc hn =>
    cases hw with
    | node w wc wn =>
      cases w with
      | elifs w1 w2 w3 w4 =>
        unfold fitsT at hfit
        simp only [Bool.and_eq_true] at hfit
        unfold Sep at hsep
        have hch : StOk c d fmtA F K.inner true (lvl + 1) child body :=
          ⟨⟨bi, hc⟩, hfit.1.2, hsep.1, ⟨_, _, wc⟩, (texts_node htx).2.1, by omega, by simp; omega⟩
        have hel : ElOk c d fmtA F K deep lvl next els' ss := ⟨⟨ni, hn⟩, hfit.2, hsep.2, ⟨_, _, wn⟩, (texts_node htx).2.2, hlvl⟩
        have hte := (texts_node htx).1 e rfl
        simp only [execT, if_true] at h
        split at h
        · rename_i S1 h1
          obtain ⟨ox, T1, e1, o1, _, g1, fr1⟩ := ihe h1 hrd w1 hfit.1.1 hte hk hg hr
          obtain ⟨cx, rfl, s1⟩ := o1.some (by intro h; cases h)
          refine (ihA h hch hel.after hk g1 (hr.frame hk fr1) htop).soon (fun r hr => ?_) .refl rfl fun _ => ⟨rfl, fr1.mono (by omega)⟩
          exact blockX_ifs e1 (nonzero_bool s1) hr
        · rename_i S1 h1
          obtain ⟨ox, T1, e1, o1, _, g1, fr1⟩ := ihe h1 hrd w1 hfit.1.1 hte hk hg hr
          obtain ⟨cx, rfl, s1⟩ := o1.some (by intro h; cases h)
          refine (ihE h hel hk g1 (hr.frame hk fr1) htop).soon (fun r hr => ?_) .refl rfl fun _ => ⟨rfl, fr1.mono (by omega)⟩
          exact blockX_ifs e1 (nonzero_bool s1) hr
        · cases h

theorem KOk.nextFunc {K : CScope} (hk : KOk c K) (hs : K.self = none) : KOk c { K with count := K.count + 1 } := by
  refine ⟨fun j h => ?_, hk.autos, hk.autosNot, hk.nodup, hk.tops, hk.top, hk.ownTop, hk.ownAuto, hk.ownObj, ?_, ?_⟩
  · have h : K.self = some j := h
    rw [hs] at h
    cases h
  · intro i hi
    have hi : i ∈ K.own := hi
    rw [hk.top hs] at hi
    cases hi
  · intro i hi
    have hi : i ∈ K.own := hi
    rw [hk.top hs] at hi
    cases hi

theorem not_unit {ty v} (h : Typed ty v) (ht : ty ≠ .prim .void) : v ≠ .unit := by
  rintro rfl
  unfold Typed at h
  split at h <;> simp_all

theorem sim_exec (hl : Linked c d fmtA F) {n : Nat} (ihe : ExprSim c d fmtA F n) (ih : ExecSim c d fmtA F n) (ihE : ElseSim c d fmtA F n)
    (ihA : AndSim c d fmtA F n) (ihL : LoopSim c d fmtA F n) : ExecSim c d fmtA F (n + 1) := by
  intro K deep lvl t ss L S a T o S' top h hs hk hg hr htop
  obtain ⟨⟨its, hf⟩, hfit, hsep, ⟨loop, before, hw⟩, htx, hlvl⟩ := hs
  cases hf with
  | nil =>
    simp only [execT] at h
    cases h
    exact ⟨.normal a, T, .of fun m => by simp only [execX], ⟨K, .refl, hr⟩, hg, fun _ => .refl⟩
  | @silent _ ann stmt tok child next _ _ hst hn =>
    cases hw with
    | node w wc wn =>
      have hfit' : fitsT F c.syms (decls c.prog) K deep next = true := by
        rcases hst with rfl | rfl | rfl <;> (unfold fitsT at hfit; simpa using hfit)
      have hsep' : Sep c K deep next := by
        rcases hst with rfl | rfl | rfl <;> (unfold Sep at hsep; exact hsep.2)
      have hst' : StOk c d fmtA F K deep lvl next ss := ⟨⟨its, hn⟩, hfit', hsep', ⟨_, _, wn⟩, (texts_node htx).2.2, hlvl⟩
      rcases hst with rfl | rfl | rfl
      · simp only [execT] at h
        exact ih h hst' hk hg hr htop
      · simp only [execT] at h
        exact ih h hst' hk hg hr htop
      · simp only [execT] at h
        cases h
  | @alias _ nm k i x e tok child next _ _ hn =>
    cases hw with
    | node w wc wn =>
      unfold fitsT at hfit
      unfold Sep at hsep
      simp only [execT] at h
      exact ih h ⟨⟨its, hn⟩, by simpa using hfit, hsep.2, ⟨_, _, wn⟩, (texts_node htx).2.2, hlvl⟩ hk hg hr htop
  | @known id e stmt tok child next sym v c' _ items hs hkind hce hrd hn =>
    cases hw with
    | node w wc wn =>
      cases w with
      | @varDef nm rest k i x e' _ sym' v' _ _ w1 w2 w3 w4 w5 w6 w7 w8 w9 w10 =>
        rw [hs] at w1
        cases w1
        rw [hkind] at w2
        cases w2
        have hvar := varOf_eq hs hkind
        have hdeep : deep = false := by cases deep with | false => rfl | true => exact absurd rfl (hlvl.2.1 rfl)
        subst hdeep
        unfold fitsT at hfit
        simp only [Bool.false_eq_true, if_false, Bool.and_eq_true, decide_eq_true_eq, Bool.not_eq_true'] at hfit
        obtain ⟨⟨hfe, hvoid⟩, ⟨hfo, hhid⟩, hfn⟩ := hfit
        unfold fitsObj at hfo
        rw [hce] at hfo
        simp only [Bool.not_true, Bool.false_or, Bool.and_eq_true, Bool.or_eq_true] at hfo
        obtain ⟨⟨⟨hlit, _⟩, _⟩, hown⟩ := hfo
        have hlit : literalOnly e = true := hlit.1.1.1
        unfold Sep at hsep
        simp only [Bool.false_eq_true, if_false] at hsep
        obtain ⟨hna, hno, hsep⟩ := hsep
        simp only [execT] at h
        split at h
        · rename_i u S1 he
          obtain ⟨rfl, hval⟩ := lit_eval hl.arith (ρ := fun _ => none) hlit he
          have hty : Typed v.type u := by
            rw [w7]
            obtain ⟨_, _, _, _, h1, _⟩ := ihe he hrd w9 hfe ((texts_node htx).1 e rfl) hk hg hr
            exact h1
          have hknown : ∀ (hm : (id, e) ∈ chainDefs c.prog ∨ ∃ j, (id, e) ∈ chainDefs (bodyOf c j)), ∃ cu, cval u = some cu ∧
              initial d (nameOf c.syms id) = some cu := by
            intro hm
            obtain ⟨u', cu, h1, _, h3, h4⟩ := hl.known id e hm hce
            rw [hval] at h1
            cases h1
            exact ⟨cu, h3, h4⟩
          cases hself : K.self with
          | none =>
            rw [hself] at hsep htop
            simp only [Option.isSome_none, Bool.false_eq_true, if_false] at hsep
            subst htop
            simp only [Option.isNone_none, if_true] at h
            obtain ⟨hmem, hnt, hsep⟩ := hsep
            have hid : id ∈ topIds c := List.mem_map.2 ⟨_, hmem, rfl⟩
            obtain ⟨cu, hc, hi⟩ := hknown (.inl hmem)
            have hundef := hr.undef hself id hid hnt
            have hobj : T.objs (nameOf c.syms id) = some cu := by
              rw [hg.inits id v (.inl hid) hvar (by rw [w8, hce]) fun _ => hundef, hi]
            have := ih h ⟨⟨items, hn⟩, hfn, hsep, ⟨_, _, wn⟩, (texts_node htx).2.2, hlvl⟩ (hk.addTop hself hid)
              (relG_top hl hg hid hvar hty hc (T' := T) rfl hobj fun _ _ => rfl) (rel_addTop hk hr hself hna)
              (by rw [CScope.addObj_same.2.2, hself]; rfl)
            exact this.soon (fun r hr => hr) CScope.addObj_ext CScope.addObj_same.1 fun h => by rw [hself] at h; cases h
          | some j =>
            have hss : K.self.isSome = true := by rw [hself]; rfl
            rw [if_pos hss] at hsep
            have htop : top = false := by rw [htop, hself]; rfl
            subst htop
            simp only [Bool.false_eq_true, if_false] at h
            obtain ⟨hnt, hmem, hsp, _, hsep⟩ := hsep
            have hio : IsObj c id := .inr (hmem.imp fun j hj => List.mem_map.2 ⟨_, hj, rfl⟩)
            obtain ⟨cu, hc, hi⟩ := hknown (.inr hmem)
            have hobj : T.objs (nameOf c.syms id) = some cu := by
              rw [hg.inits id v hio hvar (by rw [w8, hce]) fun h => absurd h hnt, hi]
            have hkc : isKnownConst c.syms id = true := by
              rcases hown with h | h
              · rw [hself] at h; cases h
              · exact h
            have := ih h ⟨⟨items, hn⟩, hfn, hsep, ⟨_, _, wn⟩, (texts_node htx).2.2, hlvl⟩ (hk.addOwn hss hnt hna hio hsp (.inl hkc)) hg
              (rel_addOwn hl hk hr hss hno hna hio hvar hty hc hobj fun _ _ => rfl) (by rw [CScope.addObj_same.2.2, hself]; rfl)
            exact this.soon (fun r hr => hr) CScope.addObj_ext CScope.addObj_same.1 fun _ => ⟨CScope.addObj_same.2.1, .refl⟩
        · cases h
  | @unknown id e stmt tok child next sym v c' _ items hs hkind hce hrd hn =>
    cases hw with
    | node w wc wn =>
      cases w with
      | @varDef nm rest k i x e' _ sym' v' _ _ w1 w2 w3 w4 w5 w6 w7 w8 w9 w10 =>
        rw [hs] at w1
        cases w1
        rw [hkind] at w2
        cases w2
        have hvar := varOf_eq hs hkind
        have hdeep : deep = false := by cases deep with | false => rfl | true => exact absurd rfl (hlvl.2.1 rfl)
        subst hdeep
        unfold fitsT at hfit
        simp only [Bool.false_eq_true, if_false, Bool.and_eq_true, decide_eq_true_eq, Bool.not_eq_true'] at hfit
        obtain ⟨⟨hfe, hvoid⟩, ⟨hfo, hhid⟩, hfn⟩ := hfit
        unfold Sep at hsep
        simp only [Bool.false_eq_true, if_false] at hsep
        obtain ⟨hna, hno, hsep⟩ := hsep
        simp only [execT] at h
        split at h
        · rename_i u S1 he
          obtain ⟨ox, T1, e1, o1, hty, g1, fr1⟩ := ihe he hrd w9 hfe ((texts_node htx).1 e rfl) hk hg hr
          obtain ⟨cx, rfl, s1⟩ := o1.some (not_unit hty hvoid)
          rw [← w7] at hty
          obtain ⟨cu, hc, hconv⟩ := convert_stands s1.1 hty
          have hr1 := hr.frame hk fr1
          have hna' : getAuto a sym.name = none := (getAuto_rel hr1.autos).2 (by rw [← nameOf_eq hs]; exact hhid)
          have hfalse : v.constExpr = some false := by rw [w8, hce]
          have hA : IsObj c id → assignTo d a T1 sym.name cx = some (a, putObj T1 (nameOf c.syms id) cu) := by
            intro hio
            obtain ⟨w', h1, ⟨init, h2⟩⟩ := hl.obj id hio
            rw [hvar] at h1
            cases h1
            unfold assignTo
            rw [hna', ← nameOf_eq hs, h2]
            have : (v.isConst && v.constExpr == some true) = false := by rw [hfalse]; simp
            simp only [this, Bool.false_eq_true, if_false, hconv, putObj]
          cases hself : K.self with
          | none =>
            rw [hself] at hsep htop
            simp only [Option.isSome_none, Bool.false_eq_true, if_false] at hsep
            subst htop
            simp only [Option.isNone_none, if_true] at h
            obtain ⟨hmem, hnt, hsep⟩ := hsep
            have hid : id ∈ topIds c := List.mem_map.2 ⟨_, hmem, rfl⟩
            have := ih h ⟨⟨items, hn⟩, hfn, hsep, ⟨_, _, wn⟩, (texts_node htx).2.2, hlvl⟩ (hk.addTop hself hid)
              (relG_top hl g1 hid hvar hty hc (T' := putObj T1 (nameOf c.syms id) cu) rfl putObj_same fun _ => putObj_other) (rel_addTop hk hr1 hself hna)
              (by rw [CScope.addObj_same.2.2, hself]; rfl)
            exact this.pre e1 (fun m r h1 h2 => by simp only [execX, h1, hA (.inl hid), h2]) CScope.addObj_ext CScope.addObj_same.1
              fun h => by rw [hself] at h; cases h
          | some j =>
            have hss : K.self.isSome = true := by rw [hself]; rfl
            rw [if_pos hss] at hsep
            have htop : top = false := by rw [htop, hself]; rfl
            subst htop
            simp only [Bool.false_eq_true, if_false] at h
            obtain ⟨hnt, hmem, hsp, hchg, hsep⟩ := hsep
            have hio : IsObj c id := .inr (hmem.imp fun j hj => List.mem_map.2 ⟨_, hj, rfl⟩)
            have := ih h ⟨⟨items, hn⟩, hfn, hsep, ⟨_, _, wn⟩, (texts_node htx).2.2, hlvl⟩ (hk.addOwn hss hnt hna hio hsp (.inr (hchg hce)))
              (relG_own hl g1 hio hnt (fun w' hw' => by rw [hvar] at hw'; cases hw'; rw [hfalse]; intro h; cases h)
                (T' := putObj T1 (nameOf c.syms id) cu) rfl fun _ => putObj_other)
              (rel_addOwn hl hk hr1 hss hno hna hio hvar hty hc putObj_same fun _ => putObj_other) (by rw [CScope.addObj_same.2.2, hself]; rfl)
            exact this.pre e1 (fun m r h1 h2 => by simp only [execX, h1, hA hio, h2]) CScope.addObj_ext CScope.addObj_same.1
              fun _ => ⟨CScope.addObj_same.2.1, (fr1.mono (by omega)).trans ⟨fun _ _ => rfl, fun _ h => h, fun y hy =>
                putObj_other fun he => hy id (hchg hce) he.symm⟩⟩
        · cases h
  | @loc _ id e stmt tok child next sym v c' ss' items hd hs hkind hrd hn =>
    cases hw with
    | node w wc wn =>
      cases w with
      | @varDef nm rest k i x e' _ sym' v' _ _ w1 w2 w3 w4 w5 w6 w7 w8 w9 w10 =>
        rw [hs] at w1
        cases w1
        rw [hkind] at w2
        cases w2
        have hvar := varOf_eq hs hkind
        have hdeep : deep = true := hlvl.2.2 hd
        subst hdeep
        unfold fitsT at hfit
        simp only [if_true, Bool.and_eq_true, decide_eq_true_eq, List.all_eq_true] at hfit
        obtain ⟨⟨hfe, hvoid⟩, ⟨hfa, hnames⟩, hfn⟩ := hfit
        unfold fitsAuto at hfa
        simp only [Bool.and_eq_true, decide_eq_true_eq] at hfa
        unfold Sep at hsep
        simp only [if_true] at hsep
        obtain ⟨hna, hno, hnt, hsep⟩ := hsep
        simp only [execT] at h
        split at h
        · rename_i u S1 he
          obtain ⟨ox, T1, e1, o1, hty, g1, fr1⟩ := ihe he hrd w9 hfe ((texts_node htx).1 e rfl) hk hg hr
          obtain ⟨cx, rfl, s1⟩ := o1.some (not_unit hty hvoid)
          rw [← w7] at hty
          obtain ⟨cu, hc, hconv⟩ := convert_stands s1.1 hty
          have hr1 := hr.frame hk fr1
          have hnn : sym.name ∉ c'.names := by
            intro hm
            rcases names_of hrd _ hm with ⟨i, h1, h2⟩ | h1
            · exact hnames i h1 (by rw [h2, nameOf_eq hs])
            · exact hfa.1 (by rw [nameOf_eq hs]; exact h1)
          have hkp := hk.push hnt hna hno hfa.1
          obtain ⟨rfn, rtop⟩ := rel_push (k := v.isConst) hr1 hna hno hnt hvar hty hc fun h => h
          rw [nameOf_eq hs] at rfn rtop
          have hst : StOk c d fmtA F (K.push id) true lvl next ss' := ⟨⟨its, hn⟩, hfn, hsep, ⟨_, _, wn⟩, (texts_node htx).2.2, hlvl⟩
          have hrun : ∀ m r, evalX d m c' a T = some (some cx, T1) →
              execX d m ss' (⟨sym.name, v.isConst, cType v.type, cu⟩ :: a) T1 = some r →
              execX d (m + 1) (.simple (.decl v.isConst (cType v.type) sym.name c') ss') a T = some r := fun m r h1 h2 => by
            simp only [execX, if_neg hnn, h1, hconv, h2]
          cases hself : K.self with
          | none =>
            rw [hself] at htop
            subst htop
            simp only [Option.isNone_none, if_true] at h
            have := ih h hst hkp (relG_deep g1 hnt hvar hty) (rtop hself) (by show true = K.self.isNone; rw [hself]; rfl)
            exact this.pre e1 hrun CScope.push_ext rfl fun h => by rw [hself] at h; cases h
          | some j =>
            have hss : K.self.isSome = true := by rw [hself]; rfl
            have htop : top = false := by rw [htop, hself]; rfl
            subst htop
            simp only [Bool.false_eq_true, if_false] at h
            have := ih h hst hkp g1 (rfn hss) (by show false = K.self.isNone; rw [hself]; rfl)
            exact this.pre e1 hrun CScope.push_ext rfl fun _ => ⟨rfl, fr1.mono (by omega)⟩
        · cases h
  | @assign _ id e stmt tok child next sym c' _ items hs hrd hn =>
    cases hw with
    | node w wc wn =>
      cases w with
      | @assign e' _ sym' v _ _ w1 w2 w3 w4 w5 w6 w7 =>
        rw [hs] at w1
        cases w1
        have hvar := varOf_eq hs w2
        unfold fitsT at hfit
        simp only [Bool.and_eq_true, decide_eq_true_eq] at hfit
        obtain ⟨⟨⟨hfe, hvoid⟩, hres⟩, hfn⟩ := hfit
        unfold Sep at hsep
        have hst : StOk c d fmtA F K deep lvl next _ := ⟨⟨its, hn⟩, hfn, hsep.2, ⟨_, _, wn⟩, (texts_node htx).2.2, hlvl⟩
        simp only [execT] at h
        split at h
        · rename_i u S1 he
          obtain ⟨ox, T1, e1, o1, hty, g1, fr1⟩ := ihe he hrd w7 hfe ((texts_node htx).1 e rfl) hk hg hr
          obtain ⟨cx, rfl, s1⟩ := o1.some (not_unit hty hvoid)
          rw [← w6] at hty
          have hr1 := hr.frame hk fr1
          obtain ⟨L2, S2, hsrc, hnext⟩ : ∃ L2 S2, (((L id).isSome = true ∧ L2 = L.set id u ∧ S2 = S1) ∨
              (L id = none ∧ (S1.vars id).isSome = true ∧ L2 = L ∧ S2 = { S1 with vars := S1.vars.set id u })) ∧
              execT c n top false next L2 S2 = some (o, S') := by
            split at h
            · rename_i h1
              exact ⟨_, _, .inl ⟨h1, rfl, rfl⟩, h⟩
            · rename_i h1
              split at h
              · rename_i h2
                exact ⟨_, _, .inr ⟨by simpa using h1, h2, rfl, rfl⟩, h⟩
              · cases h
          obtain ⟨a1, T2, hA, g2, hr2, fr2⟩ := assign_rel hl hk g1 hr1 hres hvar w4 hty s1.1 hsrc
          rw [nameOf_eq hs] at hA
          refine (ih hnext hst hk g2 hr2 htop).pre e1 (fun m r h1 h2 => by simp only [execX, h1, hA, h2]) .refl rfl fun hs =>
            ⟨rfl, (fr1.mono (by omega)).trans (fr2 hs)⟩
        · cases h
  | @ret _ e tok child next _ _ hn =>
    simp only [execT] at h
    cases h
    exact ⟨.returned none, T, .of fun m => by simp only [execX], trivial, hg, fun _ => .refl⟩
  | @retValue _ a' e c' tok child next _ _ hrd hn =>
    cases hw with
    | node w wc wn =>
      cases w with
      | retValue w1 w2 w3 =>
        unfold fitsT at hfit
        simp only [Bool.and_eq_true, decide_eq_true_eq] at hfit
        obtain ⟨⟨⟨hfe, hret⟩, hvoid⟩, hfn⟩ := hfit
        simp only [execT] at h
        split at h
        · rename_i u S1 he
          cases h
          obtain ⟨ox, T1, e1, o1, hty, g1, fr1⟩ := ihe he hrd w2 hfe ((texts_node htx).1 e rfl) hk hg hr
          rw [hret] at hty
          obtain ⟨cx, rfl, s1⟩ := o1.some (not_unit hty hvoid)
          exact ⟨.returned (some cx), T1, e1.step fun m h1 => by simp only [execX, h1], ⟨s1.1, hty⟩, g1, fun _ => fr1.mono (by omega)⟩
        · cases h
  | @expr _ a' e c' tok child next _ _ hrd hn =>
    cases hw with
    | node w wc wn =>
      cases w with
      | call w1 w2 =>
        unfold fitsT at hfit
        simp only [Bool.and_eq_true] at hfit
        unfold Sep at hsep
        simp only [execT] at h
        split at h
        · split at h
          · rename_i u S1 he
            obtain ⟨ox, T1, e1, o1, hty, g1, fr1⟩ := ihe he hrd w1 hfit.1 ((texts_node htx).1 _ rfl) hk hg hr
            exact (ih h ⟨⟨its, hn⟩, hfit.2, hsep.2, ⟨_, _, wn⟩, (texts_node htx).2.2, hlvl⟩ hk g1 (hr.frame hk fr1) htop).pre e1
              (fun m r h1 h2 => by simp only [execX, h1, h2]) .refl rfl fun _ => ⟨rfl, fr1.mono (by omega)⟩
          · cases h
        · cases h
  | @noop _ ann tok child next _ _ hn =>
    cases hw with
    | node w wc wn =>
      have hfit' : fitsT F c.syms (decls c.prog) K deep next = true := by unfold fitsT at hfit; simpa using hfit
      have hsep' : Sep c K deep next := by unfold Sep at hsep; exact hsep.2
      simp only [execT] at h
      exact (ih h ⟨⟨its, hn⟩, hfit', hsep', ⟨_, _, wn⟩, (texts_node htx).2.2, hlvl⟩ hk hg hr htop).pre (P := fun _ => True) ⟨0, fun _ _ => trivial⟩
        (fun m r _ h2 => by simp only [execX, h2]) .refl rfl fun _ => ⟨rfl, .refl⟩
  | breaks =>
    simp only [execT] at h
    cases h
    exact ⟨.broke a, T, .of fun m => by simp only [execX], ⟨K, .refl, hr⟩, hg, fun _ => .refl⟩
  | continues =>
    simp only [execT] at h
    cases h
    exact ⟨.continued a, T, .of fun m => by simp only [execX], ⟨K, .refl, hr⟩, hg, fun _ => .refl⟩
  | @ifs _ a' e c' tok child next body els _ bi ni hrd hc hn =>
    cases hw with
    | node w wc wn =>
      cases w with
      | ifs w1 w2 w3 =>
        unfold fitsT at hfit
        simp only [Bool.and_eq_true] at hfit
        unfold Sep at hsep
        have hch : StOk c d fmtA F K.inner true (lvl + 1) child body :=
          ⟨⟨bi, hc⟩, hfit.1.2, hsep.1, ⟨_, _, wc⟩, (texts_node htx).2.1, by omega, by simp; omega⟩
        have hel : ElOk c d fmtA F K deep lvl next els _ := ⟨⟨ni, hn⟩, hfit.2, hsep.2, ⟨_, _, wn⟩, (texts_node htx).2.2, hlvl⟩
        have hte := (texts_node htx).1 e rfl
        simp only [execT] at h
        split at h
        · rename_i S1 h1
          obtain ⟨ox, T1, e1, o1, _, g1, fr1⟩ := ihe h1 hrd w1 hfit.1.1 hte hk hg hr
          obtain ⟨cx, rfl, s1⟩ := o1.some (by intro h; cases h)
          have nz := nonzero_bool s1
          exact (ihA h hch hel.after hk g1 (hr.frame hk fr1) htop).pre e1 (fun m r h1 h2 => by simp only [execX, h1, nz, if_true, h2]) .refl rfl
            fun _ => ⟨rfl, fr1.mono (by omega)⟩
        · rename_i S1 h1
          obtain ⟨ox, T1, e1, o1, _, g1, fr1⟩ := ihe h1 hrd w1 hfit.1.1 hte hk hg hr
          obtain ⟨cx, rfl, s1⟩ := o1.some (by intro h; cases h)
          have nz := nonzero_bool s1
          exact (ihE h hel hk g1 (hr.frame hk fr1) htop).pre e1
            (fun m r h1 h2 => by simp only [execX, h1, nz, Bool.false_eq_true, if_false, h2]) .refl rfl
            fun _ => ⟨rfl, fr1.mono (by omega)⟩
        · cases h
  | @whiles _ a' e c' tok child next body ss' bi ni hrd hc hn =>
    cases hw with
    | node w wc wn =>
      cases w with
      | whiles w1 w2 w3 =>
        unfold fitsT at hfit
        simp only [Bool.and_eq_true] at hfit
        unfold Sep at hsep
        have hch : StOk c d fmtA F K.inner true (lvl + 1) child body :=
          ⟨⟨bi, hc⟩, hfit.1.2, hsep.1, ⟨_, _, wc⟩, (texts_node htx).2.1, by omega, by simp; omega⟩
        have hnx : StOk c d fmtA F K deep lvl next ss' := ⟨⟨ni, hn⟩, hfit.2, hsep.2, ⟨_, _, wn⟩, (texts_node htx).2.2, hlvl⟩
        have hte := (texts_node htx).1 e rfl
        simp only [execT] at h
        cases hlw : loopW c n top e child L S with
        | none => rw [hlw] at h; cases h
        | some r =>
          obtain ⟨o1, S1⟩ := r
          obtain ⟨co, T1, e1, hcl, g1, fr1⟩ := ihL hlw hrd w1 hfit.1.1 hte hch hk hg hr htop
          rw [hlw] at h
          cases o1 with
          | normal L1 =>
            cases co with
            | normal a1 =>
              exact (ih h hnx hk g1 hcl htop).pre e1 (fun m r h1 h2 => by simp only [execX, h1, h2]) .refl rfl fun hs => ⟨rfl, fr1 hs⟩
            | _ => exact hcl.elim
          | broke L1 =>
            cases h
            cases co with
            | broke a1 => exact ⟨_, T1, e1.step fun m h1 => by simp only [execX, h1], hcl.out, g1, fr1⟩
            | _ => exact hcl.elim
          | continued L1 =>
            cases h
            cases co with
            | continued a1 => exact ⟨_, T1, e1.step fun m h1 => by simp only [execX, h1], hcl.out, g1, fr1⟩
            | _ => exact hcl.elim
          | returned v =>
            cases h
            cases co with
            | returned cv => exact ⟨_, T1, e1.step fun m h1 => by simp only [execX, h1], hcl.out, g1, fr1⟩
            | _ => cases v <;> exact hcl.elim
  | unreachable =>
    simp only [execT] at h
    cases h
  | ns =>
    cases hw with
    | node w wc wn =>
      cases w with
      | ns => unfold fitsT at hfit; cases hfit
  | @external _ id params sym f ps stmt tok child next _ items hs hkind hext hps hn =>
    cases hw with
    | node w wc wn =>
      cases w with
      | func =>
        unfold fitsT at hfit
        simp only [Bool.and_eq_true] at hfit
        unfold Sep at hsep
        have hself : K.self = none := by simpa using hfit.1.1.1.1.1
        simp only [execT] at h
        have := ih h ⟨⟨items, hn⟩, hfit.2, hsep, ⟨_, _, wn⟩, (texts_node htx).2.2, hlvl⟩ (hk.nextFunc hself) hg
          ⟨hr.autos, hr.own, hr.dom, hr.undef, hr.typed⟩ htop
        exact this.soon (fun r hr => hr) ⟨⟨[], rfl⟩, rfl, fun _ => rfl, fun _ => rfl⟩ rfl fun h => by rw [hself] at h; cases h
  | @func _ id params sym f ps stmt tok child next body _ bi ni hs hkind hext hps hc hn =>
    cases hw with
    | node w wc wn =>
      cases w with
      | func =>
        unfold fitsT at hfit
        simp only [Bool.and_eq_true] at hfit
        unfold Sep at hsep
        have hself : K.self = none := by simpa using hfit.1.1.1.1.1
        simp only [execT] at h
        have := ih h ⟨⟨ni, hn⟩, hfit.2, hsep, ⟨_, _, wn⟩, (texts_node htx).2.2, hlvl⟩ (hk.nextFunc hself) hg
          ⟨hr.autos, hr.own, hr.dom, hr.undef, hr.typed⟩ htop
        exact this.soon (fun r hr => hr) ⟨⟨[], rfl⟩, rfl, fun _ => rfl, fun _ => rfl⟩ rfl fun h => by rw [hself] at h; cases h

end

end Skull.CSim
