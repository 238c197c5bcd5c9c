import Verif.Proofs.CSimLink
/-
The C form of a program does what the program does: `main`, and that the file is a C program.
-/
namespace Skull.CSim
open Spec Spec.C

section
variable {ω : Type} {c : RunCtx ω} {d : CRunCtx ω} {fmtA : Nat → List Char} {F : Floats}

/- ### One statement more -/

theorem soon_of {α : Type} {f : Nat → Option α} (h1 : ∀ n r, f n = some r → f (n + 1) = some r) {n r} (h : f n = some r) : Soon fun m => f m = some r := by
  refine ⟨n, fun m hm => ?_⟩
  induction hm with
  | refl => exact h
  | step _ ih => exact h1 _ _ ih

theorem soon_evalX {n e a S r} (h : evalX d n e a S = some r) : Soon fun m => evalX d m e a S = some r := soon_of (fun n _ => (cmonoAt d n).expr) h
theorem soon_execX {n ss a S r} (h : execX d n ss a S = some r) : Soon fun m => execX d m ss a S = some r := soon_of (fun n _ => (cmonoAt d n).exec) h
theorem soon_loopX {n e ss a S r} (h : loopX d n e ss a S = some r) : Soon fun m => loopX d m e ss a S = some r := soon_of (fun n _ => (cmonoAt d n).loop) h

/-- What other statements do next. -/
def Next (d : CRunCtx ω) (r : Stms) (o : COut) (S : Store ω) (res : COut × Store ω) : Prop :=
  match o with
  | .normal a => Soon fun m => execX d m r a S = some res
  | o => res = (o, S)

theorem exec_append {r : Stms} {res : COut × Store ω} : ∀ n,
    (∀ {ss a S o S'}, execX d n ss a S = some (o, S') → Next d r o S' res → Soon fun m => execX d m (ss.append r) a S = some res) ∧
    (∀ {body ss a S o S'}, blockX d n body ss a S = some (o, S') → Next d r o S' res → Soon fun m => blockX d m body (ss.append r) a S = some res) := by
  intro n
  induction n with
  | zero => exact ⟨fun h => (by simp [execX] at h), fun h => (by simp [blockX] at h)⟩
  | succ n ih =>
    refine ⟨?_, ?_⟩
    · intro ss a S o S' h hn
      cases ss with
      | nil =>
        rw [execX] at h
        cases h
        exact hn
      | simple s next =>
        unfold Stms.append
        cases s with
        | decl k ty x e =>
          rw [execX] at h
          split at h
          · cases h
          · rename_i h0
            split at h
            · rename_i v S1 h1
              split at h
              · rename_i u h2
                refine (soon_evalX h1).step₂ (ih.1 h hn) fun m g1 g2 => ?_
                rw [execX, if_neg h0, g1]
                simp only [h2]
                exact g2
              · cases h
            · cases h
        | assign x e =>
          rw [execX] at h
          split at h
          · rename_i v S1 h1
            split at h
            · rename_i a' S2 h2
              refine (soon_evalX h1).step₂ (ih.1 h hn) fun m g1 g2 => ?_
              rw [execX, g1]
              simp only [h2]
              exact g2
            · cases h
          · cases h
        | expr e =>
          rw [execX] at h
          split at h
          · rename_i v S1 h1
            refine (soon_evalX h1).step₂ (ih.1 h hn) fun m g1 g2 => ?_
            rw [execX, g1]
            exact g2
          · cases h
        | ret e =>
          cases e with
          | none =>
            rw [execX] at h
            cases h
            cases hn
            exact .of fun m => by rw [execX]
          | some e =>
            rw [execX] at h
            split at h
            · rename_i v S1 h1
              cases h
              cases hn
              refine (soon_evalX h1).step fun m g1 => ?_
              rw [execX, g1]
            · cases h
        | skip =>
          rw [execX] at h
          refine (ih.1 h hn).step fun m g => ?_
          rw [execX]
          exact g
        | breaks =>
          rw [execX] at h
          cases h
          cases hn
          exact .of fun m => by rw [execX]
        | continues =>
          rw [execX] at h
          cases h
          cases hn
          exact .of fun m => by rw [execX]
      | ifs e t f next =>
        unfold Stms.append
        rw [execX] at h
        split at h
        · rename_i v S1 h1
          split at h
          · rename_i b h2
            refine (soon_evalX h1).step₂ (ih.2 h hn) fun m g1 g2 => ?_
            rw [execX, g1]
            simp only [h2]
            exact g2
          · cases h
        · cases h
      | whiles e t next =>
        unfold Stms.append
        rw [execX] at h
        split at h
        · rename_i a1 S1 h1
          refine (soon_loopX h1).step₂ (ih.1 h hn) fun m g1 g2 => ?_
          rw [execX, g1]
          exact g2
        · rename_i h1
          refine (soon_loopX h).step fun m g1 => ?_
          rw [execX, g1]
          cases o with
          | normal a' => exact absurd h (h1 a' S')
          | broke a' => cases hn; rfl
          | continued a' => cases hn; rfl
          | returned v => cases hn; rfl
      | block t next =>
        unfold Stms.append
        rw [execX] at h
        refine (ih.2 h hn).step fun m g => ?_
        rw [execX]
        exact g
    · intro body ss a S o S' h hn
      rw [blockX] at h
      split at h
      · rename_i o1 S1 h1
        split at h
        · rename_i a1 h2
          refine (soon_execX h1).step₂ (ih.1 h hn) fun m g1 g2 => ?_
          rw [blockX, g1]
          simp only [h2]
          exact g2
        · rename_i h2
          cases h
          refine (soon_execX h1).step fun m g1 => ?_
          rw [blockX, g1]
          cases ho : o1.close a with
          | normal a' => exact absurd ho (h2 a')
          | broke a' => rw [ho] at hn; simp only [ho]; cases hn; rfl
          | continued a' => rw [ho] at hn; simp only [ho]; cases hn; rfl
          | returned v => rw [ho] at hn; simp only [ho]; cases hn; rfl
      · cases h

/- ### What the back end adds -/

/-- The items that come last. -/
def lastItems (main : List Char) (ss : Stms) : List C.Item :=
  [.proto true (.base "int".toList) "init".toList [] (some main),
   .func true (.base "int".toList) "init".toList [] (ss.append (.simple (.ret (some (.num ['0']))) .nil)),
   .func false (.base "int".toList) "main".toList [] (.simple (.ret (some (.call (.id "init".toList) .nil))) .nil)]

theorem last_defined {main ss} : (lastItems main ss).flatMap defined = ["init".toList, "main".toList] := rfl

theorem last_scoped {main ss vis} (h : ∀ vis', (∀ x ∈ vis, x ∈ vis') → scopedS vis' [] ss = true) : scopedI vis (lastItems main ss) = true := by
  unfold lastItems
  have h1 : ∀ vis', (∀ x ∈ vis, x ∈ vis') → scopedS vis' [] (ss.append (.simple (.ret (some (.num ['0']))) .nil)) = true :=
    fun vis' hs => scoped_append (fun _ _ => rfl) (h vis' hs)
  have h2 := h1 ("init".toList :: "init".toList :: vis) fun x hx => List.mem_cons_of_mem _ (List.mem_cons_of_mem _ hx)
  have h3 : ∀ vis' : List (List Char), scopedS ("main".toList :: "init".toList :: vis') [] (.simple (.ret (some (.call (.id "init".toList) .nil))) .nil) = true := by
    intro vis'
    simp [scopedS, scopedX, Exp.names, Exps.names]
  unfold scopedI
  unfold scopedI
  unfold scopedI
  unfold scopedI
  simp only [List.map_nil, List.nodup_nil, decide_true, List.nil_append, h2, h3, Bool.and_self]

theorem valid_of (hf : d.floats = F) {ss its main} (hg : Good c d fmtA F cstart false c.prog none ss its) (hi : d.items = its ++ lastItems main ss)
    (hnames : ((fileIds c.prog).map (nameOf c.syms) ++ ownNames).Nodup) : valid d = true ∧ (d.items.flatMap defined).Nodup := by
  have hdef : d.items.flatMap defined ++ runTimeNames = (fileIds c.prog).map (nameOf c.syms) ++ ownNames := by
    rw [hi, List.flatMap_append, good_defined hg rfl, last_defined, ownNames, List.append_assoc]
  have hn : (d.items.flatMap defined).Nodup := by rw [← hdef] at hnames; exact (List.nodup_append.1 hnames).1
  have hvis : ∀ vis, Vis c cstart vis := fun vis => ⟨fun id h => (by rcases h with h | h | h <;> cases h), fun j id ps body _ h => by
    rcases h with h | h
    · exact absurd h (Nat.not_lt_zero j)
    · cases h⟩
  refine ⟨?_, hn⟩
  unfold valid
  rw [hdef, decide_eq_true hnames, Bool.true_and, Bool.and_eq_true]
  refine ⟨?_, List.all_eq_true.2 ?_⟩
  · rw [hi]
    refine good_items hg rfl [] _ (fun _ => hvis _) fun vis' _ h2 => last_scoped fun vis'' h3 => ?_
    exact (good_scoped hg vis'' (hvis _) fun x hx => h3 x (h2 x hx)).1
  · intro i hm
    have hm' := hm
    rw [hi, List.mem_append] at hm'
    rcases hm' with hm' | hm'
    · cases i with
      | object st k ty x link init =>
        cases init with
        | none => rfl
        | some cx =>
          obtain ⟨id, e, sym, v, h1, _, h3, rfl, rfl⟩ := good_inits hg _ _ _ _ _ _ hm'
          obtain ⟨u, cu, _, _, h4⟩ := known_initial hf hn h1 h3 hm
          simp only [constInit, h3.constant, h4, Option.isSome_some, Bool.and_self]
      | proto => rfl
      | func => rfl
    · unfold lastItems at hm'
      simp only [List.mem_cons, List.not_mem_nil, or_false] at hm'
      rcases hm' with rfl | rfl | rfl <;> rfl

/-- A value of type `int`. -/
theorem convert_int {i k} (h : isInt32 i = true) : convert (.base "int".toList) (.int k i) = some (.int .int i) := by
  have e1 : ("int".toList = "int64_t".toList) = False := by decide
  have e2 : ("int".toList = "bool".toList) = False := by decide
  have e3 : ("int".toList = "char32_t".toList) = False := by decide
  simp only [convert, e1, e2, e3, if_false, true_and, h, if_true]

theorem run_simulated (ha : c.arith = cArith F) (hf : d.floats = F) (he : d.ext = c.ext) (hx : ExtTyped c.syms c.ext) {ss its main}
    (hcf : CForm c.syms fmtA 1 c.prog ss its) (hi : d.items = its ++ lastItems main ss) (hfit : C.fits F c.syms c.prog = true)
    (hw : WtTree c.syms false [] c.prog) (hdefs : c.prog.defs.Nodup) (htx : ∀ e ∈ c.prog.exprs, FloatTexts fmtA ⟨fun _ => none, F, d.dbl⟩ e)
    {n w i w'} (hr : runProgram c n w = some (i, w')) (h32 : isInt32 i = true) : Soon fun m => runC d m w = some (i, w') := by
  unfold C.fits at hfit
  rw [Bool.and_eq_true, decide_eq_true_eq] at hfit
  obtain ⟨hfit, hnames⟩ := hfit
  have hg : Good c d fmtA F cstart false c.prog none ss its :=
    (good_of c.prog).1 hcf ⟨hfit, ⟨_, _, hw⟩, htx, ⟨Nat.le_refl 1, by simp⟩, fun _ _ => ⟨[], rfl, rfl⟩⟩
  obtain ⟨hv, hn⟩ := valid_of hf hg hi hnames
  obtain ⟨hl, hsep⟩ := linked_of ha hf he hx hg hn (fun i h => by rw [hi]; exact List.mem_append_left _ h) hnames hdefs
  have hk : KOk c cstart := ⟨fun _ h => (by cases h), fun _ h => (by cases h), fun _ h => (by cases h), List.nodup_nil, fun _ h => (by cases h), fun _ => rfl,
    fun _ h => (by cases h), fun _ h => (by cases h), fun _ h => (by cases h), fun _ h => (by cases h), fun _ h => (by cases h)⟩
  have hinit : ∃ o S, execT c n true false c.prog (fun _ => none) ⟨fun _ => none, w⟩ = some (o, S) ∧ S.world = w' ∧
      ((∃ L, o = .normal L ∧ i = 0) ∨ o = .returned (some (.int i))) := by
    unfold runProgram at hr
    split at hr
    · rename_i L S h; cases hr; exact ⟨_, _, h, rfl, .inl ⟨L, rfl, rfl⟩⟩
    · rename_i j S h; cases hr; exact ⟨_, _, h, rfl, .inr rfl⟩
    · cases hr
  obtain ⟨o, S, hex, hw1, ho⟩ := hinit
  have hG : RelG c d ⟨fun _ => none, w⟩ ⟨initial d, w⟩ := ⟨rfl, fun _ _ _ h => (by cases h), fun _ _ _ _ _ _ => rfl, fun _ _ _ h => by cases h⟩
  have hL : RelL c cstart (fun _ => none) ⟨fun _ => none, w⟩ [] ⟨initial d, w⟩ := ⟨.nil, fun _ h => (by cases h),
    fun id => ⟨fun h => (by cases h), fun h => by cases h.1⟩, fun _ _ _ _ => rfl, fun _ _ _ h => by cases h⟩
  obtain ⟨co, T, h1, h2, h3, _⟩ := (simAt hl n).exec hex ⟨⟨its, hcf⟩, hfit, hsep, ⟨_, _, hw⟩, htx, ⟨Nat.le_refl 1, by simp⟩⟩ hk hG hL rfl
  have hbody : ∃ x, (∃ k, x = .int k i) ∧ Soon fun m => execX d m (ss.append (.simple (.ret (some (.num ['0']))) .nil)) [] ⟨initial d, w⟩ = some (.returned (some x), T) := by
    obtain ⟨m, hm⟩ := h1
    have hm := hm m (Nat.le_refl m)
    rcases ho with ⟨L, rfl, rfl⟩ | rfl
    · cases co with
      | normal a =>
        refine ⟨_, ⟨.int, rfl⟩, (exec_append m).1 hm ?_⟩
        refine ⟨2, fun m' h => ?_⟩
        obtain ⟨k, rfl⟩ : ∃ k, m' = k + 1 + 1 := ⟨m' - 2, by omega⟩
        have hz : numVal d.dbl ['0'] = some (.int .int 0) := by rfl
        rw [execX, evalX]
        simp only [hz]
      | broke => exact h2.elim
      | continued => exact h2.elim
      | returned v => cases v <;> exact h2.elim
    · cases co with
      | normal a => exact h2.elim
      | broke => exact h2.elim
      | continued => exact h2.elim
      | returned v =>
        cases v with
        | none => exact h2.elim
        | some x =>
          have h4 := h2.1
          refine ⟨x, ?_, (exec_append m).1 hm rfl⟩
          rcases h4 with rfl | rfl
          · exact ⟨_, rfl⟩
          · exact ⟨_, rfl⟩
  obtain ⟨x, ⟨k, rfl⟩, hbody⟩ := hbody
  have hfi : d.items.findSome? (funcOf "init".toList) = some (.base "int".toList, [], ss.append (.simple (.ret (some (.num ['0']))) .nil)) := by
    rw [find_unique (i := .func true (.base "int".toList) "init".toList [] (ss.append (.simple (.ret (some (.num ['0']))) .nil))) (fun i h => funcOf_defined h) hn
      (by rw [hi]; exact List.mem_append_right _ (List.mem_cons_of_mem _ (List.mem_cons_self ..))) (List.mem_cons_self ..)]
    rfl
  have hfm : d.items.findSome? (funcOf "main".toList) = some (.base "int".toList, [], .simple (.ret (some (.call (.id "init".toList) .nil))) .nil) := by
    rw [find_unique (i := .func false (.base "int".toList) "main".toList [] (.simple (.ret (some (.call (.id "init".toList) .nil))) .nil)) (fun i h => funcOf_defined h) hn
      (by rw [hi]; exact List.mem_append_right _ (List.mem_cons_of_mem _ (List.mem_cons_of_mem _ (List.mem_cons_self ..)))) (List.mem_cons_self ..)]
    rfl
  have hci : Soon fun m => callX d m "init".toList [] ⟨initial d, w⟩ = some (some (.int .int i), T) := by
    refine hbody.step fun m hm => ?_
    rw [callX, hfi]
    simp only [bindArgs, hm, COut.result, convert_int h32, Option.map_some]
  have hni : ("init".toList ∈ runTimeNames) = False := by decide
  have hce : Soon fun m => evalX d m (.call (.id "init".toList) .nil) [] ⟨initial d, w⟩ = some (some (.int .int i), T) := by
    refine (hci.and ⟨1, fun m hm => hm⟩).step fun m hm => ?_
    obtain ⟨k, rfl⟩ : ∃ k, m = k + 1 := ⟨m - 1, by have := hm.2; omega⟩
    rw [evalX, evalXs]
    simp only [getAuto, List.find?_nil, Option.isSome_none, apartAll, hni, if_false, if_true, Bool.false_eq_true]
    exact hm.1
  have hcm : Soon fun m => callX d m "main".toList [] ⟨initial d, w⟩ = some (some (.int .int i), T) := by
    refine Soon.step (P := fun m => execX d m (.simple (.ret (some (.call (.id "init".toList) .nil))) .nil) [] ⟨initial d, w⟩ = some (.returned (some (.int .int i)), T)) ?_ ?_
    · refine hce.step fun m hm => ?_
      rw [execX, hm]
    · intro m hm
      rw [callX, hfm]
      simp only [bindArgs, hm, COut.result, convert_int h32, Option.map_some]
  obtain ⟨m, hm⟩ := hcm
  refine ⟨m, fun m' h' => ?_⟩
  show runC d m' w = some (i, w')
  unfold runC
  rw [hv, if_pos rfl, hm m' h']
  simp only [h3.world, hw1]

end

end Skull.CSim
