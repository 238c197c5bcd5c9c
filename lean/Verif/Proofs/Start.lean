import Verif.Proofs.LSimProg
import Verif.Proofs.LDet
import Verif.Model.Driver
import Verif.Spec.Exit
/-
Running `_start`.
-/
namespace Skull
open Spec

/- ### The names of functions in a module -/

/-- The functions of the module have such names. -/
def NamesOk (N : List Char → Prop) (s : LState) : Prop := ∀ x ∈ s.funcs, N x.name

theorem NamesOk.modify {N s} (h : NamesOk N s) {s' : LState} {i : Nat} {g : LFunc → LFunc} (hg : ∀ x, (g x).name = x.name)
    (he : s'.funcs = s.funcs.modify i g) : NamesOk N s' := by
  intro x hx
  rw [he, List.mem_iff_getElem?] at hx
  obtain ⟨j, hj⟩ := hx
  rw [List.getElem?_modify] at hj
  cases hy : s.funcs[j]? with
  | none => rw [hy] at hj; cases hj
  | some y =>
    rw [hy] at hj
    have hm := h y (List.mem_of_getElem? hy)
    by_cases hi : i = j
    · simp only [hi, if_true, Option.map_eq_map, Option.map_some, Option.some.injEq] at hj
      rw [← hj, hg]; exact hm
    · simp only [hi, if_false, Option.map_eq_map, Option.map_some, id_eq, Option.some.injEq] at hj
      rw [← hj]; exact hm

theorem NamesOk.gen {N s} (h : NamesOk N s) (is n) : NamesOk N (s.gen is n) :=
  h.modify (g := fun f => { f with blocks := f.blocks.modify s.curBlock (· ++ is) }) (fun _ => rfl) rfl

theorem NamesOk.same {N s} (h : NamesOk N s) {s' : LState} (he : s'.funcs = s.funcs) : NamesOk N s' := fun x hx => h x (he ▸ hx)

theorem NamesOk.at {N s} (h : NamesOk N s) (f b) : NamesOk N (s.at f b) := h.same rfl
theorem NamesOk.setLoop {N s} (h : NamesOk N s) (l) : NamesOk N (s.setLoop l) := h.same rfl

theorem NamesOk.appended {N s s' f b} (h : NamesOk N s) (ha : Appended f b s s') : NamesOk N s' := by
  intro x hx
  obtain ⟨j, hj⟩ := List.mem_iff_getElem?.1 hx
  have hlt : j < s.funcs.length := by
    rw [← ha.count]
    exact (List.getElem?_eq_some_iff.1 hj).1
  obtain ⟨y, h1, h2, _⟩ := ha.heads j _ (List.getElem?_eq_getElem hlt)
  rw [hj] at h1
  cases h1
  have := congrArg LFunc.name h2
  simp only at this
  rw [this]
  exact h _ (List.getElem_mem _)

theorem NamesOk.jump {N s} (h : NamesOk N s) (r target) : NamesOk N (s.jump r target) := by
  unfold LState.jump
  split
  · exact h.gen _ _
  · exact h

theorem NamesOk.addFunc {N s} (h : NamesOk N s) {sym : Symbol} (hn : N sym.linkageName) (f id bs) : NamesOk N (s.addFunc sym f id bs) := by
  intro x hx
  rcases List.mem_append.1 hx with h' | h'
  · exact h x h'
  · cases List.mem_singleton.1 h'
    exact hn

theorem NamesOk.enter {N s} (h : NamesOk N s) {sym : Symbol} (hn : N sym.linkageName) (f id ps) : NamesOk N (s.enter sym f id ps) :=
  (h.addFunc hn f id [[]]).same rfl

theorem NamesOk.leave {N s} (h : NamesOk N s) (f r old) : NamesOk N (s.leave f r old) := by
  unfold LState.leave
  split
  · exact (h.gen [.retVoid] s.nextReg).same rfl
  · exact h.same rfl

theorem names_assign {N cfg id v s s' u} (h : NamesOk N s) (hr : assignL cfg id v s = some (u, s')) : NamesOk N s' := by
  unfold assignL at hr
  obtain ⟨a, _, hr⟩ := LGen.bind_ofOption.1 hr
  rw [LGen.bind_get] at hr
  split at hr
  · rw [LGen.modify_eq.1 hr]; exact h.same rfl
  · obtain ⟨p, _, hr⟩ := LGen.bind_ofOption.1 hr
    rw [emit_eq.1 hr]
    exact h.gen _ _

theorem names_simple {N cfg ann stmt s s' u} (h : NamesOk N s) (hr : simpleL cfg ann stmt s = some (u, s')) : NamesOk N s' := by
  cases stmt with
  | varDef a b c d e =>
    cases ann with
    | varDef id x =>
      have hr : (do let v ← genExprL cfg x; setupVarL cfg id v.val; pure none : LGen (Option (Option Ty))) s = some (u, s') := hr
      obtain ⟨x, s1, h1, hr⟩ := LGen.bind_eq.1 hr
      obtain ⟨is, n, hc, rfl⟩ := genExprL_code _ h1
      obtain ⟨w, s2, h2, hr⟩ := LGen.bind_eq.1 hr
      obtain ⟨rfl, rfl⟩ := LGen.pure_eq.1 hr
      have h := h.gen is n
      unfold setupVarL at h2
      obtain ⟨var, hv, h2⟩ := LGen.bind_ofOption.1 h2
      rw [LGen.bind_get] at h2
      split at h2
      · unfold globalVarL at h2
        rw [LGen.bind_modify] at h2
        split at h2
        · obtain ⟨_, h2⟩ := LGen.pure_eq.1 h2
          rw [← h2]
          exact h.same rfl
        · refine names_assign (N := N) ?_ h2
          exact h.same rfl
      · unfold localVarL at h2
        rw [LGen.bind_modify, LGen.bind_get] at h2
        split at h2
        · refine names_assign (N := N) ?_ h2
          exact h.same rfl
        · rw [bind_newReg, bind_emit, LGen.bind_modify] at h2
          refine names_assign ?_ h2
          exact NamesOk.same ((NamesOk.gen (h.same (s' := { s.gen is n with
            isGlobal := fun i => if i = id then false else (s.gen is n).isGlobal i }) rfl) [] (n + 1)).gen [.alloca n var.type] (n + 1)) rfl
    | none => obtain ⟨rfl, rfl⟩ := LGen.pure_eq.1 hr; exact h
    | _ => exact (LGen.ub_eq (s := s).1 hr).elim
  | varAssign a =>
    cases ann with
    | varAssign id e =>
      have hr : (do let v ← genExprL cfg e; assignL cfg id v.val; pure none : LGen (Option (Option Ty))) s = some (u, s') := hr
      obtain ⟨x, s1, h1, hr⟩ := LGen.bind_eq.1 hr
      obtain ⟨is, n, hc, rfl⟩ := genExprL_code e h1
      obtain ⟨w, s2, h2, hr⟩ := LGen.bind_eq.1 hr
      obtain ⟨rfl, rfl⟩ := LGen.pure_eq.1 hr
      exact names_assign (h.gen _ _) h2
    | _ => exact (LGen.ub_eq (s := s).1 hr).elim
  | expr a =>
    cases ann with
    | expr e =>
      cases e with
      | call t args id ty =>
        have hr : (do let _ ← genExprL cfg (.call t args id ty); pure none : LGen (Option (Option Ty))) s = some (u, s') := hr
        obtain ⟨x, s1, h1, hr⟩ := LGen.bind_eq.1 hr
        obtain ⟨is, n, hc, rfl⟩ := genExprL_code _ h1
        obtain ⟨rfl, rfl⟩ := LGen.pure_eq.1 hr
        exact h.gen _ _
      | _ => exact (LGen.ub_eq (s := s).1 hr).elim
    | _ => exact (LGen.ub_eq (s := s).1 hr).elim
  | noop =>
    obtain ⟨_, s1, h1, hr⟩ := LGen.bind_eq.1 hr
    obtain ⟨_, rfl⟩ := LGen.pure_eq.1 hr
    unfold noopL at h1
    split at h1
    · rw [bind_newReg, bind_emit] at h1
      cases emit_eq.1 h1
      exact ((h.gen _ _).gen _ _).gen _ _
    · obtain ⟨_, rfl⟩ := LGen.pure_eq.1 h1; exact h
  | imports => obtain ⟨rfl, rfl⟩ := LGen.pure_eq.1 hr; exact h
  | comment => obtain ⟨rfl, rfl⟩ := LGen.pure_eq.1 hr; exact h
  | ret e =>
    cases ann with
    | none =>
      have hr : (do emit .retVoid; pure (some (some (.prim .void))) : LGen (Option (Option Ty))) s = some (u, s') := hr
      rw [bind_emit] at hr
      obtain ⟨rfl, rfl⟩ := LGen.pure_eq.1 hr
      exact h.gen _ _
    | expr x =>
      have hr : (do let v ← genExprL cfg x; emit (.ret v.val); pure (some v.ty) : LGen (Option (Option Ty))) s = some (u, s') := hr
      obtain ⟨y, s1, h1, hr⟩ := LGen.bind_eq.1 hr
      obtain ⟨is, n, hc, rfl⟩ := genExprL_code _ h1
      rw [bind_emit] at hr
      obtain ⟨rfl, rfl⟩ := LGen.pure_eq.1 hr
      exact (h.gen _ _).gen _ _
    | _ => exact (LGen.ub_eq (s := s).1 hr).elim
  | unreachable =>
    have hr : (do emit .unreachable; pure (some (some (.prim .void))) : LGen (Option (Option Ty))) s = some (u, s') := hr
    rw [bind_emit] at hr
    obtain ⟨rfl, rfl⟩ := LGen.pure_eq.1 hr
    exact h.gen _ _
  | breaks =>
    have hr : (do let s ← LGen.get; emit (.br s.whileEnd); pure (some (some (.prim .void))) : LGen (Option (Option Ty))) s = some (u, s') := hr
    rw [LGen.bind_get, bind_emit] at hr
    obtain ⟨rfl, rfl⟩ := LGen.pure_eq.1 hr
    exact h.gen _ _
  | continues =>
    have hr : (do let s ← LGen.get; emit (.br s.whileCond); pure (some (some (.prim .void))) : LGen (Option (Option Ty))) s = some (u, s') := hr
    rw [LGen.bind_get, bind_emit] at hr
    obtain ⟨rfl, rfl⟩ := LGen.pure_eq.1 hr
    exact h.gen _ _
  | _ => exact (LGen.ub_eq (s := s).1 hr).elim

theorem gen_names {cfg mode t s r s'} {N : List Char → Prop} (hN : ∀ id sym f, cfg.func id = some (sym, f) → N sym.linkageName)
    (h : GenRun cfg mode t s r s') : NamesOk N s → NamesOk N s' := by
  induction h with
  | nil => exact fun h => h
  | plain _ hs _ ih => exact fun h => ih (names_simple h hs)
  | stop _ hs => exact fun h => names_simple h hs
  | breaks => exact fun h => h.gen _ _
  | continues => exact fun h => h.gen _ _
  | whiles _ a1 a2 a3 e4 _ _ _ ih1 ih2 =>
    intro h
    subst e4
    exact ih2 (((((ih1 ((((((((h.appended a1).appended a2).appended a3).setLoop _).gen _ _).at _ _).gen _ _).at _ _))).jump _ _).at _ _).setLoop none)
  | ifs _ a1 a2 _ _ ih1 ih2 => exact fun h => ih2 ((ih1 (((h.appended a1).appended a2).at _ _)).jump _ _)
  | elifs a1 _ a2 _ _ ih1 ih2 =>
    exact fun h => ih2 ((ih1 (((((h.at _ _).appended a1).gen _ _).appended a2).at _ _)).jump _ _)
  | elses a1 _ _ _ ih1 ih2 =>
    exact fun h => ih2 (((ih1 (((((h.at _ _).appended a1).gen _ _)).at _ _)).jump _ _).at _ _)
  | comment _ ih => exact ih
  | endIf _ _ _ ih => exact fun h => ih (((h.at _ _).gen _ _).at _ _)
  | external hf _ _ ih => exact fun h => ih (h.addFunc (hN _ _ _ hf) _ _ _)
  | func hf _ h0 _ _ ih1 ih2 =>
    obtain ⟨is, st, _⟩ := debug_step h0
    exact fun h => ih2 ((ih1 (((h.enter (hN _ _ _ hf) _ _ _).gen is _).same st.funcs)).leave _ _ _)
  | ns _ _ ih1 ih2 => exact fun h => ih2 (ih1 h)

theorem codegenL_names {cfg name t s} {N : List Char → Prop} (h : codegenL cfg name t = some s) (hm : N name)
    (hN : ∀ id sym f, cfg.func id = some (sym, f) → N sym.linkageName) : NamesOk N s := by
  obtain ⟨r, s₁, h1, h2⟩ := codegenL_run h
  have h0 : NamesOk N (setupL name) := by intro x hx; cases List.mem_singleton.1 hx; exact hm
  have h1 := gen_names hN h1 h0
  rcases h2 with ⟨_, rfl⟩ | ⟨_, rfl⟩
  · exact h1
  · exact h1.gen _ _

/-- Symbol 0 is the main function, the first one. -/
theorem codegenL_ref {cfg name t s} (h : codegenL cfg name t = some s) (hn : t.defs.Nodup) (h0 : 0 ∉ t.defs) (ha : AssignsOk cfg t) :
    s.funcRef 0 = some 0 := by
  obtain ⟨r, s₁, h1, h2⟩ := codegenL_run h
  have fr := gen_frame h1 hn (setupL_fresh (name := name) h0) ha (setupL_ok name) trivial
  have he := fr.env.funcs 0 0 rfl
  rcases h2 with ⟨_, rfl⟩ | ⟨_, rfl⟩
  · exact he
  · exact he

/- ### More functions -/

section
variable {ω : Type} {F : Floats} {ext : List Char → List Val → ω → Option (Val × ω)} {M : List LFunc} (X : List LFunc)

theorem func_more {g : Nat} {x} (h : M[g]? = some x) : (M ++ X)[g]? = some x := by
  rw [List.getElem?_append_left (List.getElem?_eq_some_iff.1 h).1, h]

theorem block_more {f b code} (h : blockOf M f b = some code) : blockOf (M ++ X) f b = some code := by
  unfold blockOf at h ⊢
  cases hf : M[f]? with
  | none => rw [hf] at h; cases h
  | some x => rw [func_more X hf]; rw [hf] at h; exact h

mutual
/-- Code runs in the same way when there are more functions. -/
theorem irun_more (X : List LFunc) : ∀ {f code regs ps m v m'}, IRun F ext M f code regs ps m v m' → IRun F ext (M ++ X) f code regs ps m v m'
  | _, _, _, _, _, _, _, .step h1 h2 => .step h1 (irun_more X h2)
  | _, _, _, _, _, _, _, .call h1 h2 h3 => .call h1 (icall_more X h2) (irun_more X h3)
  | _, _, _, _, _, _, _, .br h1 h2 => .br (block_more X h1) (irun_more X h2)
  | _, _, _, _, _, _, _, .condBr h1 h2 h3 => .condBr h1 (block_more X h2) (irun_more X h3)
  | _, _, _, _, _, _, _, .ret h => .ret h
  | _, _, _, _, _, _, _, .retVoid => .retVoid
theorem icall_more (X : List LFunc) : ∀ {g vs m x m'}, ICall F ext M g vs m x m' → ICall F ext (M ++ X) g vs m x m'
  | _, _, _, _, _, .value h1 h2 h3 h4 h5 => .value (func_more X h1) h2 h3 (block_more X h4) (irun_more X h5)
  | _, _, _, _, _, .void h1 h2 h3 h4 h5 => .void (func_more X h1) h2 h3 (block_more X h4) (irun_more X h5)
  | _, _, _, _, _, .external h1 h2 h3 => .external (func_more X h1) h2 h3
end

mutual
/-- Code that runs to the end of its function does not call `exit` on the way. -/
theorem irun_noExit (hN : ∀ x ∈ M, x.name ≠ "exit".toList) : ∀ {f code regs ps m v m'}, IRun F ext M f code regs ps m v m' →
    ∀ {j w}, ¬ IExit F ext (M ++ X) f code regs ps m j w
  | _, _, _, _, _, _, _, .step h1 h2, _, _, h => by
    cases h with
    | step g1 g2 =>
      rw [h1] at g1
      cases g1
      exact irun_noExit hN h2 g2
    | call => cases h1
    | inside => cases h1
    | exit => cases h1
    | br => cases h1
    | condBr => cases h1
  | _, _, _, _, _, _, _, .call h1 h2 h3, _, _, h => by
    cases h with
    | step g1 => cases g1
    | call g1 g2 g3 =>
      rw [h1] at g1
      cases g1
      obtain ⟨rfl, rfl⟩ := icall_det (icall_more X h2) g2
      exact irun_noExit hN h3 g3
    | inside g1 g2 g3 g4 g5 =>
      rw [h1] at g1
      cases g1
      exact icall_noExit hN h2 g4 g5
    | exit g1 g2 g3 g4 =>
      obtain ⟨y, hy⟩ : ∃ y, M[_]? = some y := by
        cases h2 with
        | value h _ _ _ _ => exact ⟨_, h⟩
        | void h _ _ _ _ => exact ⟨_, h⟩
        | external h _ _ => exact ⟨_, h⟩
      rw [func_more X hy] at g2
      cases g2
      exact hN _ (List.mem_of_getElem? hy) g4
  | _, _, _, _, _, _, _, .br h1 h2, _, _, h => by
    cases h with
    | step g1 => cases g1
    | br g1 g2 =>
      rw [block_more X h1] at g1
      cases g1
      exact irun_noExit hN h2 g2
  | _, _, _, _, _, _, _, .condBr h1 h2 h3, _, _, h => by
    cases h with
    | step g1 => cases g1
    | condBr g1 g2 g3 =>
      rw [h1] at g1
      cases g1
      rw [block_more X h2] at g2
      cases g2
      exact irun_noExit hN h3 g3
  | _, _, _, _, _, _, _, .ret h1, _, _, h => by
    cases h with
    | step g1 => cases g1
  | _, _, _, _, _, _, _, .retVoid, _, _, h => by
    cases h with
    | step g1 => cases g1
theorem icall_noExit (hN : ∀ x ∈ M, x.name ≠ "exit".toList) : ∀ {g vs m x m'}, ICall F ext M g vs m x m' →
    ∀ {code j w}, blockOf (M ++ X) g 0 = some code → ¬ IExit F ext (M ++ X) g code (fun _ => none) vs m j w
  | _, _, _, _, _, .value _ _ _ h4 h5, _, _, _, hb, h => by
    rw [block_more X h4] at hb
    cases hb
    exact irun_noExit hN h5 h
  | _, _, _, _, _, .void _ _ _ h4 h5, _, _, _, hb, h => by
    rw [block_more X h4] at hb
    cases hb
    exact irun_noExit hN h5 h
  | _, _, _, _, _, .external h1 h2 _, _, _, _, hb, _ => by
    rw [no_block (func_more X h1) h2] at hb
    cases hb
end

/-- A program that returns `i` exits with `i`, and with nothing else. -/
theorem start_exits {m m' : LState} {w : ω} {i : Int} {w' : ω} (hm : addStart m = some m') (h0 : m.funcRef 0 = some 0)
    (hN : ∀ x ∈ m.funcs, x.name ≠ "exit".toList ∧ x.name ≠ "_start".toList) (h : RunsTo F ext m.funcs m.globals w i w') :
    Exits F ext m'.funcs m'.globals w i w' ∧ ∀ j w'', Exits F ext m'.funcs m'.globals w j w'' → j = i ∧ w'' = w' := by
  unfold addStart at hm
  rw [h0] at hm
  simp only [Option.map_some, Option.some.injEq] at hm
  subst hm
  generalize hX : [(⟨"_start".toList, [], .prim .void, false,
          [[.call m.nextReg 0 [], .call (m.nextReg + 1) (m.funcs.length + 1) [.reg m.nextReg], .retVoid]]⟩ : LFunc),
        ⟨"exit".toList, [.prim .int], .prim .void, false, []⟩] = X
  simp only
  have hs : (m.funcs ++ X)[m.funcs.length]? = some ⟨"_start".toList, [], .prim .void, false,
          [[.call m.nextReg 0 [], .call (m.nextReg + 1) (m.funcs.length + 1) [.reg m.nextReg], .retVoid]]⟩ := by
    rw [← hX, List.getElem?_append_right (Nat.le_refl _)]; simp
  have he : (m.funcs ++ X)[m.funcs.length + 1]? = some ⟨"exit".toList, [.prim .int], .prim .void, false, []⟩ := by
    rw [← hX, List.getElem?_append_right (Nat.le_succ _)]; simp
  have hb : blockOf (m.funcs ++ X) m.funcs.length 0 =
      some [.call m.nextReg 0 [], .call (m.nextReg + 1) (m.funcs.length + 1) [.reg m.nextReg], .retVoid] := by
    unfold blockOf; rw [hs]; rfl
  obtain ⟨m1, hc, hw⟩ := h
  have hc' := icall_more X hc
  have hop : operands (Regs.set (fun _ => none) m.nextReg (.val (.int i))) [] [.reg m.nextReg] = some [.val (.int i)] := by
    simp [operands, operand, Regs.set]
  refine ⟨⟨_, _, _, hs, rfl, hb, .call rfl hc' ?_⟩, ?_⟩
  · rw [← hw]
    exact .exit hop he rfl rfl
  · rintro j w'' ⟨g, x, code, h1, h2, h3, h4⟩
    have hg : g = m.funcs.length := by
      rw [List.getElem?_append] at h1
      split at h1
      · exact absurd h2 (hN _ (List.mem_of_getElem? h1)).2
      · rename_i hlt
        rw [← hX] at h1
        have : g - m.funcs.length = 0 := by
          cases hk : g - m.funcs.length with
          | zero => rfl
          | succ k =>
            rw [hk] at h1
            cases k with
            | zero => cases h1; exact absurd h2 (by decide)
            | succ k => cases h1
        omega
    subst hg
    rw [hb] at h3
    cases h3
    cases h4 with
    | step g1 => cases g1
    | inside g1 _ _ g4 g5 =>
      cases g1
      exact absurd g5 (icall_noExit X (fun x hx => (hN x hx).1) hc g4)
    | exit g1 => cases g1
    | call g1 g2 g3 =>
      cases g1
      obtain ⟨rfl, rfl⟩ := icall_det hc' g2
      cases g3 with
      | step g1 => cases g1
      | call _ g2 g3 =>
        cases g3 with
        | step g1 => cases g1
      | inside g1 g2 _ g4 _ =>
        rw [no_block he rfl] at g4
        cases g4
      | exit g1 g2 _ _ =>
        rw [hop] at g1
        cases g1
        exact ⟨rfl, hw⟩

end

end Skull
