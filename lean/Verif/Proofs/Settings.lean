import Verif.Proofs.Options
import Verif.Spec.Settings
/-
Runs that differ in `--quiet`, `--werror` and `--color`.
-/
namespace Skull.Opts
open Spec

/-- Other messages. -/
abbrev setB (b : BuildData) (q w c : Bool) : BuildData := { b with quiet := q, werror := w, color := c }

theorem SameWork.set {b b' : BuildData} (h : SameWork b b') : b' = setB b b'.quiet b'.werror b'.color := by
  cases b
  cases b'
  obtain ⟨h1, h2, h3, h4, h5, h6, h7, h8, h9, h10, h11, h12⟩ := h
  simp only at h1 h2 h3 h4 h5 h6 h7 h8 h9 h10 h11 h12
  subst h1 h2 h3 h4 h5 h6 h7 h8 h9 h10 h11 h12
  rfl

theorem work_flush (b : BuildData) (ds : List Code) : work (flush b ds) = [] := by
  unfold flush
  split <;> rfl

theorem work_app (x y : List Act) : work (x ++ y) = work x ++ work y := List.filter_append ..

theorem flush_said {b : BuildData} {ds : List Code} (hq : b.quiet = false) (h : NothingSaid (flush b ds)) : ds = [] := by
  unfold flush at h
  rw [hq] at h
  cases ds with
  | nil => rfl
  | cons d ds => exact (h (d :: ds) (by simp)).elim

/-- The back ends. -/
def generate (sys : Sys) (b : BuildData) (f : List Char) (syms : List Symbol) (a : ATree) : Option Ran :=
  if b.cBackend then runBackendC sys b f syms a else runBackendL sys b f syms a

theorem generate_set {sys b f syms a q w c} : generate sys (setB b q w c) f syms a = generate sys b f syms a := rfl

/-- What is asked of the run with the new settings. -/
structure Ok (b : BuildData) (q w : Bool) (acts : List Act) : Prop where
  quiet : b.quiet = true → q = true
  strict : w = true → b.quiet = false ∧ NothingSaid acts

theorem check_sim {sys : Sys} {b : BuildData} {q w c : Bool} {f : List Char} {before : List Code} {t : Tree} {acts : List Act}
    (ho : Ok b q w acts) (h : checkAndGenerate sys b f before t = some (false, acts)) :
    ∃ acts', checkAndGenerate sys (setB b q w c) f before t = some (false, acts') ∧ work acts' = work acts ∧ (q = b.quiet → acts' = acts) := by
  unfold checkAndGenerate at h
  split at h
  · cases h
  · cases h
  · rename_i a s hs
    have h' : (generate sys b f s.syms a).map (fun r => (r.1, r.2 ++ flush b (before ++ s.diags.reverse.map PDiag.code))) = some (false, acts) := h
    obtain ⟨⟨e, r⟩, h1, h2⟩ := Option.map_eq_some_iff.1 h'
    obtain ⟨rfl, rfl⟩ := Prod.mk.inj h2
    have hs' : semantic (opt (checkCfg sys b) b.quiet b.werror) t = .ok a s := hs
    obtain ⟨s', k1, k2, k3⟩ := semantic_sim (q' := q) (w := w) hs' (fun e => by
      obtain ⟨h3, h4⟩ := ho.strict e
      have := flush_said h3 (fun ds hd => h4 ds (List.mem_append_right _ hd))
      have := (List.append_eq_nil_iff.1 this).2
      simpa using this) ho.quiet
    refine ⟨r ++ flush (setB b q w c) (before ++ s'.diags.reverse.map PDiag.code), ?_, ?_, fun e => ?_⟩
    · have k1' : semantic (checkCfg sys (setB b q w c)) t = .ok a s' := k1
      unfold checkAndGenerate
      rw [k1']
      have : (generate sys (setB b q w c) f s'.syms a).map (fun r => (r.1, r.2 ++ flush (setB b q w c) (before ++ s'.diags.reverse.map PDiag.code))) =
          some (false, r ++ flush (setB b q w c) (before ++ s'.diags.reverse.map PDiag.code)) := by
        rw [generate_set, k2, h1]
        rfl
      exact this
    · rw [work_app, work_app, work_flush, work_flush]
    · rw [k3 e]
      subst e
      rfl

theorem bom_tokenize {w w' : Bool} {src : List Char} (h : w = true → bomDiags src = []) (he : (∃ toks, tokenize w' src = some (.ok toks))) :
    tokenize w src = tokenize w' src := by
  unfold tokenize at he ⊢
  unfold bomDiags at h
  cases src with
  | nil => rfl
  | cons c code =>
    simp only at he ⊢
    by_cases hc : c = bomChar
    · subst hc
      cases w with
      | true => have := h rfl; simp at this
      | false =>
        rw [if_pos rfl]
        rw [if_pos rfl] at he ⊢
        cases w' with
        | false => rfl
        | true => obtain ⟨_, he⟩ := he; cases he
    · rw [if_neg hc, if_neg hc]

theorem check_said {sys : Sys} {b : BuildData} {f : List Char} {before : List Code} {t : Tree} {acts : List Act}
    (h : checkAndGenerate sys b f before t = some (false, acts)) (hq : b.quiet = false) (hn : NothingSaid acts) : before = [] := by
  unfold checkAndGenerate at h
  split at h
  · cases h
  · cases h
  · rename_i a s hs
    obtain ⟨⟨e, r⟩, h1, h2⟩ := Option.map_eq_some_iff.1 h
    obtain ⟨rfl, rfl⟩ := Prod.mk.inj h2
    exact (List.append_eq_nil_iff.1 (flush_said hq (fun ds hd => hn ds (List.mem_append_right _ hd)))).1

theorem pipeline_sim {sys : Sys} {b : BuildData} {q w c : Bool} {f : List Char} {contents : List UInt8} {acts : List Act}
    (ho : Ok b q w acts) (h : runPipeline sys b f contents = some (false, acts)) :
    ∃ acts', runPipeline sys (setB b q w c) f contents = some (false, acts') ∧ work acts' = work acts ∧ (q = b.quiet → acts' = acts) := by
  unfold runPipeline at h
  split at h
  · cases h
  · rename_i src hsrc
    split at h
    · cases h
    · cases h
    · cases h
    · rename_i toks ht
      split at h
      · cases h
      · rename_i toks' hc
        split at h
        · cases h
        · cases h
        · cases h
        · cases h
        · rename_i t s hne hp
          obtain ⟨acts', k1, k2⟩ := check_sim (c := c) ho h
          refine ⟨acts', ?_, k2⟩
          have ht' : tokenize w src = some (.ok toks) := by
            rw [bom_tokenize (fun e => check_said h (ho.strict e).1 (ho.strict e).2) ⟨toks, ht⟩]
            exact ht
          unfold runPipeline
          rw [hsrc]
          simp only [ht', hc, hp]
          exact k1

theorem file_sim {sys : Sys} {b : BuildData} {q w c : Bool} {f : List Char} {acts : List Act}
    (ho : Ok b q w acts) (h : compileFile sys b f = some (false, acts)) :
    ∃ acts', compileFile sys (setB b q w c) f = some (false, acts') ∧ work acts' = work acts ∧ (q = b.quiet → acts' = acts) := by
  unfold compileFile at h
  split at h
  · cases h
  · rename_i hpath
    split at h
    · cases h
    · rename_i file hf
      split at h
      · rename_i hs
        injection h with h
        obtain ⟨h1, rfl⟩ := Prod.mk.inj h
        have hw : w = false := by
          cases w with
          | false => rfl
          | true => exact nomatch flush_said (ho.strict rfl).1 (ho.strict rfl).2
        subst hw
        refine ⟨flush (setB b q false c) [.warnFileEmpty], ?_, by rw [work_flush, work_flush], fun e => by subst e; rfl⟩
        unfold compileFile
        rw [if_neg hpath, hf]
        simp only [hs]
      · rename_i bytes hs
        obtain ⟨acts', k1, k2⟩ := pipeline_sim (c := c) ho h
        refine ⟨acts', ?_, k2⟩
        unfold compileFile
        rw [if_neg hpath, hf]
        simp only [hs]
        exact k1

/- ### Runs that print no diagnostics -/

theorem _root_.Skull.Spec.NothingSaid.one {a : Act} (h : ∀ ds, a ≠ .diags ds) : NothingSaid [a] := fun ds hd => h ds (List.mem_singleton.1 hd).symm

theorem _root_.Skull.Spec.NothingSaid.app {x y : List Act} (hx : NothingSaid x) (hy : NothingSaid y) : NothingSaid (x ++ y) :=
  fun ds hd => (List.mem_append.1 hd).elim (hx ds) (hy ds)

theorem _root_.Skull.Spec.NothingSaid.nil : NothingSaid [] := fun _ hd => nomatch hd

theorem flush_quiet {b : BuildData} {ds : List Code} (hq : b.quiet = true) : NothingSaid (flush b ds) := by
  unfold flush
  rw [hq]
  exact .nil

theorem backendC_mute {sys b f syms a r} (h : runBackendC sys b f syms a = some r) : NothingSaid r.2 := by
  simp only [runBackendC, writeFileC] at h
  repeat' split at h
  all_goals cases h
  all_goals exact .one fun _ => (by simp)

theorem optimize_mute {sys b m err acts} (h : optimizeL sys b m = .done err acts) : NothingSaid acts := by
  simp only [optimizeL] at h
  repeat' split at h
  all_goals cases h
  all_goals exact .one fun _ => (by simp)

theorem ir_mute {sys b f m r} (h : outputIR sys b f m = some r) : NothingSaid r.2 := by
  simp only [outputIR] at h
  repeat' split at h
  all_goals cases h
  all_goals exact .one fun _ => (by simp)

/-- What was done when a phase ends. -/
def phaseActs : Phase α → List Act
  | .next _ acts => acts
  | .done _ acts => acts

theorem stage_mute {sys b f m p} (h : emitStage1 sys b f m = some p) : NothingSaid (phaseActs p) := by
  unfold emitStage1 at h
  split at h
  · obtain ⟨r, h1, rfl⟩ := Option.map_eq_some_iff.1 h
    exact ir_mute h1
  · repeat' split at h
    all_goals cases h
    all_goals exact .one fun _ => (by simp)

theorem native_mute {sys b out r} (h : emitNative sys b out = some r) : NothingSaid r.2 := by
  simp only [emitNative] at h
  repeat' split at h
  all_goals cases h
  · exact .one fun _ => (by simp)
  · exact .app (x := [_]) (.one fun _ => (by simp)) (.one fun _ => (by simp))

theorem backendL_mute {sys b f syms a r} (h : runBackendL sys b f syms a = some r) : NothingSaid r.2 := by
  simp only [runBackendL] at h
  split at h
  · cases h
  · split at h
    · cases h
    · simp only [writeL] at h
      split at h
      · cases h
      · cases h; exact .one fun _ => (by simp)
      · split at h
        · cases h; exact .one fun _ => (by simp)
        · split at h
          · rename_i ho; cases h; exact optimize_mute ho
          · split at h
            · cases h
            · rename_i he; cases h; exact stage_mute he
            · rename_i he
              obtain ⟨r', h1, rfl⟩ := Option.map_eq_some_iff.1 h
              exact .app (stage_mute he) (native_mute h1)

theorem check_quiet {sys b f before t r} (hq : b.quiet = true) (h : checkAndGenerate sys b f before t = some r) : NothingSaid r.2 := by
  unfold checkAndGenerate at h
  split at h
  · cases h
  · cases h; exact flush_quiet hq
  · obtain ⟨r', h1, rfl⟩ := Option.map_eq_some_iff.1 h
    refine .app ?_ (flush_quiet hq)
    split at h1
    · exact backendC_mute h1
    · exact backendL_mute h1

theorem pipeline_quiet {sys b f contents r} (hq : b.quiet = true) (h : runPipeline sys b f contents = some r) : NothingSaid r.2 := by
  unfold runPipeline at h
  repeat' split at h
  all_goals first | exact check_quiet hq h | (cases h; done) | (cases h; exact flush_quiet hq)

theorem file_quiet {sys b f r} (hq : b.quiet = true) (h : compileFile sys b f = some r) : NothingSaid r.2 := by
  unfold compileFile at h
  repeat' split at h
  all_goals first | exact pipeline_quiet hq h | (cases h; exact flush_quiet hq) | (cases h; exact .one fun _ => (by simp))

end Skull.Opts
