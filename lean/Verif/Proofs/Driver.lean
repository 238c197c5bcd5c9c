import Verif.Spec.Driver
import Verif.Props.Cli
import Verif.Props.Paths
/-
What a run does, case by case.
-/
namespace Skull
open Spec

/-- Only messages. -/
def Mute (acts : List Act) : Prop := ∀ a ∈ acts, isOutput a = false

theorem mute_flush (b ds) : Mute (flush b ds) := by
  unfold flush
  split
  · intro a h; cases h
  · intro a h; cases List.mem_singleton.1 h; rfl

theorem mute_say : Mute [.say] := by intro a h; cases List.mem_singleton.1 h; rfl

/-- What the back end that was asked for does. -/
def backend (sys : Sys) (b : BuildData) (f : List Char) (a : ATree) (s : SS) : Option Ran :=
  if b.cBackend then runBackendC sys b f s.syms a else runBackendL sys b f s.syms a

/-- The three ways a file can go: refused, empty, or given to the back end. -/
inductive Went (sys : Sys) (b : BuildData) (f : List Char) : Bool → List Act → Prop
  | refused {acts} : Mute acts → Went sys b f true acts
  | empty {acts} : sys.read f = some [] → Mute acts → Went sys b f b.werror acts
  | generated {file t a s err acts ds} : sys.read f = some file → ProgramIn b.werror file t → semantic (checkCfg sys b) t = .ok a s →
      backend sys b f a s = some (err, acts) → Mute ds → Went sys b f err (acts ++ ds)

theorem checked_went {sys b f file t before r} (hr : sys.read f = some file) (hp : ProgramIn b.werror file t)
    (h : checkAndGenerate sys b f before t = some r) : Went sys b f r.1 r.2 := by
  unfold checkAndGenerate at h
  split at h
  · cases h
  · cases h; exact .refused (mute_flush _ _)
  · rename_i a s hs
    simp only [Option.map_eq_some_iff] at h
    obtain ⟨r', h1, h2⟩ := h
    subst h2
    exact .generated hr hp hs h1 (mute_flush _ _)

theorem file_went {sys b f r} (h : compileFile sys b f = some r) : Went sys b f r.1 r.2 := by
  unfold compileFile at h
  split at h
  · cases h; exact .refused mute_say
  · split at h
    · cases h; exact .refused mute_say
    · rename_i file hr
      split at h
      · rename_i he
        cases h
        have : file = [] := by
          unfold fileToString at he
          split at he
          · assumption
          · cases he
        subst this
        exact .empty hr (mute_flush _ _)
      · rename_i bytes hb
        unfold runPipeline at h
        split at h
        · cases h; exact .refused (mute_flush _ _)
        · rename_i src hsrc
          have hst : sourceText file = some src := by unfold sourceText; rw [hb]; exact hsrc
          split at h
          · cases h
          · cases h
          · cases h; exact .refused (mute_flush _ _)
          · rename_i toks ht
            split at h
            · cases h
            · rename_i toks' hc
              split at h
              · cases h
              · cases h
              · cases h; exact .refused (mute_flush _ _)
              · cases h; exact .refused (mute_flush _ _)
              · rename_i t s _ hps
                exact checked_went hr ⟨src, toks, toks', s, hst, ht, hc, hps⟩ h

/-- A run: the command line is refused or asks for nothing, or a file is compiled. -/
theorem skull_went {sys args code acts} (h : skull sys args = some (code, acts)) :
    (cliMain sys.colorEnv args = .exit code ∧ Mute acts) ∨
    ∃ b f err, cliMain sys.colorEnv args = .run b ∧ b.filename = some f ∧ code = err.toNat ∧ Went sys b f err acts := by
  unfold skull at h
  split at h
  · cases h
  · rename_i hc
    cases h
    exact .inl ⟨hc, mute_say⟩
  · rename_i b hb
    obtain ⟨f, _, _, hf, _⟩ := C20_settings_partial _ _ _ hb
    simp only [Option.map_eq_some_iff] at h
    obtain ⟨r, h1, h2⟩ := h
    rw [hf] at h1
    cases h2
    exact .inr ⟨b, f, r.1, hb, hf, rfl, file_went h1⟩

/-! ### The C back end -/

theorem backendC_acts {sys b f a s r} (hf : b.filename = some f) (h : runBackendC sys b f s.syms a = some r) :
    r.1 = false ∧ ∃ text out, TextOf sys b a s text ∧ getNewFilename b.outFile b.preprocess b.cBackend f ['c'] = some out ∧
      r.2 = if out = ['-'] then [.stdout text] else [.write out text] := by
  unfold runBackendC at h
  simp only at h
  split at h
  · rename_i tree cs main hg hm
    unfold writeFileC at h
    split at h
    · cases h
    · rename_i out ho
      have ht : TextOf sys b a s (fileC ⟨s.syms, if b.debug = true then some (b.filename.getD []) else none, sys.fmtA⟩ main tree cs) := by
        refine ⟨_, main, tree, cs, ?_, hm, hg, rfl⟩
        simp [hf]
      split at h
      · rename_i he
        cases h
        exact ⟨rfl, _, out, ht, ho, by rw [if_pos he]⟩
      · rename_i he
        split at h
        · cases h
          exact ⟨rfl, _, out, ht, ho, by rw [if_neg he]⟩
        · cases h
  · cases h

/-! ### The LLVM back end -/

theorem optimizeL_next {sys b m m' acts} (h : optimizeL sys b m = .next m' acts) : m' = optimized sys b m := by
  unfold optimizeL at h
  unfold optimized
  split at h
  · rename_i ho
    split at h
    · cases h
    · cases h
      by_cases h1 : b.optimize1 = true
      · simp [h1]
      · by_cases h2 : b.optimize2 = true
        · simp [h1, h2]
        · have h3 : b.optimize3 = true := by simpa [h1, h2] using ho
          simp [h1, h2, h3]
  · rename_i ho
    cases h
    simp only [Bool.or_eq_true, not_or, Bool.not_eq_true] at ho
    simp [ho.1.1, ho.1.2, ho.2]

theorem optimizeL_done {sys b m err acts} (h : optimizeL sys b m = .done err acts) : err = true ∧ acts = [.say] := by
  unfold optimizeL at h
  split at h
  · split at h
    · cases h; exact ⟨rfl, rfl⟩
    · cases h
  · cases h

/-- What the LLVM back end does with a module, when it comes to do something. -/
inductive Wrote (sys : Sys) (b : BuildData) (f : List Char) (m : LState) : Bool → List Act → Prop
  | refused : Wrote sys b f m true [.say]
  | printed : b.preprocess = true → getNewFilename b.outFile true b.cBackend f "ll".toList = some ['-'] →
      Wrote sys b f m false [.print (optimized sys b m)]
  | written {out} : b.preprocess = true → getNewFilename b.outFile true b.cBackend f "ll".toList = some out → out ≠ ['-'] →
      Wrote sys b f m false [.module out (optimized sys b m)]
  | assembly {out} : b.preprocess = false → b.asmBackend = true → (b.outFile <|> genFilename f ['s']) = some out →
      Wrote sys b f m false [.emit out true (optimized sys b m)]
  | object {out} : b.preprocess = false → b.asmBackend = false → b.compileOnly = true → (b.outFile <|> genFilename f ['o']) = some out →
      out ≠ ['-'] → Wrote sys b f m false [.emit out false (optimized sys b m)]
  | directory {m' out name} : willBuildBinary b = true → addStart m = some m' → (b.outFile <|> genFilename f ['o']) = some out →
      binaryName f = some name → sys.isDir name = true → Wrote sys b f m true [.emit out false (optimized sys b m'), .say]
  | linked {m' out name} : willBuildBinary b = true → addStart m = some m' → (b.outFile <|> genFilename f ['o']) = some out →
      binaryName f = some name → out ≠ ['-'] →
      Wrote sys b f m (wexitstatus (sys.wait (linkCommand out name b.extraArgs)) ≠ 0)
        [.emit out false (optimized sys b m'), .shell (linkCommand out name b.extraArgs), .remove out]

theorem writeL_wrote {sys b f m r} (hf : b.filename = some f) (hsk : f ≠ ['-']) (h : writeL sys b f m = some r) :
    Wrote sys b f m r.1 r.2 := by
  unfold writeL at h
  split at h
  · cases h
  · cases h; exact .refused
  · rename_i m₁ hm
    have hm' : (willBuildBinary b = true ∧ addStart m = some m₁) ∨ (willBuildBinary b = false ∧ m₁ = m) := by
      split at hm
      · rename_i hw
        simp only [Option.map_eq_some_iff] at hm
        obtain ⟨x, h1, h2⟩ := hm
        injection h2 with h2 h3
        subst h2
        exact .inl ⟨hw, h1⟩
      · rename_i hw
        cases hm
        exact .inr ⟨by simpa using hw, rfl⟩
    split at h
    · cases h; exact .refused
    · split at h
      · rename_i ho
        cases h
        obtain ⟨rfl, rfl⟩ := optimizeL_done ho
        exact .refused
      · rename_i ho
        have := optimizeL_next ho
        subst this
        unfold emitStage1 at h
        split at h
        · cases h
        · rename_i err acts he
          cases h
          split at he
          · rename_i hpre
            have hnb : m₁ = m := by
              rcases hm' with ⟨h1, _⟩ | ⟨_, h2⟩
              · simp [willBuildBinary, hpre] at h1
              · exact h2
            subst hnb
            simp only [Option.map_eq_some_iff] at he
            obtain ⟨r, h1, h2⟩ := he
            cases h2
            unfold outputIR at h1
            rw [if_neg hsk] at h1
            split at h1
            · cases h1
            · rename_i out hout
              rw [hpre] at hout
              split at h1
              · rename_i hd
                cases h1
                exact .printed hpre (hd ▸ hout)
              · rename_i hd
                split at h1
                · cases h1; exact .written hpre hout hd
                · cases h1; exact .refused
          · rename_i hpre
            split at he
            · cases he; exact .refused
            · split at he
              · cases he
              · rename_i out hout
                rw [hf] at hout
                simp only [Option.getD_some] at hout
                split at he
                · cases he; exact .refused
                · rename_i hd
                  split at he
                  · cases he; exact .refused
                  · split at he
                    · rename_i hco
                      have hnb : m₁ = m := by
                        rcases hm' with ⟨h1, _⟩ | ⟨_, h2⟩
                        · simp only [willBuildBinary, Bool.not_eq_true', Bool.or_eq_false_iff] at h1
                          simp [h1.1.2, h1.2] at hco
                        · exact h2
                      subst hnb
                      cases he
                      cases ha : b.asmBackend with
                      | true => exact .assembly (by simpa using hpre) ha (by simpa [ha] using hout)
                      | false =>
                        simp only [ha, Bool.or_false] at hco
                        exact .object (by simpa using hpre) ha hco (by simpa [ha] using hout) (by simpa [ha] using hd)
                    · cases he
        · rename_i out acts he
          split at he
          · simp only [Option.map_eq_some_iff] at he
            obtain ⟨_, _, h2⟩ := he
            cases h2
          · rename_i hpre
            split at he
            · cases he
            · split at he
              · cases he
              · rename_i out' hout
                rw [hf] at hout
                simp only [Option.getD_some] at hout
                split at he
                · cases he
                · rename_i hd
                  split at he
                  · cases he
                  · split at he
                    · cases he
                    · rename_i hco
                      cases he
                      simp only [Bool.or_eq_true, not_or, Bool.not_eq_true] at hco
                      have hw : willBuildBinary b = true := by simp [willBuildBinary, hpre, hco.1, hco.2]
                      have hst : addStart m = some m₁ := by
                        rcases hm' with ⟨_, h1⟩ | ⟨h1, _⟩
                        · exact h1
                        · rw [hw] at h1; cases h1
                      simp only [hco.2, Bool.false_eq_true, if_false] at hout
                      simp only [Option.map_eq_some_iff] at h
                      obtain ⟨r', h1, h2⟩ := h
                      subst h2
                      unfold emitNative at h1
                      rw [hf] at h1
                      simp only [Option.getD_some] at h1
                      split at h1
                      · cases h1
                      · rename_i name hn
                        rw [hco.2]
                        split at h1
                        · rename_i hdir
                          cases h1
                          exact .directory hw hst hout hn hdir
                        · cases h1
                          exact .linked hw hst hout hn (by simpa [hco.2] using hd)

theorem backendL_wrote {sys b f a s r} (hf : b.filename = some f) (hsk : f ≠ ['-']) (h : runBackendL sys b f s.syms a = some r) :
    ∃ m, ModuleOf sys b a s m ∧ Wrote sys b f m r.1 r.2 := by
  unfold runBackendL at h
  split at h
  · cases h
  · rename_i main hmain
    split at h
    · cases h
    · rename_i m hm
      exact ⟨m, ⟨main, hmain, hm⟩, writeL_wrote hf hsk h⟩

end Skull
