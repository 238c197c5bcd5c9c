import Verif.Proofs.Told
import Verif.Proofs.TokenMain
import Verif.Props.Parser
import Verif.Props.Driver
/-
C29, the check's share: a refused program gets a diagnostic.  C66: a run that fails says so.
-/
namespace Skull
open Spec

/-- The check's share of C29. -/
def C29_check_full : Prop :=
  ∀ (cfg : Cfg) (t : Tree) (s : SS), Parsed t → semantic cfg t = .fail s → s.diags ≠ []

/-- The check refuses this source without a word. -/
def mutelyRefused (src : String) : Bool := refusals src = some []

theorem mutely_refused {src : String} (h : mutelyRefused src = true) :
    ∃ s, Parsed (parsed src) ∧ semantic sampleCfg (parsed src) = .fail s ∧ s.diags = [] := by
  have h := of_decide_eq_true h
  unfold refusals at h
  unfold parsed Parsed
  split at h
  · rename_i t s ht
    cases hs : semantic sampleCfg t with
    | fail s' =>
      rw [hs] at h
      simp only [Option.some.injEq, List.map_eq_nil_iff] at h
      exact ⟨s', ⟨_, _, ht⟩, rfl, h⟩
    | ok a s' => rw [hs] at h; simp at h
    | ub => rw [hs] at h; simp at h
  · simp at h

/-- It is false: a second namespace of the same name is refused without a diagnostic. -/
theorem C29_check_false : ¬ C29_check_full := by
  intro h
  obtain ⟨s, hp, hs, hd⟩ := mutely_refused (src := "namespace a {\nx := 1\n}\nnamespace a {\ny := 1\n}\n") (by decide +kernel)
  exact h _ _ s hp hs hd

/-- Whenever the check refuses a program it has emitted a diagnostic, unless a name with a dot is declared, a name is given to two
namespaces, or a name is declared again after a definition with a type, or an exported one, whose value could be a type.  (Missing:
such programs, some of which are refused without a diagnostic.) -/
theorem C29_check_partial (cfg : Cfg) (t : Tree) (s : SS) (hp : Parsed t) (h : semantic cfg t = .fail s) :
    s.diags ≠ [] ∨ Redeclares (statements t) := by
  obtain ⟨toks, p, ht⟩ := hp
  exact check_told (parsed_placed ht) h

example : mutelyRefused "namespace a {\nx := 1\n}\nnamespace a {\ny := 1\n}\n" = true := by decide +kernel
example : mutelyRefused "X: Int = Bool\nX: Int = Bool\n" = true := by decide +kernel
example : mutelyRefused "namespace a {\nnamespace b {\nx := 1\n}\n}\nnamespace a.b {\nx := 1\n}\n" = true := by decide +kernel
example : refusals "x := 1\nx := 2\n" = some [.errVarAlreadyDefined] := by decide +kernel

/-! ### C66 -/

/-- Something was said: a message, diagnostics, or the output of a command. -/
def Spec.Said (acts : List Act) : Prop := ∃ x ∈ acts, x = .say ∨ (∃ ds, ds ≠ [] ∧ x = .diags ds) ∨ ∃ cmd, x = .shell cmd

/-- What is wanted: a run that fails says something, unless it was told to be quiet. -/
def C66_full : Prop :=
  ∀ (sys : Sys) (args : List (List Char)) (code : Nat) (acts : List Act), skull sys args = some (code, acts) → code ≠ 0 →
    Said acts ∨ ∃ b, cliMain sys.colorEnv args = .run b ∧ b.quiet = true

/-- It is false: of a program with two namespaces of the same name nothing is said. -/
theorem C66_false : ¬ C66_full := by
  intro h
  obtain ⟨acts, h1, h2⟩ := ranWith_true (sys := world "namespace a {\nx := 1\n}\nnamespace a {\ny := 1\n}\n") (l := ["a.sk"]) (code := 1)
    (p := fun acts => acts.isEmpty) (by decide +kernel)
  rcases h _ _ _ _ h1 (by decide) with ⟨x, hx, _⟩ | ⟨b, hb, hq⟩
  · cases acts with
    | nil => cases hx
    | cons => cases h2
  · have : (match cliMain none (argv ["a.sk"]) with | .run b => b.quiet | _ => false) = false := by decide +kernel
    have hb' : cliMain none (argv ["a.sk"]) = .run b := hb
    rw [hb'] at this
    simp only at this
    rw [hq] at this
    cases this

/-- The two kinds of sources that can be refused without a word. -/
def Spec.Wordless (werror : Bool) (file : List UInt8) : Prop :=
  (∃ src toks toks' t, sourceText file = some src ∧ tokenize werror src = some (.ok toks) ∧ classifyTokens toks = some toks' ∧
    toks'.getLast? = some t ∧ (t.ty = .kwIf ∨ t.ty = .kwElif ∨ t.ty = .kwWhile ∨ t.ty = .kwNamespace)) ∨
  ∃ t, ProgramIn werror file t ∧ Redeclares (statements t)

theorem said_say : Said [.say] := ⟨_, List.mem_singleton.2 rfl, .inl rfl⟩

theorem said_flush {b : BuildData} {ds : List Code} (h : ds ≠ []) : Said (flush b ds) ∨ b.quiet = true := by
  unfold flush
  cases hq : b.quiet with
  | true => exact .inr rfl
  | false =>
    cases ds with
    | nil => exact absurd rfl h
    | cons d ds => exact .inl ⟨_, List.mem_singleton.2 rfl, .inr (.inl ⟨d :: ds, by simp, rfl⟩)⟩

theorem said_left {l r : List Act} (h : Said l) : Said (l ++ r) := by
  obtain ⟨x, hx, h⟩ := h; exact ⟨x, List.mem_append_left _ hx, h⟩
theorem said_right {l r : List Act} (h : Said r) : Said (l ++ r) := by
  obtain ⟨x, hx, h⟩ := h; exact ⟨x, List.mem_append_right _ hx, h⟩

theorem tokenizeLoop_noBom {fuel ctx l k} : tokenizeLoop fuel ctx ≠ some (.err .bom l k) := by
  induction fuel generalizing ctx with
  | zero => intro h; cases h
  | succ n ih =>
    intro h
    unfold tokenizeLoop at h
    split at h
    · cases h
    · split at h
      · exact ih h
      · rename_i e l' k' hi
        cases h
        simp only [tokenizeInnerLoop, iterComment, iterQuote, innerStep] at hi
        repeat' split at hi
        all_goals (try cases hi)
        all_goals
          rename_i hi
          repeat' split at hi
          all_goals cases hi
      · cases h

/-- The tokenizer fails on a byte order mark only where there is one. -/
theorem tokenize_bom {w src l k} (h : tokenize w src = some (.err .bom l k)) : src.head? = some bomChar := by
  rw [tokenize_eq] at h
  split at h
  · rename_i hb; exact hb.2
  · unfold tokenizeFrom at h
    split at h
    · cases h
    · cases h
    · rename_i e l' k' ht
      injection h with h; injection h with h1 h2 h3
      subst h1
      exact absurd ht tokenizeLoop_noBom
    · cases h

theorem writeL_said {sys b f m r} (h : writeL sys b f m = some r) (he : r.1 = true) : Said r.2 := by
  unfold writeL at h
  split at h
  · cases h
  · cases h; exact said_say
  · split at h
    · cases h; exact said_say
    · split at h
      · rename_i err acts ho
        cases h
        rw [(optimizeL_done ho).2]
        exact said_say
      · split at h
        · cases h
        · rename_i err acts hs
          cases h
          unfold emitStage1 at hs
          split at hs
          · simp only [Option.map_eq_some_iff] at hs
            obtain ⟨q, hq, hr⟩ := hs
            injection hr with h1 h2
            subst h1; subst h2
            unfold outputIR at hq
            split at hq
            · cases hq; cases he
            · split at hq
              · cases hq
              · split at hq
                · cases hq; cases he
                · split at hq
                  · cases hq; cases he
                  · cases hq; exact said_say
          · split at hs
            · cases hs; exact said_say
            · split at hs
              · cases hs
              · split at hs
                · cases hs; exact said_say
                · split at hs
                  · cases hs; exact said_say
                  · split at hs
                    · cases hs; cases he
                    · cases hs
        · rename_i out acts hs
          simp only [Option.map_eq_some_iff] at h
          obtain ⟨q, hq, hr⟩ := h
          subst hr
          refine said_right ?_
          unfold emitNative at hq
          split at hq
          · cases hq
          · split at hq
            · cases hq; exact said_say
            · cases hq
              exact ⟨_, List.mem_cons_self .., .inr (.inr ⟨_, rfl⟩)⟩

theorem backend_said {sys b f a s r} (h : backend sys b f a s = some r) (he : r.1 = true) : Said r.2 := by
  unfold backend at h
  split at h
  · exfalso
    unfold runBackendC at h
    simp only at h
    split at h
    · unfold writeFileC at h
      split at h
      · cases h
      · split at h
        · cases h; cases he
        · split at h
          · cases h; cases he
          · cases h
    · cases h
  · unfold runBackendL at h
    split at h
    · cases h
    · split at h
      · cases h
      · exact writeL_said h he

theorem compile_said {sys b f r} (h : compileFile sys b f = some r) (he : r.1 = true) :
    Said r.2 ∨ b.quiet = true ∨ ∃ file, sys.read f = some file ∧ Wordless b.werror file := by
  unfold compileFile at h
  split at h
  · cases h; exact .inl said_say
  · split at h
    · cases h; exact .inl said_say
    · rename_i file hr
      split at h
      · cases h
        exact (said_flush (by simp)).imp id .inl
      · rename_i bytes hb
        unfold runPipeline at h
        split at h
        · cases h
          exact (said_flush (by simp)).imp id .inl
        · rename_i src hsrc
          have hst : sourceText file = some src := by unfold sourceText; rw [hb]; exact hsrc
          split at h
          · cases h
          · cases h
          · rename_i e _ _ ht
            cases h
            refine (said_flush ?_).imp id .inl
            by_cases hbom : e = .bom
            · subst hbom
              simp [bomDiags, tokenize_bom ht]
            · simp [hbom]
          · rename_i toks ht
            split at h
            · cases h
            · rename_i toks' hc
              split at h
              · cases h
              · cases h
              · rename_i s hps
                cases h
                rcases C29_parser_partial _ _ hps with hd | ⟨t, h1, h2⟩
                · refine (said_flush ?_).imp id .inl
                  simp [hd]
                · exact .inr (.inr ⟨file, hr, .inl ⟨src, toks, toks', t, hst, ht, hc, h1, h2⟩⟩)
              · cases h
                exact (said_flush (by simp)).imp id .inl
              · rename_i t s _ hps
                have hpi : ProgramIn b.werror file t := ⟨src, toks, toks', s, hst, ht, hc, hps⟩
                unfold checkAndGenerate at h
                split at h
                · cases h
                · rename_i s' hs
                  cases h
                  rcases C29_check_partial _ _ _ ⟨_, _, hps⟩ hs with hd | hd
                  · refine (said_flush ?_).imp id .inl
                    simp [hd]
                  · exact .inr (.inr ⟨file, hr, .inr ⟨t, hpi, hd⟩⟩)
                · rename_i a s' hs
                  simp only [Option.map_eq_some_iff] at h
                  obtain ⟨r', h1, h2⟩ := h
                  subst h2
                  exact .inl (said_left (backend_said (sys := sys) (b := b) (f := f) (a := a) (s := s') h1 he))

/-- C66: a run that fails says something, unless it was told to be quiet, or the file that it read ends in `if`, `elif`, `while` or
`namespace`, or declares names in the ways of `Redeclares`.  (Missing: such files, some of which are refused without a word.) -/
theorem C66_partial (sys : Sys) (args : List (List Char)) (code : Nat) (acts : List Act) (h : skull sys args = some (code, acts))
    (hc : code ≠ 0) :
    Said acts ∨ ∃ b, cliMain sys.colorEnv args = .run b ∧
      (b.quiet = true ∨ ∃ f file, b.filename = some f ∧ sys.read f = some file ∧ Wordless b.werror file) := by
  unfold skull at h
  split at h
  · cases h
  · cases h; exact .inl said_say
  · rename_i b hb
    obtain ⟨f, _, _, hf, _⟩ := C20_settings_partial _ _ _ hb
    simp only [Option.map_eq_some_iff] at h
    obtain ⟨r, h1, h2⟩ := h
    rw [hf] at h1
    cases h2
    have he : r.1 = true := by
      cases hr : r.1 with
      | true => rfl
      | false => rw [hr] at hc; exact absurd rfl hc
    rcases compile_said h1 he with h | h | ⟨file, h2, h3⟩
    · exact .inl h
    · exact .inr ⟨b, hb, .inl h⟩
    · exact .inr ⟨b, hb, .inr ⟨f, file, hf, h2, h3⟩⟩

example : ranWith (world "x: Int = 1.0\n") ["a.sk"] 1 (fun acts => acts.any fun | .diags ds => !ds.isEmpty | _ => false) = true := by
  decide +kernel
example : ranWith (world "x: Int = 1.0\n") ["-q", "a.sk"] 1 List.isEmpty = true := by decide +kernel
example : ranWith (world "if") ["a.sk"] 1 List.isEmpty = true := by decide +kernel
example : ranWith (world "return 0\n") ["b.sk"] 1 (fun acts => !acts.isEmpty) = true := by decide +kernel

end Skull
