import Verif.Proofs.Cli
/-
C20, C22 and C23: the command line.

A command line is a list of complete items and an ending (Spec/Options); `C22_every_command_line` says that every argument
vector is one. Arguments are C strings, so they have no NUL, and the joined extra arguments fit the address space.
-/
namespace Skull
open Spec

/-- The items and the ending are what the constructors say, and the arguments are C strings. -/
structure CommandLine (opts : List Opt) (tail : Tail) : Prop where
  wf : ∀ o ∈ opts, o.WF
  nul : ∀ a ∈ render opts tail, NulFree a
  size : ∀ a as, tail = .extra a as → (joinSpaces a as).length + 1 < 2 ^ 64

/-- No item asks for the help text or the version. -/
def NoInfo (opts : List Opt) : Prop := ∀ s, Opt.info s ∉ opts

/-- Exactly the named settings. -/
def settings (colorEnv : Option (List Char)) (opts : List Opt) (tail : Tail) : BuildData :=
  { filename := (files opts).getLast?
    outFile := (outs opts).getLast?
    extraArgs := match tail with
      | .extra a as => some (joinSpaces a as)
      | _ => none
    quiet := (flags opts).contains .quiet
    cBackend := (flags opts).contains .cBackend
    asmBackend := (flags opts).contains .assembly
    debug := (flags opts).contains .debug
    preprocess := (flags opts).contains .preprocess
    compileOnly := (flags opts).contains .compileOnly
    werror := (flags opts).contains .werror
    optimize1 := (flags opts).contains .o1
    optimize2 := (flags opts).contains .o2
    optimize3 := (flags opts).contains .o3
    llvmNoVerify := (flags opts).contains .noVerify
    color := (flags opts).contains .color || (colorEnv.bind List.head? == some '1') }

/-- C22: every argument vector is a list of complete items with an ending. -/
theorem C22_every_command_line (argv : List (List Char)) :
    ∃ opts tail, argv = render opts tail ∧ ∀ o ∈ opts, o.WF := exists_items argv

theorem handle_cases (env : Option (List Char)) (opts : List Opt) (tail : Tail) (h : CommandLine opts tail) :
    handleArgs env (render opts tail) (handleEnv env) =
      match runOpts env (handleEnv env) opts with
      | .error n => .exit n
      | .ok b => handleArgs env tail.args b :=
  handleArgs_opts env _ opts tail.args h.wf
    (fun a ha => h.nul a (by simp only [render, List.mem_append]; exact Or.inl ha))

theorem cliMain_handle (env : Option (List Char)) (args : List (List Char)) (hne : args ≠ []) :
    cliMain env args =
      match handleArgs env args (handleEnv env) with
      | .run b => checkSettings b
      | r => r := by
  cases args with
  | nil => exact absurd rfl hne
  | cons a as => rfl

/-- What the ending does to the settings. -/
def tailResult (b : BuildData) : Tail → Cli
  | .none => .run b
  | .extra a as => .run { b with extraArgs := some (joinSpaces a as) }
  | _ => .exit 1

theorem tail_step (env : Option (List Char)) (b : BuildData) (opts : List Opt) (tail : Tail) (h : CommandLine opts tail) :
    handleArgs env tail.args b = tailResult b tail := by
  rw [handle_tail env b tail (fun a ha => h.nul a (by simp only [render, List.mem_append]; exact Or.inr ha)) h.size]
  cases tail <;> rfl

theorem env_color (env : Option (List Char)) (opts : List Opt) (tail : Tail) :
    (match tail with
      | .none => applied (handleEnv env) opts
      | .extra a as => { applied (handleEnv env) opts with extraArgs := some (joinSpaces a as) }
      | _ => applied (handleEnv env) opts) = settings env opts tail := by
  have hc : (handleEnv env).color = (env.bind List.head? == some '1') := by
    cases env with
    | none => rfl
    | some v =>
      cases v with
      | nil => decide
      | cons c v =>
        simp only [handleEnv, charAt, List.getD_cons_zero, Option.bind_some, List.head?_cons]
        by_cases hc : c = '1' <;> simp [hc]
  cases tail <;>
    (simp only [applied, settings, hc]; simp [handleEnv])

theorem valid_iff (env : Option (List Char)) (opts : List Opt) (e : Option (List Char)) :
    buildDataValid { applied (handleEnv env) opts with extraArgs := e } = true ↔
      ¬ ∃ p ∈ conflicting, p.1 ∈ flags opts ∧ p.2 ∈ flags opts := by
  rw [buildDataValid_iff]
  have hg : ∀ f, f ≠ .color → (getFlag { applied (handleEnv env) opts with extraArgs := e } f = true ↔ f ∈ flags opts) := by
    intro f hf
    have h1 : getFlag { applied (handleEnv env) opts with extraArgs := e } f = getFlag (applied (handleEnv env) opts) f := by
      cases f <;> rfl
    have h2 : getFlag (handleEnv env) f = false := by cases f <;> simp [getFlag, handleEnv] at hf ⊢
    rw [h1, getFlag_applied, h2]
    simp
  have hn : ∀ p ∈ conflicting, p.1 ≠ .color ∧ p.2 ≠ .color := by decide
  constructor <;> intro h <;> rintro ⟨p, hp, h1, h2⟩
  · exact h ⟨p, hp, (hg _ (hn p hp).1).2 h1, (hg _ (hn p hp).2).2 h2⟩
  · exact h ⟨p, hp, (hg _ (hn p hp).1).1 h1, (hg _ (hn p hp).2).1 h2⟩

/-- C22: a command line that repeats a flag or -o, combines contradictory flags, has an unknown or incomplete option, or
overrides COLOR is refused. -/
theorem C22_refused (env : Option (List Char)) (opts : List Opt) (tail : Tail) (h : CommandLine opts tail) (hi : NoInfo opts)
    (hr : Refused env opts tail) (hne : render opts tail ≠ []) : cliMain env (render opts tail) = .exit 1 := by
  rw [cliMain_handle _ _ hne, handle_cases env opts tail h]
  obtain ⟨r1, r2⟩ := runOpts_eq env (handleEnv env) opts hi
  by_cases hb : BadFrom env (handleEnv env) opts
  · rw [r1 hb]
  · rw [r2 hb]
    simp only []
    rw [tail_step env _ opts tail h]
    have hb' := fun x => hb ((badFrom_env env opts).2 x)
    have hc : (tail = .missingOut ∨ tail = .missingExtra) ∨ ∃ p ∈ conflicting, p.1 ∈ flags opts ∧ p.2 ∈ flags opts := by
      rcases hr with h | h | h | h | h | h | h
      · exact absurd (Or.inl h) hb'
      · exact Or.inl (Or.inl h)
      · exact Or.inl (Or.inr h)
      · exact absurd (Or.inr (Or.inl h)) hb'
      · exact absurd (Or.inr (Or.inr (Or.inl h))) hb'
      · exact Or.inr h
      · exact absurd (Or.inr (Or.inr (Or.inr h))) hb'
    rcases hc with (rfl | rfl) | hc
    · rfl
    · rfl
    · have hv : ∀ e, buildDataValid { applied (handleEnv env) opts with extraArgs := e } = false := by
        intro e
        rw [Bool.eq_false_iff]
        exact fun hh => (valid_iff env opts e).1 hh hc
      have hx : ∀ e, checkSettings { applied (handleEnv env) opts with extraArgs := e } = .exit 1 := by
        intro e
        unfold checkSettings
        rw [hv e]
        rfl
      cases tail with
      | none => exact hx none
      | extra a as => exact hx (some (joinSpaces a as))
      | missingOut => rfl
      | missingExtra => rfl

theorem accepted_core (env : Option (List Char)) (opts : List Opt) (tail : Tail) (h : CommandLine opts tail) (hi : NoInfo opts)
    (hr : ¬ Refused env opts tail) (hne : render opts tail ≠ []) :
    cliMain env (render opts tail) =
      match (files opts).getLast? with
      | none => .exit 1
      | some f => if (strrstr f ".sk".toList).isNone then .exit 1 else .run (settings env opts tail) := by
  rw [cliMain_handle _ _ hne, handle_cases env opts tail h]
  obtain ⟨r1, r2⟩ := runOpts_eq env (handleEnv env) opts hi
  simp only [Refused, not_or] at hr
  obtain ⟨q1, q2, q3, q4, q5, q6, q7⟩ := hr
  have hb : ¬ BadFrom env (handleEnv env) opts := by
    rw [badFrom_env]
    rintro (h | h | h | h)
    · exact q1 h
    · exact q4 h
    · exact q5 h
    · exact q7 h
  rw [r2 hb]
  simp only []
  rw [tail_step env _ opts tail h]
  have hs := env_color env opts tail
  have hset : ∀ b, b = settings env opts tail → buildDataValid b = true →
      checkSettings b = match (files opts).getLast? with
        | none => .exit 1
        | some f => if (strrstr f ".sk".toList).isNone then .exit 1 else .run (settings env opts tail) := by
    rintro b rfl hv
    unfold checkSettings
    rw [hv]
    rfl
  cases tail with
  | missingOut => exact absurd rfl q2
  | missingExtra => exact absurd rfl q3
  | none => exact hset _ hs ((valid_iff env opts none).2 q6)
  | extra a as => exact hset _ hs ((valid_iff env opts _).2 q6)

/-- C22: every other command line that names a source path with the extension goes on with exactly the named settings. -/
theorem C22_accepted (env : Option (List Char)) (opts : List Opt) (tail : Tail) (h : CommandLine opts tail) (hi : NoInfo opts)
    (hr : ¬ Refused env opts tail) (f : List Char) (hf : (files opts).getLast? = some f)
    (hx : ∃ a c, f = a ++ ".sk".toList ++ c) :
    cliMain env (render opts tail) = .run (settings env opts tail) := by
  have hne : render opts tail ≠ [] := by
    intro he
    cases opts with
    | nil => simp [files] at hf
    | cons o os => cases o <;> simp [render, Opt.args] at he
  rw [accepted_core env opts tail h hi hr hne, hf]
  simp only []
  rw [if_neg]
  have := (strrstr_isSome f ".sk".toList).2 hx
  cases hs : strrstr f ".sk".toList with
  | none => rw [hs] at this; simp at this
  | some i => simp

/-- C22: without a source path, or with one that lacks the extension, nothing is compiled. -/
theorem C22_no_source (env : Option (List Char)) (opts : List Opt) (tail : Tail) (h : CommandLine opts tail) (hi : NoInfo opts)
    (hne : render opts tail ≠ []) (hf : ∀ f, (files opts).getLast? = some f → ¬ ∃ a c, f = a ++ ".sk".toList ++ c) :
    cliMain env (render opts tail) = .exit 1 := by
  by_cases hr : Refused env opts tail
  · exact C22_refused env opts tail h hi hr hne
  · rw [accepted_core env opts tail h hi hr hne]
    cases hfl : (files opts).getLast? with
    | none => rfl
    | some f =>
      simp only []
      rw [if_pos]
      have := mt (strrstr_isSome f ".sk".toList).1 (hf f hfl)
      cases hs : strrstr f ".sk".toList with
      | none => rfl
      | some i => rw [hs] at this; simp at this

/-- C22: asking for help or the version never compiles anything. -/
theorem C22_info (env : Option (List Char)) (opts : List Opt) (tail : Tail) (h : CommandLine opts tail) (s : List Char)
    (hi : Opt.info s ∈ opts) : ∃ n, cliMain env (render opts tail) = .exit n := by
  have hne : render opts tail ≠ [] := by
    intro he
    cases opts with
    | nil => simp at hi
    | cons o os => cases o <;> simp [render, Opt.args] at he
  obtain ⟨n, hn⟩ := runOpts_info env (handleEnv env) opts s hi
  refine ⟨n, ?_⟩
  rw [cliMain_handle _ _ hne, render, handleArgs_opts env _ opts tail.args h.wf
    (fun a ha => h.nul a (by simp only [render, List.mem_append]; exact Or.inl ha)), hn]

theorem witness_line : CommandLine [.flag .quiet [], .out "x".toList, .file "a.sk".toList] (.extra "-lm".toList ["-lc".toList]) :=
  ⟨by simp [Opt.WF], by unfold NulFree; decide, by intro a as h; cases h; decide⟩

example : NoInfo [.flag .quiet [], .out "x".toList, .file "a.sk".toList] ∧
    ¬ Refused none [.flag .quiet [], .out "x".toList, .file "a.sk".toList] (.extra "-lm".toList ["-lc".toList]) := by
  refine ⟨by simp [NoInfo], ?_⟩
  have hf : flags [.flag .quiet [], .out "x".toList, .file "a.sk".toList] = [.quiet] := rfl
  have ho : outs [.flag .quiet [], .out "x".toList, .file "a.sk".toList] = ["x".toList] := rfl
  unfold Refused
  rw [hf, ho]
  simp [conflicting]

example : cliMain none ["-q".toList, "-o".toList, "x".toList, "a.sk".toList, "--".toList, "-lm".toList, "-lc".toList] =
    .run { filename := some "a.sk".toList, outFile := some "x".toList, extraArgs := some "-lm -lc".toList, quiet := true } := by
  decide +kernel

example : cliMain none ["-O1".toList, "a.sk".toList, "-O2".toList] = .exit 1 := by decide +kernel

/-! ### Order -/

theorem refused_perm (env : Option (List Char)) (tail : Tail) {o₁ o₂ : List Opt} (hp : o₁.Perm o₂) :
    Refused env o₁ tail ↔ Refused env o₂ tail := by
  have hf : (flags o₁).Perm (flags o₂) := hp.filterMap _
  have ho : (outs o₁).Perm (outs o₂) := hp.filterMap _
  have hu : (∃ a, Opt.unknown a ∈ o₁) ↔ ∃ a, Opt.unknown a ∈ o₂ := by simp [hp.mem_iff]
  unfold Refused
  rw [hu, hf.nodup_iff, ho.length_eq]
  simp only [hf.mem_iff]

theorem single_perm {l₁ l₂ : List (List Char)} (hp : l₁.Perm l₂) (h : ¬ l₁.length > 1) : l₁ = l₂ := by
  have hl := hp.length_eq
  match l₁, l₂ with
  | [], [] => rfl
  | [], _ :: _ => simp at hl
  | _ :: _, [] => simp at hl
  | [a], [b] =>
    have := hp.mem_iff (a := a)
    simp at this
    simp [this]
  | _ :: _ :: _, _ => simp at h
  | [_], _ :: _ :: _ => simp at hl

theorem settings_perm (env : Option (List Char)) (tail : Tail) {o₁ o₂ : List Opt} (hp : o₁.Perm o₂)
    (hfiles : files o₁ = files o₂) (hr : ¬ Refused env o₁ tail) : settings env o₁ tail = settings env o₂ tail := by
  have hf : (flags o₁).Perm (flags o₂) := hp.filterMap _
  have ho : outs o₁ = outs o₂ := by
    apply single_perm (hp.filterMap _)
    simp only [Refused, not_or] at hr
    exact hr.2.2.2.2.1
  have hc : ∀ f, (flags o₁).contains f = (flags o₂).contains f := by
    intro f
    rw [Bool.eq_iff_iff]
    simp [hf.mem_iff]
  simp only [settings, hfiles, ho, hc]

/-- C23: permuting the options, each with its argument, changes neither the result nor the settings.
The source paths stay in order, since the last one is compiled. -/
theorem C23_order (env : Option (List Char)) (tail : Tail) (o₁ o₂ : List Opt) (hp : o₁.Perm o₂) (hfiles : files o₁ = files o₂)
    (h₁ : CommandLine o₁ tail) (h₂ : CommandLine o₂ tail) (hi : NoInfo o₁) :
    cliMain env (render o₁ tail) = cliMain env (render o₂ tail) := by
  have hi2 : NoInfo o₂ := fun s h => hi s (hp.mem_iff.2 h)
  have hlen : (render o₁ tail).length = (render o₂ tail).length := by
    simp only [render, List.length_append]
    rw [(hp.flatMap_right Opt.args).length_eq]
  by_cases hne : render o₁ tail = []
  · have : render o₂ tail = [] := List.eq_nil_of_length_eq_zero (by rw [← hlen, hne]; rfl)
    rw [hne, this]
  have hne2 : render o₂ tail ≠ [] := by
    intro h
    exact hne (List.eq_nil_of_length_eq_zero (by rw [hlen, h]; rfl))
  by_cases hr : Refused env o₁ tail
  · rw [C22_refused env o₁ tail h₁ hi hr hne, C22_refused env o₂ tail h₂ hi2 ((refused_perm env tail hp).1 hr) hne2]
  · have hr2 : ¬ Refused env o₂ tail := fun h => hr ((refused_perm env tail hp).2 h)
    rw [accepted_core env o₁ tail h₁ hi hr hne, accepted_core env o₂ tail h₂ hi2 hr2 hne2, hfiles,
      settings_perm env tail hp hfiles hr]

/-- C23: when help or the version is asked for too, the exit code can depend on the order, but no order compiles anything. -/
theorem C23_order_info (env : Option (List Char)) (tail : Tail) (o₁ o₂ : List Opt) (hp : o₁.Perm o₂)
    (h₁ : CommandLine o₁ tail) (h₂ : CommandLine o₂ tail) (hi : ¬ NoInfo o₁) :
    (∃ n, cliMain env (render o₁ tail) = .exit n) ∧ ∃ n, cliMain env (render o₂ tail) = .exit n := by
  have : ∃ s, Opt.info s ∈ o₁ := Classical.not_forall_not.1 hi
  obtain ⟨s, hs⟩ := this
  exact ⟨C22_info env o₁ tail h₁ s hs, C22_info env o₂ tail h₂ s (hp.mem_iff.1 hs)⟩

example : cliMain none ["-h".toList, "--nope".toList] = .exit 0 ∧ cliMain none ["--nope".toList, "-h".toList] = .exit 1 := by
  decide +kernel

example : cliMain none ["a.sk".toList, "-g".toList, "-o".toList, "x".toList] =
    cliMain none ["-o".toList, "x".toList, "a.sk".toList, "-g".toList] ∧
    cliMain none ["a.sk".toList, "-g".toList, "-o".toList, "x".toList] =
      .run { filename := some "a.sk".toList, outFile := some "x".toList, debug := true } := by decide +kernel

/-! ### The extension -/

/-- C20 as stated: whatever is compiled ends in .sk. -/
def C20_full : Prop :=
  ∀ env args b, cliMain env args = .run b → ∀ f, b.filename = some f → compilesPath f = true →
    ∃ m, f = m ++ ".sk".toList

/-- C20 is false: a path that only contains .sk is compiled. -/
theorem C20_false : ¬ C20_full := by
  intro h
  have h1 : cliMain none ["a.sk.txt".toList] = .run { filename := some "a.sk.txt".toList } := by decide +kernel
  obtain ⟨m, hm⟩ := h _ _ _ h1 _ rfl (by decide +kernel)
  have := congrArg List.getLast? hm
  rw [List.getLast?_append, show ".sk".toList.getLast? = some 'k' by decide] at this
  exact absurd this (by simp)

/-- C20: what holds instead. A path is compiled exactly when .sk occurs in it after at least one character and no component of
it starts with .sk.
Missing for the full claim: nothing looks at where the .sk is. -/
theorem C20_extension_partial (f : List Char) :
    compilesPath f = true ↔
      (∃ a c, f = a ++ ".sk".toList ++ c ∧ a ≠ []) ∧ ¬ ∃ a c, f = a ++ "/.sk".toList ++ c := by
  unfold compilesPath
  rw [← strrstr_ne_zero, ← strrstr_isSome f "/.sk".toList]
  cases h1 : strrstr f ".sk".toList <;> cases h2 : strrstr f "/.sk".toList <;> simp

/-- C20: the settings that reach the compiler name a path that contains .sk, for every argument vector. -/
theorem C20_settings_partial (env : Option (List Char)) (args : List (List Char)) (b : BuildData)
    (h : cliMain env args = .run b) : ∃ f a c, b.filename = some f ∧ f = a ++ ".sk".toList ++ c := by
  unfold cliMain at h
  split at h
  · simp at h
  · split at h
    · unfold checkSettings at h
      split at h
      · simp at h
      · split at h
        · simp at h
        · rename_i f hf
          split at h
          · simp at h
          · rename_i hs
            cases h
            have : (strrstr f ".sk".toList).isSome = true := by
              cases hh : strrstr f ".sk".toList with
              | none => rw [hh] at hs; simp at hs
              | some i => rfl
            obtain ⟨a, c, e⟩ := (strrstr_isSome f _).1 this
            exact ⟨f, a, c, hf, e⟩
    · rename_i r hr
      exact absurd h (hr b)

/-- C20: an ordinary path that ends in .sk is compiled. -/
theorem C20_accepts (m : List Char) (hm : m ≠ []) (hs : ¬ ∃ a c, m ++ ".sk".toList = a ++ "/.sk".toList ++ c) :
    compilesPath (m ++ ".sk".toList) = true :=
  (C20_extension_partial _).2 ⟨⟨m, [], by simp, hm⟩, hs⟩

example : compilesPath "dir/a.sk".toList = true ∧ compilesPath ".sk".toList = false ∧ compilesPath "d/.sk".toList = false := by
  decide +kernel

end Skull
