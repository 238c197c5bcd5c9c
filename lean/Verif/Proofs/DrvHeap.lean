import Verif.Model.DrvHeap
import Verif.Spec.DrvHeap
import Verif.Proofs.ContHeap
/-
The driver with its memory does what the driver does, and no block is used or freed that is not there (C92).
-/
namespace Skull.DrvHeap
open Skull Skull.Spec
open Skull.ContHeap (M alloc use free ofOption Holds Does use_d free_d alloc_d Same.rfl')
open Skull.CHeap (Same)

/-- `f` gives `o`, as far as `g` can see, and turns the blocks `pre` into `post`. -/
def Runs (f : M α) (o : Option β) (g : α → β) (Q : α → Prop) (pre : List Nat) (post : α → List Nat) : Prop :=
  ∀ h L, Holds h (L ++ pre) →
    match o with
    | none => f h = none
    | some b => ∃ a h', f h = some (a, h') ∧ g a = b ∧ Q a ∧ Holds h' (L ++ post a)

variable {α β γ δ : Type} {g : α → β} {Q : α → Prop} {pre : List Nat} {post : α → List Nat} {o : Option β}

theorem Runs.pure {a : α} {b : β} (hg : g a = b) (hq : Q a) (e : Same pre (post a)) : Runs (Pure.pure a : M α) (some b) g Q pre post :=
  fun h _ hh => ⟨a, h, rfl, hg, hq, hh.cast fun x => by have := e x; simp only [List.count_append]; omega⟩

theorem Runs.ub : Runs (fun _ => none : M α) (none : Option β) g Q pre post := fun _ _ _ => rfl

theorem Runs.step {f : M γ} {k : γ → M α} {R : γ → Prop} {mid : γ → List Nat} (hf : Does f R pre mid)
    (hk : ∀ c, R c → Runs (k c) o g Q (mid c) post) : Runs (f >>= k) o g Q pre post := by
  intro h L hh
  obtain ⟨c, h', e, r, hh'⟩ := hf h L hh
  have := hk c r h' L hh'
  have e' : (f >>= k) h = k c h' := by
    show ContHeap.M.bind f k h = _
    unfold ContHeap.M.bind
    rw [e]
  rw [e']
  exact this

theorem Runs.opt {x : Option γ} {k : γ → M α} (hn : x = none → o = none) (hk : ∀ c, x = some c → Runs (k c) o g Q pre post) :
    Runs (ofOption x >>= k) o g Q pre post := by
  intro h L hh
  cases hx : x with
  | none => rw [hn hx]; rfl
  | some c => exact hk c hx h L hh

theorem Runs.bind {f : M γ} {k : γ → M α} {o' : Option δ} {g' : γ → δ} {R : γ → Prop} {mid : γ → List Nat} (hf : Runs f o' g' R pre mid)
    (hn : o' = none → o = none) (hk : ∀ c, o' = some (g' c) → R c → Runs (k c) o g Q (mid c) post) : Runs (f >>= k) o g Q pre post := by
  intro h L hh
  have hf := hf h L hh
  cases ho : o' with
  | none =>
    rw [ho] at hf
    rw [hn ho]
    show ContHeap.M.bind f k h = none
    unfold ContHeap.M.bind
    rw [hf]
  | some d =>
    rw [ho] at hf
    obtain ⟨c, h', e, hg, r, hh'⟩ := hf
    have := hk c (by rw [ho, hg]) r h' L hh'
    have e' : (f >>= k) h = k c h' := by
      show ContHeap.M.bind f k h = _
      unfold ContHeap.M.bind
      rw [e]
    rw [e']
    exact this

theorem Runs.cast {f : M α} {pre' : List Nat} {post' : α → List Nat} (h : Runs f o g Q pre post) (e : Same pre' pre)
    (e' : ∀ a, Q a → Same (post a) (post' a)) : Runs f o g Q pre' post' := by
  intro m L hh
  have := h m L (hh.cast fun b => by have := e b; simp only [List.count_append]; omega)
  cases o with
  | none => exact this
  | some b =>
    obtain ⟨a, m', h1, h2, h3, h4⟩ := this
    exact ⟨a, m', h1, h2, h3, h4.cast fun b => by have := e' a h3 b; simp only [List.count_append]; omega⟩

theorem Runs.mono {f : M α} {Q' : α → Prop} (h : Runs f o g Q pre post) (hq : ∀ a, Q a → Q' a) : Runs f o g Q' pre post := by
  intro m L hh
  have := h m L hh
  cases o with
  | none => exact this
  | some b =>
    obtain ⟨a, m', h1, h2, h3, h4⟩ := this
    exact ⟨a, m', h1, h2, hq a h3, h4⟩

theorem freeOpt_d (x : Option Nat) (F : List Nat) : Does (freeOpt x) (fun _ => True) (x.toList ++ F) (fun _ => F) := by
  cases x with
  | none => exact .pure trivial (Same.rfl' _)
  | some b => exact free_d (Same.rfl' _)

theorem useOpt_d {x : Option Nat} {pre : List Nat} (h : ∀ b ∈ x.toList, b ∈ pre) : Does (useOpt x) (fun _ => True) pre (fun _ => pre) := by
  cases x with
  | none => exact .pure trivial (Same.rfl' _)
  | some b => exact use_d (h b (by simp))

def Ptrs.blocks (p : Ptrs) : List Nat := p.out.toList ++ p.extra.toList

/-- There is memory for what BUILD_DATA points to. -/
def Fits (b : BuildData) (p : Ptrs) : Prop := p.out.isSome = b.outFile.isSome ∧ p.extra.isSome = b.extraArgs.isSome

/- ### The command line -/

def seen : CliH → Cli
  | .exit code _ => .exit code
  | .run b _ => .run b

def CliOk : CliH → Prop
  | .exit _ left => left.blocks = []
  | .run b p => Fits b p

def cliBlocks : CliH → List Nat
  | .exit _ left => left.blocks
  | .run _ p => p.blocks

/-- What the command line leads to, undefined operations apart. -/
def defd : Cli → Option Cli
  | .ub => none
  | c => some c

abbrev RunsCli (f : M CliH) (c : Cli) (pre : List Nat) : Prop := Runs f (defd c) seen CliOk pre cliBlocks

theorem bail_r (p : Ptrs) (code : Nat) : RunsCli (bailH p code) (.exit code) p.blocks :=
  .step (freeOpt_d _ _) fun _ _ => .step ((freeOpt_d p.extra []).cast (by same) fun _ _ => Same.rfl' _) fun _ _ =>
    .pure rfl rfl (Same.rfl' _)

theorem setFlag_r {isSet : Bool} {p : Ptrs} {k : M CliH} {c : Cli} (h : isSet = false → RunsCli k c p.blocks) :
    RunsCli (setFlagH isSet p k) (setFlag isSet c) p.blocks := by
  cases isSet with
  | true => exact bail_r p 1
  | false => exact h rfl

theorem longOption_r {env : Option (List Char)} {arg : List Char} {b : BuildData} {p : Ptrs} {k : BuildData → M CliH} {k' : BuildData → Cli}
    (hf : Fits b p) (h : ∀ b, Fits b p → RunsCli (k b) (k' b) p.blocks) :
    RunsCli (parseLongOptionH env arg b p k) (parseLongOption env arg b k') p.blocks := by
  unfold parseLongOptionH parseLongOption
  repeat' split
  all_goals first
    | exact bail_r _ _
    | exact setFlag_r fun _ => h _ hf

theorem ite_r {c : Prop} [Decidable c] {f f' : M CliH} {x x' : Cli} {pre : List Nat} (h : c → RunsCli f x pre) (h' : ¬ c → RunsCli f' x' pre) :
    RunsCli (if c then f else f') (if c then x else x') pre := by
  by_cases hc : c
  · rw [if_pos hc, if_pos hc]
    exact h hc
  · rw [if_neg hc, if_neg hc]
    exact h' hc

theorem outArg_r {p : Ptrs} {k : Nat → M CliH} {c : Cli} (h : ∀ o, RunsCli (k o) c { p with out := some o }.blocks) :
    RunsCli (do
      freeOpt p.out
      let o ← alloc
      k o) c p.blocks := by
  refine .step (freeOpt_d p.out p.extra.toList) fun _ _ => .step (alloc_d _) fun o _ => (h o).cast ?_ fun _ _ => Same.rfl' _
  simp only [Ptrs.blocks, Option.toList]
  same

theorem extraArg_r {b : BuildData} {p : Ptrs} {x : Option (List Char)} {s : List Char} (hf : Fits b p) (he : p.extra = none) (hs : x = some s) :
    RunsCli (do
      let s ← ofOption x
      let e ← alloc
      use e
      pure (.run { b with extraArgs := some s } { p with extra := some e })) (.run { b with extraArgs := some s }) p.blocks := by
  subst hs
  refine .opt (fun hn => by cases hn) fun s' hs' => ?_
  cases hs'
  refine .step (alloc_d _) fun e _ => .step (use_d (by simp)) fun _ _ => .pure rfl ⟨hf.1, rfl⟩ ?_
  simp only [cliBlocks, Ptrs.blocks, he, Option.toList]
  same

theorem extraArg_n {p : Ptrs} {x : Option (List Char)} {k : List Char → M CliH} (hs : x = none) : RunsCli (ofOption x >>= k) .ub p.blocks := by
  subst hs
  exact .opt (fun _ => rfl) fun s' hs' => by cases hs'

theorem args_r (env : Option (List Char)) : ∀ (n : Nat) (args : List (List Char)), args.length ≤ n → ∀ (b : BuildData) (p : Ptrs), Fits b p → p.extra = none →
    RunsCli (handleArgsH env args b p) (handleArgs env args b) p.blocks := by
  intro n
  induction n with
  | zero =>
    intro args hl b p hf _
    cases args with
    | nil => rw [handleArgsH, handleArgs]; exact .pure rfl hf (Same.rfl' _)
    | cons => simp at hl
  | succ n ih =>
    intro args hl b p hf he
    cases args with
    | nil => rw [handleArgsH, handleArgs]; exact .pure rfl hf (Same.rfl' _)
    | cons arg rest =>
      have hr : rest.length ≤ n := by simp at hl; omega
      rcases rest with _ | ⟨q, rest⟩
      · rw [handleArgsH, handleArgs]
        repeat' refine ite_r (fun _ => ?_) (fun _ => ?_)
        all_goals first
          | exact ih _ hr _ _ hf he
          | exact bail_r _ _
          | exact setFlag_r fun _ => ih _ hr _ _ hf he
          | exact setFlag_r fun _ => bail_r _ _
          | exact longOption_r hf fun b hf => ih _ hr b p hf he
      · have hr' : rest.length ≤ n := by simp at hr; omega
        rw [handleArgsH, handleArgs]
        repeat' refine ite_r (fun _ => ?_) (fun _ => ?_)
        all_goals first
          | exact ih _ hr _ _ hf he
          | exact bail_r _ _
          | exact setFlag_r fun _ => ih _ hr _ _ hf he
          | exact longOption_r hf fun b hf => ih _ hr b p hf he
          | exact outArg_r fun o => ih rest hr' _ { p with out := some o } ⟨rfl, hf.2⟩ he
          | (cases hs : squashArgv (q :: rest) with
            | none => exact extraArg_n rfl
            | some s => exact extraArg_r hf he rfl)

theorem blocks_nil {b : BuildData} {p : Ptrs} (hf : Fits b p) : p.blocks = [] ↔ ¬ HasOwn b := by
  obtain ⟨h1, h2⟩ := hf
  unfold HasOwn Ptrs.blocks
  rw [← h1, ← h2]
  cases p.out <;> cases p.extra <;> simp

/-- What is left after the checks. -/
def Checked (b : BuildData) : CliH → Prop
  | .exit _ left => left.blocks = [] ↔ ¬ (Dropped b ∧ HasOwn b)
  | .run b' p => b' = b ∧ Fits b p ∧ ¬ Dropped b

theorem check_r {b : BuildData} {p : Ptrs} (hf : Fits b p) : Runs (checkSettingsH b p) (defd (checkSettings b)) seen (Checked b) p.blocks cliBlocks := by
  unfold checkSettingsH checkSettings
  by_cases hv : buildDataValid b = true
  · rw [if_neg (by simp [hv]), if_neg (by simp [hv])]
    cases hn : b.filename with
    | none =>
      refine .pure rfl ?_ (Same.rfl' _)
      have : Dropped b := .inr hn
      simp only [Checked, this, true_and]
      exact blocks_nil hf
    | some f =>
      have hd : ¬ Dropped b := by
        rintro (h | h)
        · rw [hv] at h; cases h
        · rw [hn] at h; cases h
      dsimp only
      split
      · exact .step (freeOpt_d _ _) fun _ _ => .step ((freeOpt_d p.extra []).cast (by same) fun _ _ => Same.rfl' _) fun _ _ =>
          .pure rfl ⟨fun _ h => hd h.1, fun _ => rfl⟩ (Same.rfl' _)
      · exact .pure rfl ⟨rfl, hf, hd⟩ (Same.rfl' _)
  · rw [if_pos (by simp [hv]), if_pos (by simp [hv])]
    refine .pure rfl ?_ (Same.rfl' _)
    have : Dropped b := .inl (by simpa using hv)
    simp only [Checked, this, true_and]
    exact blocks_nil hf

/-- What is left after the command line was read. -/
def Read (env : Option (List Char)) (args : List (List Char)) : CliH → Prop
  | .exit _ left => left.blocks = [] ↔ ¬ ∃ b, handleArgs env args (handleEnv env) = .run b ∧ Dropped b ∧ HasOwn b
  | .run b p => handleArgs env args (handleEnv env) = .run b ∧ Fits b p ∧ ¬ Dropped b

theorem cli_r (env : Option (List Char)) (args : List (List Char)) : Runs (cliMainH env args) (defd (cliMain env args)) seen (Read env args) [] cliBlocks := by
  cases args with
  | nil =>
    refine .pure rfl ⟨fun _ h => ?_, fun _ => rfl⟩ (Same.rfl' _)
    obtain ⟨b, hb, _, ho⟩ := h
    rw [handleArgs] at hb
    cases hb
    rcases ho with ho | ho <;> cases ho
  | cons a args =>
    unfold cliMainH cliMain
    refine .bind (args_r env _ (a :: args) (Nat.le_refl _) (handleEnv env) {} ⟨rfl, rfl⟩ rfl) (fun hn => ?_) fun c hc hok => ?_
    · cases hh : handleArgs env (a :: args) (handleEnv env) <;> rw [hh] at hn <;> first | rfl | cases hn
    · cases hh : handleArgs env (a :: args) (handleEnv env) <;> rw [hh] at hc <;> cases c <;> simp only [defd, seen, Option.some.injEq, Cli.exit.injEq, Cli.run.injEq, reduceCtorEq] at hc
      · subst hc
        refine .pure rfl ⟨fun _ h => ?_, fun _ => hok⟩ (Same.rfl' _)
        obtain ⟨b, hb, _⟩ := h
        rw [hh] at hb
        cases hb
      · subst hc
        rename_i b p
        refine Runs.mono (check_r hok) fun r hr => ?_
        cases r with
        | exit code left =>
          simp only [Checked] at hr
          simp only [Read, hr, hh, Cli.run.injEq, exists_eq_left']
        | run b' p =>
          obtain ⟨rfl, h2, h3⟩ := hr
          exact ⟨hh, h2, h3⟩

/- ### The compilation -/

/-- What BUILD_DATA points to, as long as `extra_args` was not freed. -/
def leftBlocks (r : Left) : List Nat := r.2.1.out.toList ++ if r.2.2 then [] else r.2.1.extra.toList

theorem newName_d {b : BuildData} {p : Ptrs} {filename ext : List Char} {F : List Nat} :
    Runs (getNewFilenameH b p filename ext) (getNewFilename b.outFile b.preprocess b.cBackend filename ext) (·.1) (fun _ => True)
      (p.blocks ++ F) (fun r => r.2 :: (p.blocks ++ F)) := by
  refine .opt id fun out h => ?_
  rw [h]
  exact .step (useOpt_d fun b hb => by simp [Ptrs.blocks, hb]) fun _ _ => .step (alloc_d _) fun n _ => .step (use_d (by simp)) fun _ _ =>
    .pure rfl trivial (Same.rfl' _)

theorem writeC_eq (sys : Sys) (b : BuildData) (filename text : List Char) : writeFileC sys b filename text =
    (getNewFilename b.outFile b.preprocess b.cBackend filename ['c']).bind fun out => writeToC sys out text := by
  unfold writeFileC
  cases getNewFilename b.outFile b.preprocess b.cBackend filename ['c'] <;> rfl

theorem writeC_r {sys : Sys} {b : BuildData} {p : Ptrs} {filename text : List Char} {state : Nat} {F : List Nat} (hs : state ∈ F) :
    Runs (writeFileCH sys b p filename state text) (writeFileC sys b filename text) id (fun _ => True) (p.blocks ++ F) (fun _ => p.blocks ++ F) := by
  rw [writeC_eq]
  refine .bind newName_d (fun hn => by rw [hn]; rfl) fun c hc _ => ?_
  obtain ⟨out, n⟩ := c
  rw [hc]
  refine .step (use_d (by simp)) fun _ _ => .opt id fun r hr => ?_
  simp only [Option.bind_some, hr]
  have hm : state ∈ p.blocks ++ F := List.mem_append_right _ hs
  exact .step (free_d (Same.rfl' _)) fun _ _ => .step (use_d hm) fun _ _ => .step (alloc_d _) fun m _ => .step (use_d (by simp)) fun _ _ =>
    .step (use_d (List.mem_cons_of_mem _ hm)) fun _ _ => .step (free_d (Same.rfl' _)) fun _ _ => .pure rfl trivial (Same.rfl' _)

theorem backendC_r {sys : Sys} {b : BuildData} {p : Ptrs} {filename : List Char} {syms : List Symbol} {a : ATree} :
    Runs (runBackendCH sys b p filename syms a) (runBackendC sys b filename syms a) id (fun _ => True) p.blocks (fun _ => p.blocks) := by
  refine .step (alloc_d _) fun state _ => .opt (fun hn => ?_) fun r hr => ?_
  · unfold runBackendC
    simp only [hn]
  · obtain ⟨tree, s⟩ := r
    refine .step (use_d (by simp)) fun _ _ => .opt (fun hn => ?_) fun main hm => ?_
    · unfold runBackendC
      simp only [hr, hn]
    · have e : runBackendC sys b filename syms a = writeFileC sys b filename
          (fileC { syms := syms, debug := if b.debug then some (b.filename.getD []) else none, fmtA := sys.fmtA } main tree s) := by
        unfold runBackendC
        simp only [hr, hm]
      rw [e]
      refine .bind ((writeC_r (F := [state]) (by simp)).cast (by same) fun _ _ => Same.rfl' _) id fun r hr _ => ?_
      rw [hr]
      exact .step (use_d (by simp)) fun _ _ => .step (free_d (post := p.blocks) (by same)) fun _ _ => .pure rfl trivial (Same.rfl' _)

theorem outputIR_eq (sys : Sys) (b : BuildData) (filename : List Char) (m : LState) (h : filename ≠ ['-']) : outputIR sys b filename m =
    (getNewFilename b.outFile b.preprocess b.cBackend filename "ll".toList).map fun out => printIR sys out m := by
  unfold outputIR
  rw [if_neg h]
  cases getNewFilename b.outFile b.preprocess b.cBackend filename "ll".toList with
  | none => rfl
  | some out =>
    simp only [printIR, Option.map_some]
    split
    · rfl
    split <;> rfl

theorem outputIR_r {sys : Sys} {b : BuildData} {p : Ptrs} {filename : List Char} {m : LState} :
    Runs (outputIRH sys b p filename m) (outputIR sys b filename m) id (fun _ => True) p.blocks (fun _ => p.blocks) := by
  unfold outputIRH
  by_cases h : filename = ['-']
  · rw [if_pos h, outputIR, if_pos h]
    exact .pure rfl trivial (Same.rfl' _)
  · rw [if_neg h, outputIR_eq _ _ _ _ h]
    refine .bind ((newName_d (F := [])).cast (by same) fun _ _ => Same.rfl' _) (fun hn => by rw [hn]; rfl) fun c hc _ => ?_
    obtain ⟨out, n⟩ := c
    rw [hc]
    exact .step (use_d (by simp)) fun _ _ => .step (free_d (post := p.blocks) (by same)) fun _ _ => .pure rfl trivial (Same.rfl' _)

theorem stage1_r {sys : Sys} {b : BuildData} {p : Ptrs} (hf : Fits b p) {filename : List Char} {m : LState} :
    Runs (emitStage1H sys b p filename m) (emitStage1 sys b filename m) (·.1) (fun r => r.2.extra = p.extra) p.blocks (fun r => r.2.blocks) := by
  unfold emitStage1H emitStage1
  split
  · refine .bind outputIR_r (fun hn => by rw [hn]; rfl) fun r hr _ => ?_
    rw [hr]
    exact .pure rfl rfl (Same.rfl' _)
  split
  · exact .pure rfl rfl (Same.rfl' _)
  · refine .opt (fun hn => by simp only [hn]) fun out hout => ?_
    simp only [hout]
    refine .step (R := fun q => q.extra = p.extra) (mid := fun q => q.blocks) ?_ fun q hq => .step (useOpt_d fun x hx => by simp [Ptrs.blocks, hx]) fun _ _ => ?_
    · unfold outPtr
      cases ho : b.outFile with
      | some _ => exact .pure rfl (Same.rfl' _)
      | none =>
        have hp : p.out = none := by
          have := hf.1
          rw [ho] at this
          simpa using this
        refine .bind (alloc_d _) fun o _ => .bind (use_d (by simp)) fun _ _ => .pure rfl ?_
        simp only [Ptrs.blocks, hp, Option.toList]
        same
    · have e : ∀ (s : Option (Phase (List Char))), s = some (emitWith sys b out m) →
          Runs (Pure.pure (emitWith sys b out m, q) : M _) s (·.1) (fun r => r.2.extra = p.extra) q.blocks (fun r => r.2.blocks) :=
        fun s hs => by rw [hs]; exact .pure rfl hq (Same.rfl' _)
      apply e
      unfold emitWith
      split
      · rfl
      split
      · rfl
      split <;> rfl

theorem native_r {sys : Sys} {b : BuildData} {p : Ptrs} {out : List Char} :
    Runs (emitNativeH sys b p out) (emitNative sys b out) (·.1) 
      (fun r => (r.2 = true → ∃ cmd, r.1.2 = [.shell cmd, .remove out]) ∧ ((∃ cmd, .shell cmd ∈ r.1.2) → r.2 = true)) p.blocks
      (fun r => p.out.toList ++ if r.2 then [] else p.extra.toList) := by
  refine .opt (fun hn => ?_) fun name hname => ?_
  · unfold emitNative
    simp only [hn]
  · unfold emitNative
    simp only [hname]
    refine .step (alloc_d _) fun n _ => .step (use_d (by simp)) fun _ _ => ?_
    by_cases hd : sys.isDir name = true
    · rw [if_pos hd, if_pos hd]
      exact .step (use_d (by simp)) fun _ _ => .step (free_d (Same.rfl' _)) fun _ _ => .pure rfl ⟨fun h => (by cases h), fun ⟨_, h⟩ => (by simp at h)⟩ (Same.rfl' _)
    · rw [if_neg hd, if_neg hd]
      refine .step (useOpt_d fun x hx => by simp [Ptrs.blocks, hx]) fun _ _ => .step (use_d (by simp)) fun _ _ =>
        .step (useOpt_d fun x hx => by simp [Ptrs.blocks, hx]) fun _ _ => .step (alloc_d _) fun s _ => .step (use_d (by simp)) fun _ _ =>
        .step (free_d (b := n) (post := s :: p.blocks) (by same)) fun _ _ => .step (use_d (by simp)) fun _ _ =>
        .step (useOpt_d fun x hx => by simp [Ptrs.blocks, hx]) fun _ _ => .step (free_d (Same.rfl' _)) fun _ _ =>
        .step ((freeOpt_d p.extra p.out.toList).cast ?_ fun _ _ => Same.rfl' _) fun _ _ => .pure rfl ⟨fun _ => ⟨_, rfl⟩, fun _ => rfl⟩ ?_
      · simp only [Ptrs.blocks]
        same
      · simp only [if_true]
        same

/-- No command is run. -/
def NoShell (acts : List Act) : Prop := ∀ cmd, .shell cmd ∉ acts

/-- `extra_args` is freed exactly if a command was run. -/
def Linked (p : Ptrs) (r : Left) : Prop := r.2.1.extra = p.extra ∧ (r.2.2 = true ↔ ∃ cmd, .shell cmd ∈ r.1.2)

theorem noShell_say : NoShell [.say] := by intro cmd h; simp at h

theorem linked_no {p : Ptrs} {ran : Ran} (h : NoShell ran.2) : Linked p (ran, p, false) :=
  ⟨rfl, fun h => (by cases h), fun ⟨cmd, hc⟩ => absurd hc (h cmd)⟩

theorem writeC_quiet {sys : Sys} {b : BuildData} {filename text : List Char} {r : Ran} (h : writeFileC sys b filename text = some r) : NoShell r.2 := by
  unfold writeFileC at h
  repeat' split at h
  all_goals first
    | cases h; done
    | (cases h; intro cmd hc; simp at hc)

theorem backendC_quiet {sys : Sys} {b : BuildData} {filename : List Char} {syms : List Symbol} {a : ATree} {r : Ran}
    (h : runBackendC sys b filename syms a = some r) : NoShell r.2 := by
  unfold runBackendC at h
  simp only at h
  split at h
  · exact writeC_quiet h
  · cases h

theorem outputIR_quiet {sys : Sys} {b : BuildData} {filename : List Char} {m : LState} {r : Ran} (h : outputIR sys b filename m = some r) : NoShell r.2 := by
  unfold outputIR at h
  repeat' split at h
  all_goals first
    | cases h; done
    | (cases h; intro cmd hc; simp at hc)

def phaseActs : Phase α → List Act
  | .next _ acts | .done _ acts => acts

theorem stage1_quiet {sys : Sys} {b : BuildData} {filename : List Char} {m : LState} {r : Phase (List Char)}
    (h : emitStage1 sys b filename m = some r) : NoShell (phaseActs r) := by
  unfold emitStage1 at h
  split at h
  · rw [Option.map_eq_some_iff] at h
    obtain ⟨q, h1, rfl⟩ := h
    exact outputIR_quiet h1
  · repeat' split at h
    all_goals first
      | cases h; done
      | (cases h; intro cmd hc; simp [phaseActs] at hc)

theorem optimize_quiet {sys : Sys} {b : BuildData} {m : LState} {err : Bool} {acts : List Act} (h : optimizeL sys b m = .done err acts) : NoShell acts := by
  unfold optimizeL at h
  repeat' split at h
  all_goals first
    | cases h; done
    | (cases h; intro cmd hc; simp at hc)

/-- What happens after `emit_stage_1`. -/
def restL (sys : Sys) (b : BuildData) : Phase (List Char) → Option Ran
  | .done err acts => some (err, acts)
  | .next out acts => (emitNative sys b out).map fun r => (r.1, acts ++ r.2)

theorem after_r {sys : Sys} {b : BuildData} {p : Ptrs} {ph : Phase (List Char)} (hq : NoShell (phaseActs ph)) :
    Runs (afterEmit sys b (ph, p)) (restL sys b ph) (·.1) (Linked p) p.blocks leftBlocks := by
  cases ph with
  | done err acts => exact .pure rfl (linked_no hq) (Same.rfl' _)
  | next out acts =>
    refine .bind native_r (fun hn => by simp only [restL, hn]; rfl) fun r hr h => ?_
    simp only [restL, hr, Option.map_some]
    refine .pure rfl ⟨rfl, ?_⟩ (Same.rfl' _)
    simp only [List.mem_append]
    constructor
    · intro ht
      obtain ⟨cmd, hc⟩ := h.1 ht
      exact ⟨cmd, .inr (by rw [hc]; simp)⟩
    · rintro ⟨cmd, hc | hc⟩
      · exact absurd hc (hq cmd)
      · exact h.2 ⟨cmd, hc⟩

theorem optimize_r {sys : Sys} {b : BuildData} {p : Ptrs} (hf : Fits b p) {filename : List Char} {m : LState} :
    Runs (optimizeAndEmit sys b p filename m)
      (match optimizeL sys b m with
        | .done err acts => some (err, acts)
        | .next m _ => (emitStage1 sys b filename m).bind (restL sys b)) (·.1) (Linked p) p.blocks leftBlocks := by
  unfold optimizeAndEmit
  cases ho : optimizeL sys b m with
  | done err acts => exact .pure rfl (linked_no (optimize_quiet ho)) (Same.rfl' _)
  | next m _ =>
    refine .bind (stage1_r hf) (fun hn => by simp only [hn]; rfl) fun r hr hx => ?_
    obtain ⟨ph, q⟩ := r
    replace hx : q.extra = p.extra := hx
    simp only [hr, Option.bind_some]
    have := after_r (sys := sys) (b := b) (p := q) (stage1_quiet hr)
    have hl : Linked p = Linked q := by funext r; simp only [Linked, hx]
    rw [hl]
    exact this

theorem writeL_eq (sys : Sys) (b : BuildData) (filename : List Char) (m : LState) : writeL sys b filename m =
    (startOf sys b m).bind fun (m, ok) =>
      if !ok then some (true, [.say])
      else if !b.llvmNoVerify && !sys.verifies m then some (true, [.say])
      else match optimizeL sys b m with
        | .done err acts => some (err, acts)
        | .next m _ => (emitStage1 sys b filename m).bind (restL sys b) := by
  unfold writeL startOf
  cases hs : (if willBuildBinary b = true then Option.map (fun m => (m, sys.hasShim)) (addStart m) else some (m, true)) with
  | none => rfl
  | some c =>
    obtain ⟨m, ok⟩ := c
    cases ok with
    | false => rfl
    | true =>
      simp only [Option.bind_some, Bool.not_true, Bool.false_eq_true, if_false]
      split
      · rfl
      · cases optimizeL sys b m with
        | done err acts => rfl
        | next m _ =>
          simp only
          cases emitStage1 sys b filename m with
          | none => rfl
          | some ph => cases ph <;> rfl

theorem writeL_r {sys : Sys} {b : BuildData} {p : Ptrs} (hf : Fits b p) {filename : List Char} {m : LState} :
    Runs (writeLH sys b p filename m) (writeL sys b filename m) (·.1) (Linked p) p.blocks leftBlocks := by
  rw [writeL_eq]
  refine .opt (fun hn => by rw [hn]; rfl) fun c hc => ?_
  obtain ⟨m, ok⟩ := c
  simp only [hc, Option.bind_some]
  split
  · exact .pure rfl (linked_no noShell_say) (Same.rfl' _)
  split
  · exact .pure rfl (linked_no noShell_say) (Same.rfl' _)
  · exact optimize_r hf

/-- More blocks than these do no harm. -/
theorem Runs.frame {f : M α} (h : Runs f o g Q pre post) (F : List Nat) : Runs f o g Q (pre ++ F) (fun a => post a ++ F) := by
  intro m L hh
  have := h m (L ++ F) (hh.cast (by same))
  cases o with
  | none => exact this
  | some b =>
    obtain ⟨a, m', h1, h2, h3, h4⟩ := this
    exact ⟨a, m', h1, h2, h3, h4.cast (by same)⟩

theorem backendL_r {sys : Sys} {b : BuildData} {p : Ptrs} (hf : Fits b p) {filename : List Char} {syms : List Symbol} {a : ATree} :
    Runs (runBackendLH sys b p filename syms a) (runBackendL sys b filename syms a) (·.1) (Linked p) p.blocks leftBlocks := by
  unfold runBackendL
  refine .opt (fun hn => by simp only [hn]) fun main hm => .step (alloc_d _) fun state _ => .opt (fun hn => by simp only [hm, hn]) fun m hl => ?_
  simp only [hm, hl]
  refine .step (use_d (by simp)) fun _ _ => .bind (((writeL_r hf).frame [state]).cast (by same) fun _ _ => Same.rfl' _) id fun r hr hk => ?_
  rw [hr]
  exact .step (use_d (by simp)) fun _ _ => .step (free_d (post := leftBlocks r) (by same)) fun _ _ => .pure rfl hk (Same.rfl' _)

theorem left_false {p : Ptrs} {ran : Ran} : leftBlocks (ran, p, false) = p.blocks := rfl

theorem backend_r {sys : Sys} {b : BuildData} {p : Ptrs} (hf : Fits b p) {filename : List Char} {syms : List Symbol} {a : ATree} :
    Runs (runBackendH sys b p filename syms a) (if b.cBackend then runBackendC sys b filename syms a else runBackendL sys b filename syms a)
      (·.1) (Linked p) p.blocks leftBlocks := by
  unfold runBackendH
  split
  · refine .bind backendC_r id fun r hr _ => ?_
    rw [hr]
    exact .pure rfl (linked_no (backendC_quiet hr)) (Same.rfl' _)
  · exact backendL_r hf

theorem noShell_flush (b : BuildData) (ds : List Code) : NoShell (flush b ds) := by
  intro cmd h
  unfold flush at h
  split at h <;> simp at h

def Bufs.blocks (k : Bufs) : List Nat := [k.text, k.text32, k.toks, k.tree, k.state]

theorem useBufs_d {k : Bufs} {F : List Nat} : Does (useBufs k) (fun _ => True) (F ++ k.blocks) (fun _ => F ++ k.blocks) :=
  .bind (use_d (by simp [Bufs.blocks])) fun _ _ => .bind (use_d (by simp [Bufs.blocks])) fun _ _ => .bind (use_d (by simp [Bufs.blocks])) fun _ _ =>
    use_d (by simp [Bufs.blocks])

theorem checkGen_r {sys : Sys} {b : BuildData} {p : Ptrs} (hf : Fits b p) {k : Bufs} {filename : List Char} {before : List Code} {t : Tree} :
    Runs (checkAndGenerateH sys b p k filename before t) (checkAndGenerate sys b filename before t) (·.1) (Linked p) (p.blocks ++ k.blocks)
      (fun r => leftBlocks r ++ k.blocks) := by
  unfold checkAndGenerateH checkAndGenerate
  refine .step useBufs_d fun _ _ => ?_
  cases semantic (checkCfg sys b) t with
  | ub => exact .ub
  | fail s => exact .pure rfl (linked_no (noShell_flush _ _)) (Same.rfl' _)
  | ok a s =>
    simp only
    refine .bind ((backend_r hf).frame k.blocks) (fun hn => by rw [hn]; rfl) fun r hr hk => ?_
    rw [hr]
    refine .step useBufs_d fun _ _ => .pure rfl ⟨hk.1, ?_⟩ (Same.rfl' _)
    simp only [List.mem_append]
    rw [hk.2]
    constructor
    · rintro ⟨cmd, hc⟩
      exact ⟨cmd, .inl hc⟩
    · rintro ⟨cmd, hc | hc⟩
      · exact ⟨cmd, hc⟩
      · exact absurd hc (noShell_flush _ _ cmd)

theorem tree_r {sys : Sys} {b : BuildData} {p : Ptrs} (hf : Fits b p) {filename : List Char} {before : List Code} {text text32 toks tree : Nat} {t : Tree} :
    Runs (compileTreeH sys b p filename before text text32 toks tree t) (checkAndGenerate sys b filename before t) (·.1) (Linked p)
      (tree :: toks :: text32 :: text :: p.blocks) leftBlocks := by
  refine .step (alloc_d _) fun state _ => .bind ((checkGen_r hf (k := ⟨text, text32, toks, tree, state⟩)).cast ?_ fun _ _ => Same.rfl' _) id fun r hr hk => ?_
  · simp only [Bufs.blocks]
    same
  · rw [hr]
    refine .step (free_d (post := toks :: text32 :: text :: state :: leftBlocks r) ?_) fun _ _ => .step (free_d (Same.rfl' _)) fun _ _ =>
      .step (free_d (Same.rfl' _)) fun _ _ => .step (free_d (Same.rfl' _)) fun _ _ => .step (free_d (Same.rfl' _)) fun _ _ => .pure rfl hk (Same.rfl' _)
    simp only [Bufs.blocks]
    same

theorem noTree_d {text text32 toks : Nat} {F : List Nat} : Does (noTree text text32 toks) (fun _ => True) (toks :: text32 :: text :: F) (fun _ => F) :=
  .bind (free_d (Same.rfl' _)) fun _ _ => .bind (free_d (Same.rfl' _)) fun _ _ => free_d (Same.rfl' _)

theorem parse_r {sys : Sys} {b : BuildData} {p : Ptrs} (hf : Fits b p) {filename src : List Char} {text text32 tb : Nat} {toks : List Token} :
    Runs (parseAndCompileH sys b p filename src text text32 tb toks)
      (match parseAstTree toks with
        | .ub | .fuel => none
        | .ok none s => some (true, flush b (bomDiags src ++ s.diags.reverse.map PDiag.code))
        | .ok (some (.node .unknown _ _ .nil _)) _ => some (true, flush b (bomDiags src ++ [.warnFileEmpty]))
        | .ok (some t) _ => checkAndGenerate sys b filename (bomDiags src) t) (·.1) (Linked p) (tb :: text32 :: text :: p.blocks) leftBlocks := by
  unfold parseAndCompileH
  cases parseAstTree toks with
  | ub => exact .ub
  | fuel => exact .ub
  | ok o s =>
    cases o with
    | none => exact .step noTree_d fun _ _ => .pure rfl (linked_no (noShell_flush _ _)) (Same.rfl' _)
    | some t =>
      have hA : Runs (do
          let tree ← alloc
          use tree
          noTree text text32 tb
          free tree
          pure ((true, flush b (bomDiags src ++ [.warnFileEmpty])), p, false)) (some (true, flush b (bomDiags src ++ [.warnFileEmpty])))
          (·.1) (Linked p) (tb :: text32 :: text :: p.blocks) leftBlocks :=
        .step (alloc_d _) fun tree _ => .step (use_d (by simp)) fun _ _ =>
          .step ((noTree_d (text := text) (text32 := text32) (toks := tb) (F := tree :: p.blocks)).cast (by same) fun _ _ => Same.rfl' _) fun _ _ =>
          .step (free_d (Same.rfl' _)) fun _ _ => .pure rfl (linked_no (noShell_flush _ _)) (Same.rfl' _)
      have hB : ∀ t, Runs (do
          let tree ← alloc
          compileTreeH sys b p filename (bomDiags src) text text32 tb tree t) (checkAndGenerate sys b filename (bomDiags src) t)
          (·.1) (Linked p) (tb :: text32 :: text :: p.blocks) leftBlocks :=
        fun t => .step (alloc_d _) fun tree _ => tree_r hf
      cases t with
      | nil => exact hB _
      | node stmt tok te child next =>
        cases stmt <;> cases child <;> dsimp only <;> first | with_reducible exact hA | with_reducible exact hB _

theorem classify_r {sys : Sys} {b : BuildData} {p : Ptrs} (hf : Fits b p) {filename src : List Char} {text text32 : Nat} {toks : List Token} :
    Runs (classifyAndCompileH sys b p filename src text text32 toks)
      (match classifyTokens toks with
      | none => none
      | some toks =>
      match parseAstTree toks with
        | .ub | .fuel => none
        | .ok none s => some (true, flush b (bomDiags src ++ s.diags.reverse.map PDiag.code))
        | .ok (some (.node .unknown _ _ .nil _)) _ => some (true, flush b (bomDiags src ++ [.warnFileEmpty]))
        | .ok (some t) _ => checkAndGenerate sys b filename (bomDiags src) t) (·.1) (Linked p) (text32 :: text :: p.blocks) leftBlocks := by
  refine .step (alloc_d _) fun tb _ => .step (use_d (by simp)) fun _ _ => .step (use_d (by simp)) fun _ _ => .opt (fun hn => by rw [hn]) fun ts ht => ?_
  rw [ht]
  exact parse_r hf

theorem pipeline_r {sys : Sys} {b : BuildData} {p : Ptrs} (hf : Fits b p) {filename : List Char} {text : Nat} {contents : List UInt8} :
    Runs (runPipelineH sys b p filename text contents) (runPipeline sys b filename contents) (·.1) (Linked p) (text :: p.blocks) leftBlocks := by
  unfold runPipelineH runPipeline
  refine .step (use_d (by simp)) fun _ _ => ?_
  cases mbstoc32s contents with
  | none => exact .step (free_d (Same.rfl' _)) fun _ _ => .pure rfl (linked_no (noShell_flush _ _)) (Same.rfl' _)
  | some src =>
    refine .step (alloc_d _) fun text32 _ => ?_
    unfold tokenizeAndCompileH
    simp only
    cases tokenize b.werror src with
    | none => exact .ub
    | some r =>
      cases r with
      | ub => exact .ub
      | err e _ _ =>
        exact .step (use_d (by simp)) fun _ _ => .step (free_d (Same.rfl' _)) fun _ _ => .step (free_d (Same.rfl' _)) fun _ _ =>
          .pure rfl (linked_no (noShell_flush _ _)) (Same.rfl' _)
      | ok toks => exact classify_r hf

theorem file_r {sys : Sys} {b : BuildData} {p : Ptrs} (hf : Fits b p) {filename : List Char} :
    Runs (compileFileH sys b p filename) (compileFile sys b filename) (·.1) (Linked p) p.blocks leftBlocks := by
  unfold compileFileH compileFile
  split
  · exact .pure rfl (linked_no noShell_say) (Same.rfl' _)
  · cases sys.read filename with
    | none => exact .pure rfl (linked_no noShell_say) (Same.rfl' _)
    | some file =>
      refine .step (alloc_d _) fun f _ => .step (use_d (by simp)) fun _ _ => ?_
      simp only
      cases fileToString file with
      | none => exact .step (free_d (Same.rfl' _)) fun _ _ => .pure rfl (linked_no (noShell_flush _ _)) (Same.rfl' _)
      | some bytes =>
        exact .step (alloc_d _) fun text _ => .step (use_d (by simp)) fun _ _ => .step (free_d (b := f) (post := text :: p.blocks) (by same)) fun _ _ =>
          pipeline_r hf

theorem skull_r (sys : Sys) (args : List (List Char)) :
    Runs (skullH sys args) (skull sys args) (·.1) (fun r => r.2.blocks = [] ↔ ¬ Leaks sys args r.1.2) [] (fun r => r.2.blocks) := by
  unfold skull
  refine .bind (cli_r sys.colorEnv args) (fun hn => ?_) fun c hc hok => ?_
  · cases hh : cliMain sys.colorEnv args <;> rw [hh] at hn <;> first | rfl | cases hn
  · cases hh : cliMain sys.colorEnv args <;> rw [hh] at hc <;> cases c <;>
      simp only [defd, seen, Option.some.injEq, Cli.exit.injEq, Cli.run.injEq, reduceCtorEq] at hc
    · subst hc
      refine .pure rfl ?_ (Same.rfl' _)
      simp only [Read] at hok
      rw [hok]
      refine not_congr ⟨fun ⟨b, h1, h2⟩ => ⟨b, h1, .inl h2⟩, fun ⟨b, h1, h2⟩ => ⟨b, h1, ?_⟩⟩
      rcases h2 with h2 | h2
      · exact h2
      · rw [hh] at h2
        cases h2.1
    · subst hc
      rename_i b p
      obtain ⟨hb, hf, hd⟩ := hok
      refine .step (alloc_d _) fun name _ => .step (use_d (by simp)) fun _ _ =>
        .bind (((file_r hf).frame [name]).cast ?_ fun _ _ => Same.rfl' _) (fun hn => by simp only [hn]; rfl) fun r hr hk => ?_
      · simp only [cliBlocks]
        same
      · simp only [hr, Option.map_some]
        refine .step (free_d (post := leftBlocks r) (by same)) fun _ _ => .step (freeOpt_d _ _) fun _ _ => .pure rfl ?_ ?_
        · have h1 := hk.1
          have h2 := hk.2
          have h3 := hf.2
          have hl : Leaks sys args r.1.2 ↔ b.extraArgs.isSome ∧ ¬ ∃ cmd, .shell cmd ∈ r.1.2 := by
            constructor
            · rintro ⟨b', g1, g2⟩
              rw [hb] at g1
              cases g1
              rcases g2 with g2 | g2
              · exact absurd g2.1 hd
              · exact g2.2
            · exact fun g => ⟨b, hb, .inr ⟨hh, g⟩⟩
          simp only [hl, ← h2, ← h3, ← h1]
          cases r.2.2 <;> cases r.2.1.extra <;> simp [Ptrs.blocks]
        · cases r.2.2 <;> exact Same.rfl' _

end Skull.DrvHeap
