import Verif.Model.Cli
import Verif.Spec.Options
import Verif.Proofs.Paths
/-
Reading the command line one item at a time.
-/
namespace Skull
open Spec

/-- The field of a flag. -/
def getFlag (b : BuildData) : Flag → Bool
  | .compileOnly => b.compileOnly
  | .assembly => b.asmBackend
  | .preprocess => b.preprocess
  | .debug => b.debug
  | .quiet => b.quiet
  | .o1 => b.optimize1
  | .o2 => b.optimize2
  | .o3 => b.optimize3
  | .cBackend => b.cBackend
  | .werror => b.werror
  | .noVerify => b.llvmNoVerify
  | .color => b.color

def putFlag (b : BuildData) : Flag → BuildData
  | .compileOnly => { b with compileOnly := true }
  | .assembly => { b with asmBackend := true }
  | .preprocess => { b with preprocess := true }
  | .debug => { b with debug := true }
  | .quiet => { b with quiet := true }
  | .o1 => { b with optimize1 := true }
  | .o2 => { b with optimize2 := true }
  | .o3 => { b with optimize3 := true }
  | .cBackend => { b with cBackend := true }
  | .werror => { b with werror := true }
  | .noVerify => { b with llvmNoVerify := true }
  | .color => { b with color := true }

/-- The effect of one item: the exit code it ends the process with, or the new settings. -/
def stepOpt (env : Option (List Char)) (b : BuildData) : Opt → Except Nat BuildData
  | .flag f _ => if (f = .color ∧ env.isSome = true) ∨ getFlag b f = true then .error 1 else .ok (putFlag b f)
  | .out p => if b.outFile.isSome = true then .error 1 else .ok { b with outFile := some p }
  | .file p => .ok { b with filename := some p }
  | .info _ => .error 0
  | .unknown _ => .error 1

theorem handle_c (env : Option (List Char)) (b : BuildData) (rest : List (List Char)) :
    handleArgs env ("-c".toList :: rest) b =
      setFlag b.compileOnly (handleArgs env rest { b with compileOnly := true }) := by
  cases rest <;> simp [handleArgs, charAt]

theorem handle_S (env : Option (List Char)) (b : BuildData) (rest : List (List Char)) :
    handleArgs env ("-S".toList :: rest) b =
      setFlag b.asmBackend (handleArgs env rest { b with asmBackend := true }) := by
  cases rest <;> simp [handleArgs, charAt]

theorem handle_E (env : Option (List Char)) (b : BuildData) (rest : List (List Char)) :
    handleArgs env ("-E".toList :: rest) b =
      setFlag b.preprocess (handleArgs env rest { b with preprocess := true }) := by
  cases rest <;> simp [handleArgs, charAt]

theorem handle_g (env : Option (List Char)) (b : BuildData) (rest : List (List Char)) :
    handleArgs env ("-g".toList :: rest) b =
      setFlag b.debug (handleArgs env rest { b with debug := true }) := by
  cases rest <;> simp [handleArgs, charAt]

theorem handle_q (env : Option (List Char)) (b : BuildData) (rest : List (List Char)) :
    handleArgs env ("-q".toList :: rest) b =
      setFlag b.quiet (handleArgs env rest { b with quiet := true }) := by
  cases rest <;> simp [handleArgs, charAt]

theorem handle_o1 (env : Option (List Char)) (b : BuildData) (rest : List (List Char)) (a : List Char) :
    handleArgs env (("-O1".toList ++ a) :: rest) b =
      setFlag b.optimize1 (handleArgs env rest { b with optimize1 := true }) := by
  cases rest <;> simp [handleArgs, charAt]

theorem handle_o2 (env : Option (List Char)) (b : BuildData) (rest : List (List Char)) (a : List Char) :
    handleArgs env (("-O2".toList ++ a) :: rest) b =
      setFlag b.optimize2 (handleArgs env rest { b with optimize2 := true }) := by
  cases rest <;> simp [handleArgs, charAt]

theorem handle_o3 (env : Option (List Char)) (b : BuildData) (rest : List (List Char)) (a : List Char) :
    handleArgs env (("-O3".toList ++ a) :: rest) b =
      setFlag b.optimize3 (handleArgs env rest { b with optimize3 := true }) := by
  cases rest <;> simp [handleArgs, charAt]

theorem handle_cb (env : Option (List Char)) (b : BuildData) (rest : List (List Char)) :
    handleArgs env ("--c-backend".toList :: rest) b =
      setFlag b.cBackend (handleArgs env rest { b with cBackend := true }) := by
  cases rest <;> simp [handleArgs, charAt, parseLongOption]

theorem handle_we (env : Option (List Char)) (b : BuildData) (rest : List (List Char)) :
    handleArgs env ("--werror".toList :: rest) b =
      setFlag b.werror (handleArgs env rest { b with werror := true }) := by
  cases rest <;> simp [handleArgs, charAt, parseLongOption]

theorem handle_nv (env : Option (List Char)) (b : BuildData) (rest : List (List Char)) :
    handleArgs env ("--llvm-no-verify".toList :: rest) b =
      setFlag b.llvmNoVerify (handleArgs env rest { b with llvmNoVerify := true }) := by
  cases rest <;> simp [handleArgs, charAt, parseLongOption]

theorem handle_flag (env : Option (List Char)) (b : BuildData) (rest : List (List Char)) (f : Flag) (a : List Char)
    (h : f.isLevel = true ∨ a = []) (hc : f ≠ .color) :
    handleArgs env ((f.spelling ++ a) :: rest) b =
      setFlag (getFlag b f) (handleArgs env rest (putFlag b f)) := by
  have h' : f.isLevel = false → a = [] := fun e => by simpa [e] using h
  cases f with
  | color => exact absurd rfl hc
  | o1 => exact handle_o1 env b rest a
  | o2 => exact handle_o2 env b rest a
  | o3 => exact handle_o3 env b rest a
  | compileOnly => rw [h' rfl, List.append_nil]; exact handle_c env b rest
  | assembly => rw [h' rfl, List.append_nil]; exact handle_S env b rest
  | preprocess => rw [h' rfl, List.append_nil]; exact handle_E env b rest
  | debug => rw [h' rfl, List.append_nil]; exact handle_g env b rest
  | quiet => rw [h' rfl, List.append_nil]; exact handle_q env b rest
  | cBackend => rw [h' rfl, List.append_nil]; exact handle_cb env b rest
  | werror => rw [h' rfl, List.append_nil]; exact handle_we env b rest
  | noVerify => rw [h' rfl, List.append_nil]; exact handle_nv env b rest

theorem handle_color (env : Option (List Char)) (b : BuildData) (rest : List (List Char)) :
    handleArgs env ("--color".toList :: rest) b =
      if env.isSome then .exit 1 else setFlag b.color (handleArgs env rest { b with color := true }) := by
  cases rest <;> simp [handleArgs, charAt, parseLongOption]

theorem step_flag (env : Option (List Char)) (b : BuildData) (rest : List (List Char)) (f : Flag) (a : List Char)
    (h : f.isLevel = true ∨ a = []) :
    handleArgs env ((f.spelling ++ a) :: rest) b =
      match stepOpt env b (.flag f a) with
      | .error n => .exit n
      | .ok b' => handleArgs env rest b' := by
  by_cases hc : f = .color
  · subst hc
    simp only [Flag.isLevel, Bool.false_eq_true, false_or] at h
    subst h
    rw [List.append_nil, show Flag.spelling .color = "--color".toList from rfl, handle_color]
    simp only [stepOpt, true_and]
    cases env with
    | some v => simp
    | none => cases hb : b.color <;> simp [setFlag, getFlag, putFlag, hb]
  · rw [handle_flag env b rest f a h hc]
    simp only [stepOpt, hc, false_and, false_or]
    cases hb : getFlag b f <;> simp [setFlag]

theorem step_out (env : Option (List Char)) (b : BuildData) (rest : List (List Char)) (p : List Char) :
    handleArgs env ("-o".toList :: p :: rest) b =
      match stepOpt env b (.out p) with
      | .error n => .exit n
      | .ok b' => handleArgs env rest b' := by
  cases hb : b.outFile <;> simp [handleArgs, charAt, setFlag, stepOpt, hb]

theorem charAt_zero (p : List Char) (h : NulFree p) : charAt p 0 = '-' ↔ p.head? = some '-' := by
  cases p with
  | nil => simp [charAt]
  | cons c p => simp [charAt]

theorem step_file (env : Option (List Char)) (b : BuildData) (rest : List (List Char)) (p : List Char)
    (h : p.head? ≠ some '-') (hn : NulFree p) :
    handleArgs env (p :: rest) b = handleArgs env rest { b with filename := some p } := by
  have : charAt p 0 ≠ '-' := fun e => h ((charAt_zero p hn).1 e)
  cases rest <;> simp [handleArgs, this]

theorem step_info (env : Option (List Char)) (b : BuildData) (rest : List (List Char)) (s : List Char)
    (h : s ∈ infoSpellings) : handleArgs env (s :: rest) b = .exit 0 := by
  simp only [infoSpellings, List.mem_cons, List.not_mem_nil, or_false] at h
  rcases h with rfl | rfl | rfl | rfl <;> cases rest <;> simp [handleArgs, charAt, parseLongOption]

theorem nul_head {c : Char} {u : List Char} (h : NulFree (c :: u)) : c ≠ '\x00' := by
  simp only [NulFree, List.mem_cons, not_or] at h
  exact fun e => h.1 e.symm

theorem step_unknown (env : Option (List Char)) (b : BuildData) (rest : List (List Char)) (a : List Char)
    (h : Opt.WF (.unknown a)) (hn : NulFree a) : handleArgs env (a :: rest) b = .exit 1 := by
  obtain ⟨h0, h1, h2, h3, h4⟩ := h
  cases a with
  | nil => simp at h0
  | cons d a =>
    simp only [List.head?_cons, Option.some.injEq] at h0
    subst h0
    have hna : NulFree a := by simp only [NulFree, List.mem_cons, not_or] at hn ⊢; exact hn.2
    cases a with
    | nil => cases rest <;> simp [handleArgs, charAt]
    | cons c u =>
      have hc := nul_head hna
      have hnu : NulFree u := by simp only [NulFree, List.mem_cons, not_or] at hna ⊢; exact hna.2
      by_cases hO : c = 'O'
      · subst hO
        cases u with
        | nil => cases rest <;> simp [handleArgs, charAt]
        | cons e u =>
          have e1 : e ≠ '1' := by
            rintro rfl; exact (h4 .o1).2 rfl ⟨u, rfl⟩
          have e2 : e ≠ '2' := by
            rintro rfl; exact (h4 .o2).2 rfl ⟨u, rfl⟩
          have e3 : e ≠ '3' := by
            rintro rfl; exact (h4 .o3).2 rfl ⟨u, rfl⟩
          cases rest <;> simp [handleArgs, charAt, e1, e2, e3]
      · by_cases hd : c = '-'
        · subst hd
          cases u with
          | nil => exact absurd rfl h2
          | cons e u =>
            have he := nul_head hnu
            have hi : ∀ s, s ∈ infoSpellings → '-' :: '-' :: e :: u ≠ s := fun s hs e' => h3 (e' ▸ hs)
            have k1 : e :: u ≠ "version".toList := fun q => hi "--version".toList (by simp [infoSpellings]) (by rw [q]; rfl)
            have k2 : e :: u ≠ "help".toList := fun q => hi "--help".toList (by simp [infoSpellings]) (by rw [q]; rfl)
            have k3 : e :: u ≠ "c-backend".toList := fun q => (h4 .cBackend).1 (by rw [q]; rfl)
            have k4 : e :: u ≠ "werror".toList := fun q => (h4 .werror).1 (by rw [q]; rfl)
            have k5 : e :: u ≠ "llvm-no-verify".toList := fun q => (h4 .noVerify).1 (by rw [q]; rfl)
            have k6 : e :: u ≠ "color".toList := fun q => (h4 .color).1 (by rw [q]; rfl)
            have hp : ∀ k, parseLongOption env (e :: u) b k = .exit 1 := by
              intro k
              unfold parseLongOption
              rw [if_neg k1, if_neg k2, if_neg k3, if_neg k4, if_neg k5, if_neg k6]
            cases rest <;> simp [handleArgs, charAt, he, hp]
        · cases u with
          | cons e u =>
            have he := nul_head hnu
            cases rest <;> simp [handleArgs, charAt, hO, hd, hc, he]
          | nil =>
            have hi : ∀ s, s ∈ infoSpellings → ['-', c] ≠ s := fun s hs e' => h3 (e' ▸ hs)
            have k1 : c ≠ 'h' := fun q => hi "-h".toList (by simp [infoSpellings]) (by rw [q]; rfl)
            have k2 : c ≠ 'v' := fun q => hi "-v".toList (by simp [infoSpellings]) (by rw [q]; rfl)
            have k3 : c ≠ 'c' := fun q => (h4 .compileOnly).1 (by rw [q]; rfl)
            have k4 : c ≠ 'S' := fun q => (h4 .assembly).1 (by rw [q]; rfl)
            have k5 : c ≠ 'E' := fun q => (h4 .preprocess).1 (by rw [q]; rfl)
            have k6 : c ≠ 'g' := fun q => (h4 .debug).1 (by rw [q]; rfl)
            have k7 : c ≠ 'q' := fun q => (h4 .quiet).1 (by rw [q]; rfl)
            have k8 : c ≠ 'o' := fun q => h1 (by rw [q]; rfl)
            cases rest <;> simp [handleArgs, charAt, hO, hd, k1, k2, k3, k4, k5, k6, k7, k8]

/-- The effect of a list of items. -/
def runOpts (env : Option (List Char)) (b : BuildData) : List Opt → Except Nat BuildData
  | [] => .ok b
  | o :: os =>
    match stepOpt env b o with
    | .error n => .error n
    | .ok b' => runOpts env b' os

theorem step_opt (env : Option (List Char)) (b : BuildData) (rest : List (List Char)) (o : Opt)
    (h : o.WF) (hn : ∀ a ∈ o.args, NulFree a) :
    handleArgs env (o.args ++ rest) b =
      match stepOpt env b o with
      | .error n => .exit n
      | .ok b' => handleArgs env rest b' := by
  cases o with
  | flag f a => exact step_flag env b rest f a h
  | out p => exact step_out env b rest p
  | file p => exact step_file env b rest p h (hn p (by simp [Opt.args]))
  | info s => exact step_info env b rest s h
  | unknown a => exact step_unknown env b rest a h (hn a (by simp [Opt.args]))

theorem handleArgs_opts (env : Option (List Char)) (b : BuildData) (opts : List Opt) (rest : List (List Char))
    (h : ∀ o ∈ opts, o.WF) (hn : ∀ a ∈ opts.flatMap Opt.args, NulFree a) :
    handleArgs env (opts.flatMap Opt.args ++ rest) b =
      match runOpts env b opts with
      | .error n => .exit n
      | .ok b' => handleArgs env rest b' := by
  induction opts generalizing b with
  | nil => rfl
  | cons o os ih =>
    rw [List.flatMap_cons, List.append_assoc, step_opt env b _ o (h o (by simp))
      (fun a ha => hn a (by simp [List.flatMap_cons, ha]))]
    simp only [runOpts]
    cases stepOpt env b o with
    | error n => rfl
    | ok b' =>
      exact ih b' (fun o ho => h o (by simp [ho]))
        (fun a ha => hn a (by rw [List.flatMap_cons, List.mem_append]; exact Or.inr ha))

/-! ### The joined extra arguments -/

theorem squashLoop_eq (pre : Buf) (args : List (List Char)) (wrote : Nat) (hw : pre.length = wrote) :
    squashLoop (pre ++ malloc (squashLen args)) wrote args =
      some (pre ++ (args.flatMap fun a => a ++ [' ']).map some, wrote + squashLen args) := by
  induction args generalizing pre wrote with
  | nil => simp [squashLoop, squashLen, malloc]
  | cons a as ih =>
    simp only [squashLoop, squashLen]
    rw [malloc_split, strncpyTo_mid _ _ _ _ _ _ (malloc_length _) hw, Option.bind_some,
      List.take_of_length_le (by omega), show a.length + 1 - a.length = 1 by omega,
      show (pre ++ ((a ++ List.replicate 1 '\x00').map some ++ malloc (squashLen as)) : Buf) =
        (pre ++ a.map some) ++ some '\x00' :: malloc (squashLen as) by simp,
      putByte_mid _ _ _ _ _ (by simp; omega), Option.bind_some,
      show ((pre ++ a.map some) ++ some ' ' :: malloc (squashLen as) : Buf) =
        (pre ++ a.map some ++ [some ' ']) ++ malloc (squashLen as) by simp,
      ih _ _ (by simp; omega)]
    simp; omega

theorem joinSpaces_flat (a : List Char) (as : List (List Char)) :
    ((a :: as).flatMap fun a => a ++ [' ']) = joinSpaces a as ++ [' '] := by
  induction as generalizing a with
  | nil => simp [joinSpaces]
  | cons b as ih =>
    rw [List.flatMap_cons, ih]
    simp [joinSpaces]

theorem squashLen_flat (args : List (List Char)) : squashLen args = (args.flatMap fun a => a ++ [' ']).length := by
  induction args with
  | nil => rfl
  | cons a as ih => rw [squashLen, ih, List.flatMap_cons, List.length_append]; simp

theorem joinSpaces_nulFree (a : List Char) (as : List (List Char)) (h : ∀ x ∈ a :: as, NulFree x) :
    NulFree (joinSpaces a as) := by
  induction as generalizing a with
  | nil => exact h a (by simp)
  | cons b as ih =>
    have := ih b (fun x hx => h x (by simp only [List.mem_cons] at hx ⊢; exact Or.inr hx))
    have ha := h a (by simp)
    simp only [NulFree, joinSpaces, List.mem_append, List.mem_cons, not_or] at *
    exact ⟨ha, by decide, this⟩

theorem squashArgv_eq (a : List Char) (as : List (List Char)) (h : ∀ x ∈ a :: as, NulFree x)
    (hs : (joinSpaces a as).length + 1 < 2 ^ 64) :
    squashArgv (a :: as) = some (joinSpaces a as) := by
  unfold squashArgv
  rw [show malloc (squashLen (a :: as)) = [] ++ malloc (squashLen (a :: as)) from rfl,
    squashLoop_eq [] _ 0 rfl, Option.bind_some]
  simp only [List.nil_append, Nat.zero_add]
  rw [squashLen_flat, joinSpaces_flat, List.length_append, List.length_singleton, subSize_eq hs (by omega),
    show ((joinSpaces a as ++ [' ']).map some : Buf) = (joinSpaces a as).map some ++ some ' ' :: [] by simp,
    putByte_mid _ _ _ _ _ (by simp), Option.bind_some]
  exact readStr_eq _ (joinSpaces_nulFree a as h) _

/-! ### The settings a list of items names -/

/-- The settings after the items. -/
def applied (b : BuildData) (opts : List Opt) : BuildData :=
  { filename := (files opts).getLast?.or b.filename
    outFile := (outs opts).getLast?.or b.outFile
    extraArgs := b.extraArgs
    quiet := (flags opts).contains .quiet || b.quiet
    cBackend := (flags opts).contains .cBackend || b.cBackend
    asmBackend := (flags opts).contains .assembly || b.asmBackend
    debug := (flags opts).contains .debug || b.debug
    preprocess := (flags opts).contains .preprocess || b.preprocess
    compileOnly := (flags opts).contains .compileOnly || b.compileOnly
    werror := (flags opts).contains .werror || b.werror
    optimize1 := (flags opts).contains .o1 || b.optimize1
    optimize2 := (flags opts).contains .o2 || b.optimize2
    optimize3 := (flags opts).contains .o3 || b.optimize3
    llvmNoVerify := (flags opts).contains .noVerify || b.llvmNoVerify
    color := (flags opts).contains .color || b.color }

theorem flags_flag (f a os) : flags (.flag f a :: os) = f :: flags os := rfl
theorem flags_out (p os) : flags (.out p :: os) = flags os := rfl
theorem flags_file (p os) : flags (.file p :: os) = flags os := rfl
theorem outs_flag (f a os) : outs (.flag f a :: os) = outs os := rfl
theorem outs_out (p os) : outs (.out p :: os) = p :: outs os := rfl
theorem outs_file (p os) : outs (.file p :: os) = outs os := rfl
theorem files_flag (f a os) : files (.flag f a :: os) = files os := rfl
theorem files_out (p os) : files (.out p :: os) = files os := rfl
theorem files_file (p os) : files (.file p :: os) = p :: files os := rfl

theorem applied_flag (b : BuildData) (f : Flag) (a os) : applied (putFlag b f) os = applied b (.flag f a :: os) := by
  simp only [applied, flags_flag, outs_flag, files_flag, List.contains_cons]
  cases f <;> simp only [putFlag, beq_self_eq_true, Bool.true_or, Bool.or_true,
    show ∀ x y : Flag, (x == y) = decide (x = y) from fun _ _ => rfl, reduceCtorEq, decide_false, Bool.false_or]

theorem getLast?_cons_or (p : List Char) (l : List (List Char)) (o : Option (List Char)) :
    (p :: l).getLast?.or o = l.getLast?.or (some p) := by
  cases l <;> simp [List.getLast?_cons]

theorem applied_out (b : BuildData) (p os) : applied { b with outFile := some p } os = applied b (.out p :: os) := by
  simp only [applied, flags_out, outs_out, files_out, getLast?_cons_or]

theorem applied_file (b : BuildData) (p os) : applied { b with filename := some p } os = applied b (.file p :: os) := by
  simp only [applied, flags_file, outs_file, files_file, getLast?_cons_or]

theorem getFlag_put (b : BuildData) (f g : Flag) : getFlag (putFlag b f) g = true ↔ g = f ∨ getFlag b g = true := by
  cases f <;> cases g <;> simp [getFlag, putFlag]

/-- Something in the items is refused while they are read. -/
def BadFrom (env : Option (List Char)) (b : BuildData) (opts : List Opt) : Prop :=
  (∃ a, Opt.unknown a ∈ opts) ∨ ¬ (flags opts).Nodup ∨ (∃ f ∈ flags opts, getFlag b f = true) ∨
    (outs opts).length + b.outFile.isSome.toNat > 1 ∨ (.color ∈ flags opts ∧ env.isSome = true)

theorem runOpts_eq (env : Option (List Char)) (b : BuildData) (opts : List Opt) (hi : ∀ s, Opt.info s ∉ opts) :
    (BadFrom env b opts → runOpts env b opts = .error 1) ∧
    (¬ BadFrom env b opts → runOpts env b opts = .ok (applied b opts)) := by
  induction opts generalizing b with
  | nil =>
    constructor
    · rintro (⟨a, h⟩ | h | ⟨f, h, _⟩ | h | ⟨h, _⟩)
      · simp at h
      · simp [flags] at h
      · simp [flags] at h
      · simp only [outs, List.filterMap_nil, List.length_nil] at h
        cases hb : b.outFile <;> rw [hb] at h <;> simp at h
      · simp [flags] at h
    · intro _; simp [runOpts, applied, flags, outs, files]
  | cons o os ih =>
    have hi' : ∀ s, Opt.info s ∉ os := fun s h => hi s (by simp [h])
    cases o with
    | flag f a =>
      simp only [runOpts, stepOpt]
      by_cases hc : (f = .color ∧ env.isSome = true) ∨ getFlag b f = true
      · rw [if_pos hc]
        refine ⟨fun _ => rfl, fun h => absurd ?_ h⟩
        rcases hc with ⟨rfl, he⟩ | hg
        · exact Or.inr (Or.inr (Or.inr (Or.inr ⟨by simp [flags_flag], he⟩)))
        · exact Or.inr (Or.inr (Or.inl ⟨f, by simp [flags_flag], hg⟩))
      · rw [if_neg hc, ← applied_flag b f a os]
        have heq : BadFrom env (putFlag b f) os ↔ BadFrom env b (.flag f a :: os) := by
          have ho : (putFlag b f).outFile = b.outFile := by cases f <;> rfl
          simp only [not_or] at hc
          have hg : ¬ getFlag b f = true := hc.2
          unfold BadFrom
          simp only [flags_flag, outs_flag, ho, getFlag_put, List.nodup_cons, List.mem_cons, reduceCtorEq, false_or]
          constructor
          · rintro (⟨a, h⟩ | h | ⟨g, h1, rfl | h2⟩ | h | ⟨h1, h2⟩)
            · exact Or.inl ⟨a, h⟩
            · exact Or.inr (Or.inl fun h' => h h'.2)
            · exact Or.inr (Or.inl fun h' => h'.1 h1)
            · exact Or.inr (Or.inr (Or.inl ⟨g, Or.inr h1, h2⟩))
            · exact Or.inr (Or.inr (Or.inr (Or.inl h)))
            · exact Or.inr (Or.inr (Or.inr (Or.inr ⟨Or.inr h1, h2⟩)))
          · rintro (⟨a, h⟩ | h | ⟨g, rfl | h1, h2⟩ | h | ⟨h1 | h1, h2⟩)
            · exact Or.inl ⟨a, h⟩
            · by_cases hm : f ∈ flags os
              · exact Or.inr (Or.inr (Or.inl ⟨f, hm, Or.inl rfl⟩))
              · exact Or.inr (Or.inl fun h' => h ⟨hm, h'⟩)
            · exact absurd h2 hg
            · exact Or.inr (Or.inr (Or.inl ⟨g, h1, Or.inr h2⟩))
            · exact Or.inr (Or.inr (Or.inr (Or.inl h)))
            · exact absurd ⟨h1.symm, h2⟩ hc.1
            · exact Or.inr (Or.inr (Or.inr (Or.inr ⟨h1, h2⟩)))
        rw [← heq]
        exact ih (putFlag b f) hi'
    | out p =>
      simp only [runOpts, stepOpt]
      by_cases hc : b.outFile.isSome = true
      · rw [if_pos hc]
        refine ⟨fun _ => rfl, fun h => absurd ?_ h⟩
        refine Or.inr (Or.inr (Or.inr (Or.inl ?_)))
        rw [outs_out, hc, List.length_cons, Bool.toNat_true]; omega
      · rw [if_neg hc, ← applied_out b p os]
        have heq : BadFrom env { b with outFile := some p } os ↔ BadFrom env b (.out p :: os) := by
          unfold BadFrom
          have hg : ∀ f, getFlag { b with outFile := some p } f = getFlag b f := by intro f; cases f <;> rfl
          simp only [Bool.not_eq_true] at hc
          simp only [flags_out, outs_out, hg, hc, List.mem_cons, reduceCtorEq, false_or, List.length_cons,
            Option.isSome_some, Bool.toNat_true, Bool.toNat_false, Nat.add_zero]
        rw [← heq]
        exact ih _ hi'
    | file p =>
      simp only [runOpts, stepOpt]
      rw [← applied_file b p os]
      have heq : BadFrom env { b with filename := some p } os ↔ BadFrom env b (.file p :: os) := by
        unfold BadFrom
        have hg : ∀ f, getFlag { b with filename := some p } f = getFlag b f := by intro f; cases f <;> rfl
        simp only [flags_file, outs_file, hg, List.mem_cons, reduceCtorEq, false_or]
      rw [← heq]
      exact ih _ hi'
    | info s => exact absurd (by simp) (hi s)
    | unknown a =>
      exact ⟨fun _ => rfl, fun h => absurd (Or.inl ⟨a, by simp⟩) h⟩

theorem runOpts_info (env : Option (List Char)) (b : BuildData) (opts : List Opt) (s : List Char) (hs : Opt.info s ∈ opts) :
    ∃ n, runOpts env b opts = .error n := by
  induction opts generalizing b with
  | nil => simp at hs
  | cons o os ih =>
    simp only [runOpts]
    cases ho : stepOpt env b o with
    | error n => exact ⟨n, rfl⟩
    | ok b' =>
      rcases List.mem_cons.1 hs with rfl | hs'
      · simp [stepOpt] at ho
      · exact ih b' hs'

/-! ### Every argument vector is a list of items -/

theorem flag_spelled (a : List Char) : (∃ f x, a = Flag.spelling f ++ x ∧ (f.isLevel = true ∨ x = [])) ∨
    ∀ f, a ≠ Flag.spelling f ∧ (f.isLevel = true → ¬ Flag.spelling f <+: a) := by
  by_cases h : ∃ f x, a = Flag.spelling f ++ x ∧ (f.isLevel = true ∨ x = [])
  · exact Or.inl h
  · refine Or.inr fun f => ⟨fun e => h ⟨f, [], by simp [e], Or.inr rfl⟩, fun hl => ?_⟩
    rintro ⟨x, hx⟩
    exact h ⟨f, x, hx.symm, Or.inl hl⟩

theorem exists_items (argv : List (List Char)) :
    ∃ opts tail, argv = render opts tail ∧ ∀ o ∈ opts, o.WF := by
  generalize hn : argv.length = n
  induction n using Nat.strongRecOn generalizing argv with
  | _ n ih =>
    cases argv with
    | nil => exact ⟨[], .none, rfl, by simp⟩
    | cons a rest =>
      simp only [List.length_cons] at hn
      have add : ∀ o : Opt, o.WF → o.args = [a] → ∃ opts tail, a :: rest = render opts tail ∧ ∀ o ∈ opts, o.WF := by
        intro o ho hoa
        obtain ⟨opts, tail, h1, h2⟩ := ih rest.length (by omega) rest rfl
        refine ⟨o :: opts, tail, ?_, ?_⟩
        · rw [h1]; simp [render, hoa]
        · intro o' ho'
          rcases List.mem_cons.1 ho' with rfl | h
          · exact ho
          · exact h2 _ h
      by_cases h0 : a.head? = some '-'
      · by_cases h1 : a = "-o".toList
        · subst h1
          cases rest with
          | nil => exact ⟨[], .missingOut, rfl, by simp⟩
          | cons p rest =>
            simp only [List.length_cons] at hn
            obtain ⟨opts, tail, h1, h2⟩ := ih rest.length (by omega) rest rfl
            refine ⟨.out p :: opts, tail, by rw [h1]; simp [render, Opt.args], ?_⟩
            intro o' ho'
            rcases List.mem_cons.1 ho' with rfl | h
            · trivial
            · exact h2 _ h
        · by_cases h2 : a = "--".toList
          · subst h2
            cases rest with
            | nil => exact ⟨[], .missingExtra, rfl, by simp⟩
            | cons p rest => exact ⟨[], .extra p rest, rfl, by simp⟩
          · by_cases h3 : a ∈ infoSpellings
            · exact add (.info a) h3 rfl
            · rcases flag_spelled a with ⟨f, x, h5, h6⟩ | h4
              · exact add (.flag f x) h6 (by simp [Opt.args, h5])
              · exact add (.unknown a) ⟨h0, h1, h2, h3, h4⟩ rfl
      · exact add (.file a) h0 rfl

/-! ### Substrings -/

theorem strrstrFrom_some (str sub : List Char) (i n : Nat) (h : strrstrFrom str sub n = some i) :
    i ≤ n ∧ (str.drop i).take sub.length = sub ∧ ∀ j, i < j → j ≤ n → (str.drop j).take sub.length ≠ sub := by
  induction n with
  | zero =>
    simp only [strrstrFrom] at h
    split at h <;> simp at h
    subst h
    exact ⟨Nat.le_refl _, by simpa, fun j h1 h2 => by omega⟩
  | succ n ih =>
    simp only [strrstrFrom] at h
    split at h
    · simp at h; subst h
      exact ⟨Nat.le_refl _, by assumption, fun j h1 h2 => by omega⟩
    · rename_i hne
      obtain ⟨h1, h2, h3⟩ := ih h
      refine ⟨by omega, h2, fun j hj1 hj2 => ?_⟩
      by_cases e : j = n + 1
      · subst e; exact hne
      · exact h3 j hj1 (by omega)

theorem strrstrFrom_none (str sub : List Char) (n : Nat) (h : strrstrFrom str sub n = none) :
    ∀ j, j ≤ n → (str.drop j).take sub.length ≠ sub := by
  induction n with
  | zero =>
    simp only [strrstrFrom] at h
    split at h <;> simp at h
    rename_i hne
    intro j hj
    have : j = 0 := by omega
    subst this; simpa using hne
  | succ n ih =>
    simp only [strrstrFrom] at h
    split at h
    · simp at h
    · rename_i hne
      intro j hj
      by_cases e : j = n + 1
      · subst e; exact hne
      · exact ih h j (by omega)

theorem occ_iff (str sub : List Char) (i : Nat) :
    (i + sub.length ≤ str.length ∧ (str.drop i).take sub.length = sub) ↔
      ∃ a c, str = a ++ sub ++ c ∧ a.length = i := by
  constructor
  · rintro ⟨h1, h2⟩
    refine ⟨str.take i, str.drop (i + sub.length), ?_, by simp; omega⟩
    have h3 : str.drop i = sub ++ str.drop (i + sub.length) := by
      conv => lhs; rw [← List.take_append_drop sub.length (str.drop i), h2]
      rw [List.drop_drop]
    rw [List.append_assoc, ← h3, List.take_append_drop]
  · rintro ⟨a, c, rfl, rfl⟩
    exact ⟨by simp, by simp⟩

theorem strrstr_isSome (str sub : List Char) : (strrstr str sub).isSome = true ↔ ∃ a c, str = a ++ sub ++ c := by
  unfold strrstr
  constructor
  · intro h
    split at h
    · cases hs : strrstrFrom str sub (str.length - sub.length) with
      | none => rw [hs] at h; simp at h
      | some i =>
        obtain ⟨h1, h2, _⟩ := strrstrFrom_some _ _ _ _ hs
        obtain ⟨a, c, e, _⟩ := (occ_iff str sub i).1 ⟨by omega, h2⟩
        exact ⟨a, c, e⟩
    · simp at h
  · rintro ⟨a, c, e⟩
    obtain ⟨h1, h2⟩ := (occ_iff str sub a.length).2 ⟨a, c, e, rfl⟩
    rw [if_pos (by omega)]
    cases hs : strrstrFrom str sub (str.length - sub.length) with
    | some i => rfl
    | none => exact absurd h2 (strrstrFrom_none _ _ _ hs a.length (by omega))

theorem strrstr_ne_zero (str sub : List Char) :
    ((strrstr str sub).isSome = true ∧ strrstr str sub ≠ some 0) ↔ ∃ a c, str = a ++ sub ++ c ∧ a ≠ [] := by
  constructor
  · rintro ⟨h, h0⟩
    unfold strrstr at h h0
    split at h
    · rename_i hle
      rw [if_pos hle] at h0
      cases hs : strrstrFrom str sub (str.length - sub.length) with
      | none => rw [hs] at h; simp at h
      | some i =>
        rw [hs] at h0
        obtain ⟨h1, h2, _⟩ := strrstrFrom_some _ _ _ _ hs
        obtain ⟨a, c, e, ha⟩ := (occ_iff str sub i).1 ⟨by omega, h2⟩
        refine ⟨a, c, e, ?_⟩
        rintro rfl
        simp only [List.length_nil] at ha
        exact h0 (by rw [ha])
    · simp at h
  · rintro ⟨a, c, e, ha⟩
    refine ⟨(strrstr_isSome str sub).2 ⟨a, c, e⟩, ?_⟩
    obtain ⟨h1, h2⟩ := (occ_iff str sub a.length).2 ⟨a, c, e, rfl⟩
    unfold strrstr
    rw [if_pos (by omega)]
    intro hs
    obtain ⟨_, _, h3⟩ := strrstrFrom_some _ _ _ _ hs
    have : 0 < a.length := by
      cases a with
      | nil => exact absurd rfl ha
      | cons x a => simp
    exact h3 a.length this (by omega) h2

/-! ### The checks after reading -/

theorem two_of_three (a b c : Bool) :
    a.toNat + b.toNat + c.toNat > 1 ↔ (a = true ∧ b = true) ∨ (a = true ∧ c = true) ∨ (b = true ∧ c = true) := by
  cases a <;> cases b <;> cases c <;> decide

theorem buildDataValid_iff (b : BuildData) :
    buildDataValid b = true ↔ ¬ ∃ p ∈ conflicting, getFlag b p.1 = true ∧ getFlag b p.2 = true := by
  unfold buildDataValid
  simp only [two_of_three, conflicting, List.mem_cons, List.not_mem_nil, or_false, Bool.and_eq_true]
  constructor
  · rintro h ⟨p, rfl | rfl | rfl | rfl | rfl | rfl | rfl | rfl | rfl, h1, h2⟩ <;>
      simp only [getFlag] at h1 h2 <;> simp [h1, h2] at h
  · intro h
    have k := fun p hp h1 h2 => h ⟨p, hp, h1, h2⟩
    rw [if_neg, if_neg, if_neg, if_neg, if_neg]
    · rintro (⟨h1, h2⟩ | ⟨h1, h2⟩ | ⟨h1, h2⟩)
      · exact k (.preprocess, .assembly) (by simp) h1 h2
      · exact k (.preprocess, .compileOnly) (by simp) h1 h2
      · exact k (.assembly, .compileOnly) (by simp) h1 h2
    · rintro ⟨h1, h2⟩; exact k (.assembly, .cBackend) (by simp) h1 h2
    · rintro ⟨h1, h2⟩; exact k (.quiet, .werror) (by simp) h1 h2
    · rintro ⟨h1, h2⟩; exact k (.noVerify, .cBackend) (by simp) h2 h1
    · rintro (⟨h1, h2⟩ | ⟨h1, h2⟩ | ⟨h1, h2⟩)
      · exact k (.o1, .o2) (by simp) h1 h2
      · exact k (.o1, .o3) (by simp) h1 h2
      · exact k (.o2, .o3) (by simp) h1 h2

theorem getFlag_applied (b : BuildData) (opts : List Opt) (f : Flag) :
    getFlag (applied b opts) f = ((flags opts).contains f || getFlag b f) := by
  cases f <;> rfl

theorem handle_tail (env : Option (List Char)) (b : BuildData) (tail : Tail) (hn : ∀ a ∈ tail.args, NulFree a)
    (hs : ∀ a as, tail = .extra a as → (joinSpaces a as).length + 1 < 2 ^ 64) :
    handleArgs env tail.args b =
      match tail with
      | .none => .run b
      | .extra a as => .run { b with extraArgs := some (joinSpaces a as) }
      | _ => .exit 1 := by
  cases tail with
  | none => rfl
  | missingOut => cases hb : b.outFile <;> simp [Tail.args, handleArgs, charAt, setFlag, hb]
  | missingExtra => simp [Tail.args, handleArgs, charAt]
  | extra a as =>
    have := squashArgv_eq a as (fun x hx => hn x (by simp only [Tail.args, List.mem_cons] at hx ⊢; exact Or.inr hx)) (hs a as rfl)
    simp only [Tail.args]
    unfold handleArgs
    simp [charAt, this]

theorem badFrom_env (env : Option (List Char)) (opts : List Opt) :
    BadFrom env (handleEnv env) opts ↔
      (∃ a, Opt.unknown a ∈ opts) ∨ ¬ (flags opts).Nodup ∨ (outs opts).length > 1 ∨
        (.color ∈ flags opts ∧ env ≠ none) := by
  have he : env.isSome = true ↔ env ≠ none := by cases env <;> simp
  have hg : ∀ f, getFlag (handleEnv env) f = true → f = .color ∧ env ≠ none := by
    intro f hf
    cases f <;> simp [getFlag, handleEnv] at hf
    cases env with
    | none => simp at hf
    | some v => simp
  unfold BadFrom
  rw [he]
  constructor
  · rintro (h | h | ⟨f, h1, h2⟩ | h | h)
    · exact Or.inl h
    · exact Or.inr (Or.inl h)
    · obtain ⟨rfl, h3⟩ := hg f h2
      exact Or.inr (Or.inr (Or.inr ⟨h1, h3⟩))
    · exact Or.inr (Or.inr (Or.inl (by simpa [handleEnv] using h)))
    · exact Or.inr (Or.inr (Or.inr h))
  · rintro (h | h | h | h)
    · exact Or.inl h
    · exact Or.inr (Or.inl h)
    · exact Or.inr (Or.inr (Or.inr (Or.inl (by simpa [handleEnv] using h))))
    · exact Or.inr (Or.inr (Or.inr (Or.inr h)))

end Skull
