import Verif.Proofs.Delivers
import Verif.Proofs.Shell
import Verif.Proofs.SemAccepted
/-
C62 to C65: what a run of `skull` leaves behind.
-/
namespace Skull
open Spec

/-! ### A world for the examples -/

/-- The bytes of a text of plain characters. -/
def asciiBytes (s : String) : List UInt8 := s.toList.map fun c => UInt8.ofNat c.toNat

/-- A directory with one source `a.sk`, where everything works. -/
def world (src : String) : Sys where
  read p := if p = "a.sk".toList then some (asciiBytes src) else none
  canWrite _ := true
  emits _ _ := true
  wait _ := 0

/-- The arguments. -/
def argv (l : List String) : List (List Char) := l.map String.toList

/-- The exit code of a run, and a test of what it did. -/
def ranWith (sys : Sys) (l : List String) (code : Nat) (p : List Act → Bool) : Bool :=
  match skull sys (argv l) with
  | some (c, acts) => c == code && p acts
  | none => false

theorem ranWith_true {sys l code p} (h : ranWith sys l code p = true) : ∃ acts, skull sys (argv l) = some (code, acts) ∧ p acts = true := by
  unfold ranWith at h
  split at h
  · rename_i c acts hs
    simp only [Bool.and_eq_true, beq_iff_eq] at h
    exact ⟨acts, by rw [hs, h.1], h.2⟩
  · cases h

def isWrite (p : List Char) : Act → Bool
  | .write q _ => p == q
  | _ => false

def isRemove (p : List Char) : Act → Bool
  | .remove q => p == q
  | _ => false

def isShell (cmd : List Char) : Act → Bool
  | .shell c => cmd == c
  | _ => false

/-! ### C62 -/

/-- C62: whatever a run leaves behind (files, text on stdout, commands) comes from a source that holds an accepted program. -/
theorem C62_output (sys : Sys) (args : List (List Char)) (code : Nat) (acts : List Act) (h : skull sys args = some (code, acts))
    (x : Act) (hx : x ∈ acts) (ho : isOutput x = true) :
    ∃ b f file t, cliMain sys.colorEnv args = .run b ∧ b.filename = some f ∧ sys.read f = some file ∧ ProgramIn b.werror file t ∧
      Accepted (checkCfg sys b) t := by
  rcases skull_went h with ⟨_, hm⟩ | ⟨b, f, err, hb, hf, _, hw⟩
  · rw [hm x hx] at ho; cases ho
  · cases hw with
    | refused hm => rw [hm x hx] at ho; cases ho
    | empty _ hm => rw [hm x hx] at ho; cases ho
    | generated hr hp hs _ _ => exact ⟨b, f, _, _, hb, hf, hr, hp, _, _, hs⟩

/-- C62: the exit code of a compilation is 0 only when the source is empty (then nothing is written) or holds an accepted program. -/
theorem C62_exit_code (sys : Sys) (args : List (List Char)) (b : BuildData) (acts : List Act) (hb : cliMain sys.colorEnv args = .run b)
    (h : skull sys args = some (0, acts)) :
    ∃ f file, b.filename = some f ∧ sys.read f = some file ∧
      ((file = [] ∧ b.werror = false ∧ ∀ x ∈ acts, isOutput x = false) ∨
        ∃ t, ProgramIn b.werror file t ∧ Accepted (checkCfg sys b) t) := by
  rcases skull_went h with ⟨h1, _⟩ | ⟨b', f, err, hb', hf, hc, hw⟩
  · rw [hb] at h1; cases h1
  · rw [hb] at hb'
    cases hb'
    cases err with
    | true => cases hc
    | false =>
      generalize he : false = err at hw
      cases hw with
      | refused _ => cases he
      | empty hr hm => exact ⟨f, [], hf, hr, .inl ⟨rfl, rfl, fun x hx => (hm x hx).trans he⟩⟩
      | generated hr hp hs _ _ => exact ⟨f, _, hf, hr, .inr ⟨_, hp, _, _, hs⟩⟩

/-- C62: the exit code is 0 or 1. -/
theorem C62_codes (sys : Sys) (args : List (List Char)) (b : BuildData) (code : Nat) (acts : List Act)
    (hb : cliMain sys.colorEnv args = .run b) (h : skull sys args = some (code, acts)) : code = 0 ∨ code = 1 := by
  rcases skull_went h with ⟨h1, _⟩ | ⟨_, _, err, _, _, hc, _⟩
  · rw [hb] at h1; cases h1
  · cases err <;> simp [hc]

example : ranWith (world "x: Int = 1.0\n") ["a.sk"] 1 (fun acts => acts.all isMessage) = true := by decide +kernel
example : ranWith (world "return 0\n") ["a.sk"] 0 (fun acts => acts.any isOutput) = true := by decide +kernel
example : ranWith (world "") ["a.sk"] 0 (fun acts => acts.all isMessage) = true := by decide +kernel

/-! ### C63 -/

/-- C63: exit code 0 means that the output is where the documentation says. -/
def C63_full : Prop :=
  ∀ sys args b stem acts, cliMain sys.colorEnv args = .run b → Source b stem → skull sys args = some (0, acts) →
    sys.read (stem ++ ".sk".toList) ≠ some [] →
    ∃ file t a s, sys.read (stem ++ ".sk".toList) = some file ∧ ProgramIn b.werror file t ∧ semantic (checkCfg sys b) t = .ok a s ∧
      Delivered sys b stem a s acts

theorem source_a {b : BuildData} (h : b.filename = some "a.sk".toList) : Source b ['a'] :=
  ⟨h, by unfold NulFree; decide, by decide⟩

/-- C63 is false: `skull -o out a.sk` removes `out`, and the binary is in `a`. -/
theorem C63_false : ¬ C63_full := by
  intro h
  obtain ⟨acts, hs, hp⟩ := ranWith_true (sys := world "return 0\n") (l := ["-o", "out", "a.sk"]) (code := 0)
    (p := fun acts => acts.any (isRemove "out".toList)) (by decide +kernel)
  have hb : cliMain none (argv ["-o", "out", "a.sk"]) = .run { filename := some "a.sk".toList, outFile := some "out".toList } := by
    decide +kernel
  obtain ⟨_, _, _, _, _, _, _, hd⟩ := h (world "return 0\n") _ _ ['a'] acts hb (source_a rfl) hs (by decide +kernel)
  have := hd.1 "out".toList (by decide)
  obtain ⟨x, hx, hr⟩ := List.any_eq_true.1 hp
  cases x <;> simp [isRemove] at hr
  subst hr
  exact this hx

/-- C63 is false: a linker that a signal ends counts as a success. -/
theorem C63_signal_false : ¬ C63_full := by
  intro h
  obtain ⟨acts, hs, _⟩ := ranWith_true (sys := { world "return 0\n" with wait := fun _ => 9 }) (l := ["a.sk"]) (code := 0)
    (p := fun _ => true) (by decide +kernel)
  have hb : cliMain none (argv ["a.sk"]) = .run { filename := some "a.sk".toList } := by decide +kernel
  obtain ⟨_, _, _, _, _, _, _, hd⟩ := h { world "return 0\n" with wait := fun _ => 9 } _ _ ['a'] acts hb (source_a rfl) hs
    (by decide +kernel)
  obtain ⟨_, _, _, _, _, _, _, _, _, hw⟩ := hd
  cases hw

/-- C63, unless `-o` is given for a binary or the linker is ended by a signal: exit code 0 means that the output is where the
documentation says. -/
theorem C63_delivered_partial (sys : Sys) (args : List (List Char)) (b : BuildData) (stem : List Char) (acts : List Act)
    (hb : cliMain sys.colorEnv args = .run b) (hsrc : Source b stem) (h : skull sys args = some (0, acts))
    (hne : sys.read (stem ++ ".sk".toList) ≠ some [])
    (hout : format b = .bin → b.outFile = none) (hwait : ∀ cmd, sys.wait cmd % 256 = 0 ∧ sys.wait cmd < 65536) :
    ∃ file t a s, sys.read (stem ++ ".sk".toList) = some file ∧ ProgramIn b.werror file t ∧ semantic (checkCfg sys b) t = .ok a s ∧
      Delivered sys b stem a s acts := by
  rcases skull_went h with ⟨h1, _⟩ | ⟨b', f, err, hb', hf, hc, hw⟩
  · rw [hb] at h1; cases h1
  · rw [hb] at hb'
    cases hb'
    rw [hsrc.name] at hf
    cases hf
    cases err with
    | true => cases hc
    | false =>
      generalize he : false = err at hw
      cases hw with
      | refused _ => cases he
      | empty hr hm => exact absurd hr hne
      | @generated file t a s err acts ds hr hp hs hbk hm =>
        subst he
        have hd := backend_delivers hsrc hout hwait hbk
        refine ⟨file, t, a, s, hr, hp, hs, ?_⟩
        have hmem : ∀ x, x ∈ acts → x ∈ acts ++ ds := fun x hx => List.mem_append_left _ hx
        refine ⟨fun p hpl hmem => ?_, ?_⟩
        · rcases List.mem_append.1 hmem with h1 | h1
          · exact hd.1 p hpl h1
          · have := hm _ h1; cases this
        · have h2 := hd.2
          revert h2
          cases format b <;> cases outputAt b stem <;> simp only <;> intro h2
          all_goals first
            | exact h2
            | (obtain ⟨t, h1, h2⟩ := h2; exact ⟨t, h1, hmem _ h2⟩)
            | (obtain ⟨m, m', o, h1, h2, h3, h4, h5, h6⟩ := h2
               exact ⟨m, m', o, h1, h2, hmem _ h3, h4, hmem _ h5, h6⟩)

example : ranWith (world "return 0\n") ["a.sk", "--c-backend"] 0 (fun acts => acts.any (isWrite ".a.sk.c".toList)) = true := by
  decide +kernel

/-! ### C64 -/

/-- The file that an action writes or removes. -/
def Spec.touches : Act → Option (List Char)
  | .write p _ | .module p _ | .emit p _ _ | .remove p => some p
  | _ => none

theorem touches_mute {acts : List Act} (hm : Mute acts) {x p} (hx : x ∈ acts) : touches x ≠ some p := by
  have := hm x hx
  cases x <;> first | (intro h; cases h; done) | cases this

theorem getNew_touched {b : BuildData} {stem ext out : List Char} (hs : Source b stem) (hb : (b.preprocess || b.cBackend) = true)
    (he : NulFree ext ∧ ext.length ≤ 2)
    (h : getNewFilename b.outFile b.preprocess b.cBackend (stem ++ ".sk".toList) ext = some out) (hd : out ≠ ['-']) :
    b.outFile = some out ∨ (b.outFile = none ∧ out = hidden (stem ++ ".sk".toList) ext) := by
  unfold getNewFilename at h
  cases ho : b.outFile with
  | some o => rw [ho] at h; simp only [hb, if_true] at h; cases h; exact .inl rfl
  | none =>
    rw [ho] at h
    simp only at h
    split at h
    · cases h; exact absurd rfl hd
    · rw [hs.derived he.1 he.2] at h; cases h; exact .inr ⟨rfl, rfl⟩

theorem alt_touched {b : BuildData} {stem ext out : List Char} (hs : Source b stem) (he : NulFree ext ∧ ext.length ≤ 2)
    (h : (b.outFile <|> genFilename (stem ++ ".sk".toList) ext) = some out) :
    b.outFile = some out ∨ (b.outFile = none ∧ out = hidden (stem ++ ".sk".toList) ext) := by
  cases ho : b.outFile with
  | some o => rw [ho] at h; cases h; exact .inl rfl
  | none =>
    rw [ho, show (none <|> genFilename (stem ++ ".sk".toList) ext) = genFilename (stem ++ ".sk".toList) ext from rfl,
      hs.derived he.1 he.2] at h
    cases h; exact .inr ⟨rfl, rfl⟩

theorem backend_touches {sys b stem a s err acts} (hs : Source b stem) (h : backend sys b (stem ++ ".sk".toList) a s = some (err, acts))
    {x p} (hx : x ∈ acts) (ht : touches x = some p) :
    b.outFile = some p ∨ (b.outFile = none ∧ ∃ ext ∈ ["c".toList, "ll".toList, "s".toList, "o".toList],
      p = hidden (stem ++ ".sk".toList) ext) := by
  have fin : ∀ ext ∈ ["c".toList, "ll".toList, "s".toList, "o".toList],
      (b.outFile = some p ∨ (b.outFile = none ∧ p = hidden (stem ++ ".sk".toList) ext)) →
      b.outFile = some p ∨ (b.outFile = none ∧ ∃ ext ∈ ["c".toList, "ll".toList, "s".toList, "o".toList],
      p = hidden (stem ++ ".sk".toList) ext) := by
    rintro ext hm (h | ⟨h, e⟩)
    · exact .inl h
    · exact .inr ⟨h, ext, hm, e⟩
  have nc : ∀ ext ∈ ["c".toList, "ll".toList, "s".toList, "o".toList], NulFree ext ∧ ext.length ≤ 2 := by unfold NulFree; decide
  unfold backend at h
  split at h
  · rename_i hc
    obtain ⟨-, text, out, _, ho, hacts⟩ := backendC_acts hs.name h
    simp only at hacts
    subst hacts
    split at hx
    · cases List.mem_singleton.1 hx; cases ht
    · rename_i hd
      cases List.mem_singleton.1 hx; cases ht
      exact fin ['c'] (by decide) (getNew_touched hs (by simp [hc]) (nc _ (by decide)) ho hd)
  · obtain ⟨m, _, hw⟩ := backendL_wrote hs.name hs.ne_dash h
    simp only at hw
    cases hw with
    | refused => cases List.mem_singleton.1 hx; cases ht
    | printed _ _ => cases List.mem_singleton.1 hx; cases ht
    | @written out hp ho hd =>
      cases List.mem_singleton.1 hx; cases ht
      exact fin "ll".toList (by decide) (getNew_touched hs (by simp [hp]) (nc _ (by decide)) (by rw [hp]; exact ho) hd)
    | assembly _ _ ho =>
      cases List.mem_singleton.1 hx; cases ht
      exact fin ['s'] (by decide) (alt_touched hs (nc _ (by decide)) ho)
    | object _ _ _ ho _ =>
      cases List.mem_singleton.1 hx; cases ht
      exact fin ['o'] (by decide) (alt_touched hs (nc _ (by decide)) ho)
    | directory _ _ ho _ _ =>
      simp only [List.mem_cons, List.not_mem_nil, or_false] at hx
      rcases hx with rfl | rfl
      · cases ht
        exact fin ['o'] (by decide) (alt_touched hs (nc _ (by decide)) ho)
      · cases ht
    | linked _ _ ho _ _ =>
      simp only [List.mem_cons, List.not_mem_nil, or_false] at hx
      rcases hx with rfl | rfl | rfl
      · cases ht
        exact fin ['o'] (by decide) (alt_touched hs (nc _ (by decide)) ho)
      · cases ht
      · cases ht
        exact fin ['o'] (by decide) (alt_touched hs (nc _ (by decide)) ho)

/-- C64: the compiler writes and removes no file but the one named with `-o`, or without `-o` hidden files next to the source. -/
theorem C64_footprint (sys : Sys) (args : List (List Char)) (b : BuildData) (stem : List Char) (code : Nat) (acts : List Act)
    (hb : cliMain sys.colorEnv args = .run b) (hsrc : Source b stem) (h : skull sys args = some (code, acts))
    (x : Act) (hx : x ∈ acts) (p : List Char) (ht : touches x = some p) :
    b.outFile = some p ∨ (b.outFile = none ∧ ∃ ext ∈ ["c".toList, "ll".toList, "s".toList, "o".toList],
      p = hidden (stem ++ ".sk".toList) ext) := by
  rcases skull_went h with ⟨h1, _⟩ | ⟨b', f, err, hb', hf, hc, hw⟩
  · rw [hb] at h1; cases h1
  · rw [hb] at hb'
    cases hb'
    rw [hsrc.name] at hf
    cases hf
    cases hw with
    | refused hm => exact absurd ht (touches_mute hm hx)
    | empty _ hm => exact absurd ht (touches_mute hm hx)
    | generated _ _ _ hbk hm =>
      rcases List.mem_append.1 hx with h1 | h1
      · exact backend_touches hsrc hbk h1 ht
      · exact absurd ht (touches_mute hm h1)

/-- C64: in particular the source is left alone, unless `-o` names it. -/
theorem C64_source_kept (sys : Sys) (args : List (List Char)) (b : BuildData) (stem : List Char) (code : Nat) (acts : List Act)
    (hb : cliMain sys.colorEnv args = .run b) (hsrc : Source b stem) (h : skull sys args = some (code, acts))
    (hout : b.outFile ≠ b.filename) (x : Act) (hx : x ∈ acts) : touches x ≠ b.filename := by
  intro ht
  rw [hsrc.name] at ht
  rcases C64_footprint sys args b stem code acts hb hsrc h x hx _ ht with h1 | ⟨_, ext, _, h1⟩
  · exact hout (by rw [h1, hsrc.name])
  · have := congrArg List.length h1
    rw [hidden_length] at this
    omega

/-- Nothing keeps `-o` from naming the source: then the object file replaces it, and is removed. -/
example : ranWith (world "return 0\n") ["a.sk", "-o", "a.sk"] 0 (fun acts => acts.any (isRemove "a.sk".toList)) = true := by
  decide +kernel

example : ranWith (world "return 0\n") ["a.sk"] 0 (fun acts => acts.any (isRemove ".a.sk.o".toList)) = true := by decide +kernel

/-! ### C65 -/

/-- The arguments after `--`. -/
def Spec.extraOf : Tail → List (List Char)
  | .extra a as => a :: as
  | _ => []

/-- The same joined with spaces. -/
def joinedOf : Tail → Option (List Char)
  | .extra a as => some (joinSpaces a as)
  | _ => none

/-- The words of the link command. -/
def Spec.linkWords (obj bin : List Char) (extra : List (List Char)) : List (List Char) :=
  ["cc".toList, "-nostartfiles".toList, obj, "-o".toList, bin] ++ extra ++ ["-I/usr/include/skull".toList, "-lm".toList]

/-- C65: the linker gets the object file, the binary and the arguments after `--`, each as one argument. -/
def C65_full : Prop :=
  ∀ sys opts tail stem code acts cmd, CommandLine opts tail → skull sys (render opts tail) = some (code, acts) →
    (∀ b, cliMain sys.colorEnv (render opts tail) = .run b → Source b stem) → Act.shell cmd ∈ acts →
    ∃ obj, shWords false none cmd = some (linkWords obj stem (extraOf tail))

/-- C65 is false: an argument with a space becomes two. -/
theorem C65_false : ¬ C65_full := by
  intro h
  obtain ⟨acts, hs, hp⟩ := ranWith_true (sys := world "return 0\n") (l := ["a.sk", "--", "a b"]) (code := 0)
    (p := fun acts => acts.any (isShell (linkCommand ".a.sk.o".toList ['a'] (some "a b".toList)))) (by decide +kernel)
  obtain ⟨x, hx, hr⟩ := List.any_eq_true.1 hp
  have hxe : x = .shell (linkCommand ".a.sk.o".toList ['a'] (some "a b".toList)) := by
    cases x <;> simp only [isShell, Bool.false_eq_true, beq_iff_eq] at hr
    rw [hr]
  rw [hxe] at hx
  obtain ⟨obj, ho⟩ := h (world "return 0\n") [.file "a.sk".toList] (.extra "a b".toList []) ['a'] 0 acts _
    ⟨by simp [Opt.WF], by unfold NulFree; decide, by intro a as h; cases h; decide⟩ hs
    (fun b hb => source_a (by
      have : cliMain none (argv ["a.sk", "--", "a b"]) = .run { filename := some "a.sk".toList, extraArgs := some "a b".toList } := by
        decide +kernel
      rw [show render [Opt.file "a.sk".toList] (.extra "a b".toList []) = argv ["a.sk", "--", "a b"] from rfl] at hb
      have e : Cli.run _ = Cli.run b := this.symm.trans hb
      cases e; rfl)) hx
  have e : shWords false none (linkCommand ".a.sk.o".toList ['a'] (some "a b".toList)) =
      some (linkWords ".a.sk.o".toList ['a'] ["a".toList, "b".toList]) := by decide +kernel
  rw [e] at ho
  have := congrArg (Option.map List.length) ho
  revert this
  simp [linkWords, extraOf]

theorem run_settings {env opts tail b} (h : CommandLine opts tail) (hb : cliMain env (render opts tail) = .run b) :
    b = settings env opts tail := by
  have hi : NoInfo opts := by
    intro s hs
    obtain ⟨n, hn⟩ := C22_info env opts tail h s hs
    rw [hn] at hb; cases hb
  have hne : render opts tail ≠ [] := by
    intro e
    rw [e] at hb
    cases hb
  by_cases hr : Refused env opts tail
  · rw [C22_refused env opts tail h hi hr hne] at hb; cases hb
  · rw [accepted_core env opts tail h hi hr hne] at hb
    split at hb
    · cases hb
    · split at hb
      · cases hb
      · cases hb; rfl

theorem pieces {l1 l2 l3 l4 x1 x2 x3 x4 x5 : List Char} (h1 : l1 = x1 ++ ' ' :: (x2 ++ [' ', '"'])) (h2 : l2 = '"' :: ' ' :: (x3 ++ [' ', '"']))
    (h3 : l3 = ['"', ' ']) (h4 : l4 = ' ' :: (x4 ++ ' ' :: x5)) (obj bin e : List Char) :
    l1 ++ obj ++ l2 ++ bin ++ l3 ++ e ++ l4 =
      x1 ++ ' ' :: (x2 ++ ' ' :: ('"' :: obj ++ '"' :: (' ' :: (x3 ++ ' ' :: ('"' :: bin ++ '"' ::
        (' ' :: (e ++ ' ' :: (x4 ++ ' ' :: (x5 ++ []))))))))) := by
  subst h1 h2 h3 h4
  simp only [List.append_assoc, List.cons_append, List.nil_append, List.append_nil]

theorem linkCommand_eq (obj bin : List Char) (e : Option (List Char)) : linkCommand obj bin e =
    "cc".toList ++ ' ' :: ("-nostartfiles".toList ++ ' ' :: ('"' :: obj ++ '"' :: (' ' :: ("-o".toList ++ ' ' :: ('"' :: bin ++ '"' ::
      (' ' :: (e.getD [] ++ ' ' :: ("-I/usr/include/skull".toList ++ ' ' :: ("-lm".toList ++ []))))))))) :=
  pieces (by decide) (by decide) (by decide) (by decide) obj bin _

theorem link_words {obj bin : List Char} {tail : Tail} (ho : ∀ c ∈ obj, specialQuoted c = false) (hbn : ∀ c ∈ bin, specialQuoted c = false)
    (he : ∀ x ∈ extraOf tail, x ≠ [] ∧ ∀ c ∈ x, plainChar c = true) :
    shWords false none (linkCommand obj bin (joinedOf tail)) =
      some (linkWords obj bin (extraOf tail)) := by
  have hlast : shWords false none ("-I/usr/include/skull".toList ++ (' ' :: ("-lm".toList ++ []))) =
      some ["-I/usr/include/skull".toList, "-lm".toList] := by decide +kernel
  have hrest : shWords false none ((joinedOf tail).getD [] ++
      (' ' :: ("-I/usr/include/skull".toList ++ (' ' :: ("-lm".toList ++ []))))) =
      some (extraOf tail ++ ["-I/usr/include/skull".toList, "-lm".toList]) := by
    cases tail with
    | extra a as =>
      simp only [joinedOf, Option.getD_some, extraOf] at he ⊢
      rw [shWords_joined a as _ he, hlast]
      rfl
    | none => simp only [joinedOf, Option.getD_none, List.nil_append, extraOf, shWords_blank, hlast]; rfl
    | missingOut => simp only [joinedOf, Option.getD_none, List.nil_append, extraOf, shWords_blank, hlast]; rfl
    | missingExtra => simp only [joinedOf, Option.getD_none, List.nil_append, extraOf, shWords_blank, hlast]; rfl
  rw [linkCommand_eq, shWords_begin (by decide) (by decide), shWords_blank, shWords_begin (by decide) (by decide), shWords_blank,
    shWords_quoted ho, shWords_blank, shWords_begin (by decide) (by decide), shWords_blank, shWords_quoted hbn, shWords_blank, hrest]
  simp [linkWords]

theorem special_hidden {stem : List Char} (h : ∀ c ∈ stem, specialQuoted c = false) :
    ∀ c ∈ hidden (stem ++ ".sk".toList) ['o'], specialQuoted c = false := by
  intro c hc
  have hsub : c ∈ stem ++ ".sk".toList ∨ c = '.' ∨ c = 'o' := by
    simp only [hidden, List.mem_append, List.mem_cons, List.not_mem_nil, or_false] at hc
    unfold dirPart basePart at hc
    rcases hc with (hc | hc | hc) | hc | hc
    · exact .inl (List.mem_reverse.1 ((List.dropWhile_sublist _).subset (List.mem_reverse.1 hc)))
    · exact .inr (.inl hc)
    · exact .inl (List.mem_reverse.1 ((List.takeWhile_sublist _).subset (List.mem_reverse.1 hc)))
    · exact .inr (.inl hc)
    · exact .inr (.inr hc)
  rcases hsub with h1 | h1 | h1
  · rcases List.mem_append.1 h1 with h2 | h2
    · exact h c h2
    · exact (by decide : ∀ c ∈ ".sk".toList, specialQuoted c = false) c h2
  · subst h1; decide
  · subst h1; decide

/-- C65, when no name has a quote, dollar, backtick or backslash, and the arguments after `--` are of plain characters: the linker gets
the object file, the binary and the arguments after `--`, each as one argument. -/
theorem C65_words_partial (sys : Sys) (opts : List Opt) (tail : Tail) (stem : List Char) (code : Nat) (acts : List Act) (cmd : List Char)
    (hcl : CommandLine opts tail) (h : skull sys (render opts tail) = some (code, acts))
    (hsrc : ∀ b, cliMain sys.colorEnv (render opts tail) = .run b → Source b stem) (hx : Act.shell cmd ∈ acts)
    (hst : ∀ c ∈ stem, specialQuoted c = false) (hou : ∀ o ∈ outs opts, ∀ c ∈ o, specialQuoted c = false)
    (hex : ∀ x ∈ extraOf tail, x ≠ [] ∧ ∀ c ∈ x, plainChar c = true) :
    ∃ obj, (Act.remove obj ∈ acts ∧ (outs opts = [] → obj = hidden (stem ++ ".sk".toList) ['o'])) ∧
      shWords false none cmd = some (linkWords obj stem (extraOf tail)) := by
  rcases skull_went h with ⟨_, hm⟩ | ⟨b, f, err, hb, hf, hc, hw⟩
  · have := hm _ hx; cases this
  · have hs := hsrc b hb
    have hset := run_settings hcl hb
    rw [hs.name] at hf
    cases hf
    cases hw with
    | refused hm => have := hm _ hx; cases this
    | empty _ hm => have := hm _ hx; cases this
    | generated _ _ _ hbk hm =>
      rcases List.mem_append.1 hx with hx | hx
      · unfold backend at hbk
        split at hbk
        · obtain ⟨-, text, out, _, ho, hacts⟩ := backendC_acts hs.name hbk
          simp only at hacts
          subst hacts
          split at hx <;> cases List.mem_singleton.1 hx
        · obtain ⟨m, _, hwr⟩ := backendL_wrote hs.name hs.ne_dash hbk
          simp only at hwr
          cases hwr with
          | refused => cases List.mem_singleton.1 hx
          | printed _ _ => cases List.mem_singleton.1 hx
          | written _ _ _ => cases List.mem_singleton.1 hx
          | assembly _ _ _ => cases List.mem_singleton.1 hx
          | object _ _ _ _ _ => cases List.mem_singleton.1 hx
          | directory _ _ _ _ _ => simp at hx
          | @linked m' out name _ _ ho hn _ =>
            simp only [List.mem_cons, List.not_mem_nil, or_false, reduceCtorEq, false_or, Act.shell.injEq] at hx
            subst hx
            rw [binaryName_stem] at hn
            cases hn
            have hout := alt_touched hs ⟨by unfold NulFree; decide, by decide⟩ ho
            have hofile : b.outFile = (outs opts).getLast? := by rw [hset]; rfl
            have hextra : b.extraArgs = (joinedOf tail) := by rw [hset]; cases tail <;> rfl
            refine ⟨out, ⟨List.mem_append_left _ (by simp), fun he => ?_⟩, ?_⟩
            · rcases hout with h1 | h1
              · rw [hofile, he] at h1; cases h1
              · exact h1.2
            · rw [hextra]
              refine link_words ?_ hst hex
              rcases hout with h1 | h1
              · exact hou out (List.mem_of_getLast? (hofile ▸ h1))
              · rw [h1.2]; exact special_hidden hst
      · have := hm _ hx; cases this

example : shWords false none (linkCommand ".a.sk.o".toList ['a'] (some "-lc x.o".toList)) =
    some (argv ["cc", "-nostartfiles", ".a.sk.o", "-o", "a", "-lc", "x.o", "-I/usr/include/skull", "-lm"]) := by decide +kernel

end Skull
