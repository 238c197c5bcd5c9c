import Verif.Proofs.Driver
/-
Where the output goes.
-/
namespace Skull
open Spec

theorem takeWhile_stop {α} {p : α → Bool} : ∀ {l : List α} {a r}, (∀ x ∈ l, p x = true) → p a = false → (l ++ a :: r).takeWhile p = l
  | [], a, r, _, h => by simp [h]
  | b :: l, a, r, hl, h => by
    rw [List.cons_append, List.takeWhile_cons, if_pos (hl b (by simp)), takeWhile_stop (fun x hx => hl x (by simp [hx])) h]

theorem takeWhile_whole {α} {p : α → Bool} : ∀ {l : List α}, (∀ x ∈ l, p x = true) → l.takeWhile p = l
  | [], _ => rfl
  | b :: l, hl => by
    rw [List.takeWhile_cons, if_pos (hl b (by simp)), takeWhile_whole (fun x hx => hl x (by simp [hx]))]

theorem dropWhile_stop {α} {p : α → Bool} : ∀ {l : List α} {a r}, (∀ x ∈ l, p x = true) → p a = false → (l ++ a :: r).dropWhile p = a :: r
  | [], a, r, _, h => by simp [h]
  | b :: l, a, r, hl, h => by
    rw [List.cons_append, List.dropWhile_cons, if_pos (hl b (by simp)), dropWhile_stop (fun x hx => hl x (by simp [hx])) h]

theorem dropWhile_whole {α} {p : α → Bool} : ∀ {l : List α}, (∀ x ∈ l, p x = true) → l.dropWhile p = []
  | [], _ => rfl
  | b :: l, hl => by
    rw [List.dropWhile_cons, if_pos (hl b (by simp)), dropWhile_whole (fun x hx => hl x (by simp [hx]))]

theorem parts_eq {d b : List Char} (hd : IsDir d) (hb : IsBase b) : dirPart (d ++ b) = d ∧ basePart (d ++ b) = b := by
  have hp : ∀ x ∈ b.reverse, decide (x ≠ '/') = true := by
    intro x hx
    simp only [List.mem_reverse] at hx
    simp only [decide_eq_true_eq]
    intro e; subst e; exact hb hx
  unfold dirPart basePart
  rcases hd with rfl | ⟨d', rfl⟩
  · rw [List.nil_append, dropWhile_whole hp, takeWhile_whole hp]
    simp
  · rw [List.reverse_append, List.reverse_append, List.reverse_singleton, List.singleton_append, dropWhile_stop hp (by decide),
      takeWhile_stop hp (by decide)]
    simp

/-- The derived name is the hidden one. -/
theorem genFilename_hidden {path ext : List Char} (hn : NulFree path) (he : NulFree ext) (hs : path.length + ext.length + 3 < 2 ^ 64) :
    genFilename path ext = some (hidden path ext) := by
  obtain ⟨d, b, rfl, hd, hb⟩ := path_split path
  rw [genFilename_eq d b ext hd hb hn he hs]
  obtain ⟨h1, h2⟩ := parts_eq hd hb
  rw [hidden, h1, h2]

theorem hidden_length (path ext : List Char) : (hidden path ext).length = path.length + ext.length + 2 := by
  obtain ⟨d, b, rfl, hd, hb⟩ := path_split path
  obtain ⟨h1, h2⟩ := parts_eq hd hb
  rw [hidden, h1, h2]
  simp
  omega

theorem hidden_ne_dash (path ext : List Char) : hidden path ext ≠ ['-'] := by
  intro h
  have := congrArg List.length h
  rw [hidden_length] at this
  simp at this

theorem binaryName_stem (stem : List Char) : binaryName (stem ++ ".sk".toList) = some stem := by
  unfold binaryName
  rw [if_pos (by simp)]
  have : (stem ++ ".sk".toList).reverse = ['k', 's'] ++ '.' :: stem.reverse := by simp
  rw [this, dropWhile_stop (by decide) (by decide)]
  simp

/-- Settings that name a source `stem.sk` of a reasonable length. -/
structure Source (b : BuildData) (stem : List Char) : Prop where
  name : b.filename = some (stem ++ ".sk".toList)
  nul : NulFree stem
  size : stem.length + 8 < 2 ^ 64

theorem Source.nulFree {b stem} (h : Source b stem) : NulFree (stem ++ ".sk".toList) := by
  have := h.nul
  unfold NulFree at this ⊢
  simp [this]

theorem Source.derived {b stem} (h : Source b stem) {ext : List Char} (he : NulFree ext) (hl : ext.length ≤ 2) :
    genFilename (stem ++ ".sk".toList) ext = some (hidden (stem ++ ".sk".toList) ext) :=
  genFilename_hidden h.nulFree he (by have := h.size; simp; omega)

theorem Source.ne_dash {b stem} (_ : Source b stem) : stem ++ ".sk".toList ≠ ['-'] := by
  intro e
  have := congrArg List.length e
  simp at this

theorem getNew_outputAt {b : BuildData} {stem ext out : List Char} (hs : Source b stem) (hb : (b.preprocess || b.cBackend) = true)
    (hext : b.preprocess = false → ext = (format b).ext ∧ NulFree ext ∧ ext.length ≤ 2 ∧ format b ≠ .bin)
    (h : getNewFilename b.outFile b.preprocess b.cBackend (stem ++ ".sk".toList) ext = some out) :
    outputAt b stem = if out = ['-'] then none else some out := by
  unfold getNewFilename at h
  unfold outputAt
  cases ho : b.outFile with
  | some o =>
    rw [ho] at h
    simp only [hb, if_true] at h
    cases h
    rfl
  | none =>
    rw [ho] at h
    simp only at h ⊢
    cases hp : b.preprocess with
    | true => rw [hp] at h; cases h; rfl
    | false =>
      obtain ⟨h1, h2, h3, h4⟩ := hext hp
      rw [hp] at h
      simp only [Bool.false_eq_true, if_false] at h ⊢
      rw [hs.derived h2 h3] at h
      cases h
      rw [if_neg h4, if_neg (hidden_ne_dash _ _), h1]

/-- A back end that succeeds has delivered. -/
theorem backend_delivers {sys b stem a s acts} (hs : Source b stem) (hout : format b = .bin → b.outFile = none)
    (hwait : ∀ cmd, sys.wait cmd % 256 = 0 ∧ sys.wait cmd < 65536)
    (h : backend sys b (stem ++ ".sk".toList) a s = some (false, acts)) : Delivered sys b stem a s acts := by
  unfold backend at h
  split at h
  · rename_i hc
    obtain ⟨-, text, out, ht, ho, hacts⟩ := backendC_acts hs.name h
    have hfmt : format b = .c := by simp [format, hc]
    have hpl := getNew_outputAt hs (by simp [hc]) (fun _ => by rw [hfmt]; exact ⟨rfl, by unfold NulFree; decide, by decide, by decide⟩) ho
    simp only at hacts
    unfold Delivered
    rw [hfmt, hpl]
    subst hacts
    by_cases hd : out = ['-']
    · simp only [if_pos hd]
      exact ⟨(fun p hp => by cases hp), text, ht, by simp⟩
    · simp only [if_neg hd]
      exact ⟨(fun p hp => by simp), text, ht, by simp⟩
  · rename_i hc
    obtain ⟨m, hm, hw⟩ := backendL_wrote hs.name hs.ne_dash h
    simp only at hw
    have hcf : b.cBackend = false := by simpa using hc
    generalize he : false = err at hw
    cases hw with
    | refused => cases he
    | directory => cases he
    | printed hp ho =>
      have hfmt : format b = .ir := by simp [format, hcf, hp]
      have hpl := getNew_outputAt hs (ext := "ll".toList) (out := ['-']) (by simp [hp]) (fun h => by simp [hp] at h) (by rw [hp]; exact ho)
      unfold Delivered
      rw [hfmt, hpl]
      exact ⟨fun p hp => by simp at hp, m, hm, by simp⟩
    | @written out hp ho hd =>
      have hfmt : format b = .ir := by simp [format, hcf, hp]
      have hpl := getNew_outputAt hs (ext := "ll".toList) (by simp [hp]) (fun h => by simp [hp] at h) (by rw [hp]; exact ho)
      unfold Delivered
      rw [hfmt, hpl, if_neg hd]
      exact ⟨fun p hp => by simp, m, hm, by simp⟩
    | @assembly out hp ha ho =>
      have hfmt : format b = .asm := by simp [format, hcf, hp, ha]
      unfold Delivered outputAt
      rw [hfmt]
      cases hof : b.outFile with
      | some o =>
        rw [hof] at ho
        cases ho
        by_cases hd : out = ['-']
        · subst hd
          exact ⟨fun p hp => by simp at hp, m, hm, by simp⟩
        · simp only [if_neg hd]
          exact ⟨fun p hp => by simp, m, hm, by simp⟩
      | none =>
        rw [hof, show (none <|> genFilename (stem ++ ".sk".toList) ['s']) = genFilename (stem ++ ".sk".toList) ['s'] from rfl,
          hs.derived (by unfold NulFree; decide) (by decide)] at ho
        cases ho
        simp only [hp]
        exact ⟨fun p hp => by simp, m, hm, by simp [Format.ext]⟩
    | @object out hp ha hco ho hd =>
      have hfmt : format b = .obj := by simp [format, hcf, hp, ha, hco]
      unfold Delivered outputAt
      rw [hfmt]
      cases hof : b.outFile with
      | some o =>
        rw [hof] at ho
        cases ho
        simp only [if_neg hd]
        exact ⟨fun p hp => by simp, m, hm, by simp⟩
      | none =>
        rw [hof, show (none <|> genFilename (stem ++ ".sk".toList) ['o']) = genFilename (stem ++ ".sk".toList) ['o'] from rfl,
          hs.derived (by unfold NulFree; decide) (by decide)] at ho
        cases ho
        simp only [hp]
        exact ⟨fun p hp => by simp, m, hm, by simp [Format.ext]⟩
    | @linked m' out name hwb hst ho hn hd =>
      have hfmt : format b = .bin := by
        simp only [willBuildBinary, Bool.not_eq_true', Bool.or_eq_false_iff] at hwb
        simp [format, hcf, hwb.1.1, hwb.1.2, hwb.2]
      have hpre : b.preprocess = false := by
        simp only [willBuildBinary, Bool.not_eq_true', Bool.or_eq_false_iff] at hwb
        exact hwb.1.1
      have hof := hout hfmt
      rw [hof, show (none <|> genFilename (stem ++ ".sk".toList) ['o']) = genFilename (stem ++ ".sk".toList) ['o'] from rfl,
          hs.derived (by unfold NulFree; decide) (by decide)] at ho
      cases ho
      rw [binaryName_stem] at hn
      cases hn
      have hne : hidden (stem ++ ".sk".toList) ['o'] ≠ stem := by
        intro e
        have := congrArg List.length e
        rw [hidden_length] at this
        simp at this
        omega
      have hw0 : sys.wait (linkCommand (hidden (stem ++ ".sk".toList) ['o']) stem b.extraArgs) = 0 := by
        have h1 := hwait (linkCommand (hidden (stem ++ ".sk".toList) ['o']) stem b.extraArgs)
        have h2 : wexitstatus (sys.wait (linkCommand (hidden (stem ++ ".sk".toList) ['o']) stem b.extraArgs)) = 0 := by
          simpa using he.symm
        unfold wexitstatus at h2
        omega
      unfold Delivered outputAt
      rw [hfmt, hof]
      simp only [hpre]
      refine ⟨fun p hp => ?_, m, m', _, hm, hst, by simp, hne, by simp, hw0⟩
      simp only [Bool.false_eq_true, if_false, if_true] at hp
      cases hp
      simp
      exact fun e => hne e.symm

end Skull
