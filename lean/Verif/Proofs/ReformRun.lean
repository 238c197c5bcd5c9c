import Verif.Proofs.Reformat
import Verif.Proofs.ReformGen
import Verif.Model.Driver
import Verif.Props.Literal
/-
Files with the same tokens are compiled to the same.
-/
namespace Skull.Reform
open Spec

variable {e : Token → Token}

theorem backend_eq {sys : Sys} {b : BuildData} {f : List Char} (hd : b.debug = false) (syms : List Symbol) (a : ATree) :
    (if b.cBackend then runBackendC sys b f (syms.map (relabelSym e)) (relabelAT e a) else runBackendL sys b f (syms.map (relabelSym e)) (relabelAT e a)) =
    (if b.cBackend then runBackendC sys b f syms a else runBackendL sys b f syms a) := by
  split
  · unfold runBackendC
    dsimp only
    rw [hd]
    have := moduleC_eq (e := e) (cfg := { syms := syms, debug := none, fmtA := sys.fmtA }) rfl a
    simp only [Bool.false_eq_true, if_false]
    rw [this]
    rfl
  · unfold runBackendL
    rw [List.getElem?_map]
    cases syms[0]? with
    | none => rfl
    | some m =>
      simp only [Option.map_some, relabelSym]
      have := codegenL_eq (e := e) ⟨syms, sys.fold, b.debug⟩ m.linkageName a
      rw [this]

theorem codes_eq (ds : List PDiag) : (ds.map (relabelDiag e)).reverse.map PDiag.code = ds.reverse.map PDiag.code := by
  rw [← List.map_reverse, List.map_map]
  rfl

theorem check_eq (he : KeepsMeaning e) {sys : Sys} {b : BuildData} {f : List Char} {before : List Code} (hd : b.debug = false) (t : Tree) :
    checkAndGenerate sys b f before (relabel e t) = checkAndGenerate sys b f before t := by
  unfold checkAndGenerate
  rw [semantic_eq he]
  cases semantic (checkCfg sys b) t with
  | ub => rfl
  | fail s =>
    simp only [relabelSRes, relabelSS, codes_eq]
  | ok a s =>
    simp only [relabelSRes, relabelSS, codes_eq]
    rw [backend_eq hd]

/-- What is done behind the parser. -/
def afterParse (sys : Sys) (b : BuildData) (f : List Char) (before : List Code) : TRes → Option Ran
  | .ub | .fuel => none
  | .ok none s => some (true, flush b (before ++ s.diags.reverse.map PDiag.code))
  | .ok (some (.node .unknown _ _ .nil _)) _ => some (true, flush b (before ++ [.warnFileEmpty]))
  | .ok (some t) _ => checkAndGenerate sys b f before t

theorem after_eq (he : KeepsMeaning e) {sys : Sys} {b : BuildData} {f : List Char} {before : List Code} (hd : b.debug = false) (r : TRes) :
    afterParse sys b f before (relabelRes e r) = afterParse sys b f before r := by
  cases r with
  | ub => rfl
  | fuel => rfl
  | ok o s =>
    cases o with
    | none => simp only [relabelRes, Option.map_none, afterParse, relabelPS, codes_eq]
    | some t =>
      have h := check_eq he (sys := sys) (f := f) (before := before) hd t
      cases t with
      | nil => exact h
      | node st tok tokEnd child next =>
        cases st <;> simp only [relabelRes, Option.map_some, relabel, relabelS] at h ⊢
        case unknown =>
          cases child <;> simp only [relabel] at h ⊢
          · rfl
          · exact h
        all_goals exact h

theorem pipeline_after {sys : Sys} {b : BuildData} {f : List Char} {contents : List UInt8} {src : List Char} {toks : List Token}
    (h1 : mbstoc32s contents = some src) (h2 : TokensOf b.werror src toks) :
    runPipeline sys b f contents = afterParse sys b f (bomDiags src) (parseAstTree toks) := by
  obtain ⟨ts, h2, h3⟩ := h2
  unfold runPipeline
  rw [h1]
  simp only [h2, h3]
  cases parseAstTree toks with
  | ub => rfl
  | fuel => rfl
  | ok o s =>
    cases o with
    | none => rfl
    | some t =>
      cases t with
      | nil => rfl
      | node st tok tokEnd child next =>
        cases st <;> (try rfl) <;> (cases child <;> rfl)

/- ### One token for all that mean the same -/

theorem SameMeaning.refl (t : Token) : SameMeaning t t :=
  ⟨rfl, rfl, fun _ => rfl, fun _ _ _ _ _ => rfl, fun _ => rfl, fun _ => rfl, fun _ => rfl⟩

theorem SameMeaning.symm {t t' : Token} (h : SameMeaning t t') : SameMeaning t' t :=
  ⟨h.kind.symm, h.text.symm, fun k => (h.int (h.kind.trans k)).symm, fun k f a b c => (h.float (h.kind.trans k) f a b c).symm,
    fun k => (h.bool (h.kind.trans k)).symm, fun k => (h.rune (h.kind.trans k)).symm, fun k => (h.str (h.kind.trans k)).symm⟩

theorem SameMeaning.trans {t t' u : Token} (h : SameMeaning t t') (h' : SameMeaning t' u) : SameMeaning t u :=
  ⟨h.kind.trans h'.kind, h.text.trans h'.text, fun k => (h.int k).trans (h'.int (h.kind.symm.trans k)),
    fun k f a b c => (h.float k f a b c).trans (h'.float (h.kind.symm.trans k) f a b c),
    fun k => (h.bool k).trans (h'.bool (h.kind.symm.trans k)), fun k => (h.rune k).trans (h'.rune (h.kind.symm.trans k)),
    fun k => (h.str k).trans (h'.str (h.kind.symm.trans k))⟩

noncomputable def canon (t : Token) : Token := Classical.epsilon fun u => SameMeaning t u

theorem canon_keeps : KeepsMeaning canon := fun t => Classical.epsilon_spec (p := fun u => SameMeaning t u) ⟨t, SameMeaning.refl t⟩

theorem canon_eq {t t' : Token} (h : SameMeaning t t') : canon t = canon t' := by
  unfold canon
  congr 1
  funext u
  exact propext ⟨fun k => SameMeaning.trans (SameMeaning.symm h) k, fun k => SameMeaning.trans h k⟩

theorem canon_map {toks toks' : List Token} (h : Paired SameMeaning toks toks') : toks.map canon = toks'.map canon := by
  induction h with
  | nil => rfl
  | cons h _ ih => rw [List.map_cons, List.map_cons, canon_eq h, ih]

theorem parse_canon {toks toks' : List Token} (h : Paired SameMeaning toks toks') :
    relabelRes canon (parseAstTree toks) = relabelRes canon (parseAstTree toks') := by
  have hk : KeepsKind canon := fun t => (canon_keeps t).kind.symm
  rw [← Relab.parse_eq hk, ← Relab.parse_eq hk, canon_map h]

theorem run_eq {sys : Sys} {b : BuildData} {f : List Char} {contents contents' : List UInt8} {src src' : List Char} {toks toks' : List Token}
    (h1 : mbstoc32s contents = some src) (h1' : mbstoc32s contents' = some src')
    (h2 : TokensOf b.werror src toks) (h2' : TokensOf b.werror src' toks') (hb : bomDiags src = bomDiags src')
    (hd : b.debug = false) (h : Paired SameMeaning toks toks') : runPipeline sys b f contents = runPipeline sys b f contents' := by
  rw [pipeline_after h1 h2, pipeline_after h1' h2', ← after_eq canon_keeps hd, parse_canon h, after_eq canon_keeps hd, hb]

/- ### The text settles the meaning, but for integers before underscores -/

theorem hex_local : ∀ (s : List Char) (prev : Char) (i v : Nat), ∃ i' v' p' r, ∀ after,
    hexLoop (s ++ '\'' :: after) prev i v = (i', v', p', r ++ '\'' :: after)
  | [], prev, i, v => ⟨i, v, prev, [], fun after => by
      simp only [List.nil_append, hexLoop]
      rw [if_neg (by have : c32isxdigit '\'' = false := by decide
                     simp [this])]⟩
  | c :: s, prev, i, v => by
    by_cases h : (c32isxdigit c && decide (i < 8)) = true
    · obtain ⟨i', v', p', r, hr⟩ := hex_local s c (i + 1) ((v * 16 + c32unhex c) % 2 ^ 32)
      exact ⟨i', v', p', r, fun after => by rw [List.cons_append, hexLoop, if_pos h]; exact hr after⟩
    · exact ⟨i, v, prev, c :: s, fun after => by rw [List.cons_append, hexLoop, if_neg h]⟩

theorem head_local (s after after' : List Char) : (s ++ '\'' :: after).head? = (s ++ '\'' :: after').head? := by cases s <;> rfl

theorem end_head {s : List Char} (h : ChunkEnd s) : s.head? ≠ some '\'' := by
  rcases h with rfl | ⟨c, s', rfl, h⟩
  · simp
  · simp only [List.head?_cons, ne_eq, Option.some.injEq]
    rintro rfl
    rcases h with h | h
    · exact absurd h (by unfold Blank; decide)
    · exact absurd h (by unfold Delim; decide)

/-- What follows on reading an escape sequence. -/
def runeTail : Option (Nat × List Char) → Ev Nat
  | none => .badEscape
  | some (ret, start') =>
    match start' with
    | [] => .ub
    | _ :: rest => if rest.head? ≠ some '\'' then .runeTooLong else if !isScalar ret then .illegalSeq else .ok ret

theorem evalRune_tail (q c : Char) (s : List Char) (t : Token) (h : t.begin = some (q :: c :: s)) :
    evalRune t = if c.toNat > 255 then .ub else if cIsCntrl c.toNat then .controlChar else runeTail (c32sunescape (c :: s)) := by
  unfold evalRune
  rw [h]
  dsimp only
  split
  · rfl
  · split
    · rfl
    · rcases c32sunescape (c :: s) with _ | ⟨ret, _ | ⟨d, rest⟩⟩ <;> rfl

theorem rune_local {text after after' : List Char} (ht : isConstantRune text = true) (ha : ChunkEnd after) (ha' : ChunkEnd after') {t t' : Token}
    (h : t.begin = some (text ++ after)) (h' : t'.begin = some (text ++ after')) : evalRune t = evalRune t' := by
  unfold isConstantRune at ht
  split at ht
  · cases ht
  · rename_i hq
    simp only [Bool.or_eq_true, decide_eq_true_eq, not_or, ne_eq, Decidable.not_not] at hq
    obtain ⟨q1, q2⟩ := hq
    cases text with
    | nil => cases q1
    | cons q mid =>
      simp only [List.head?_cons, Option.some.injEq] at q1
      subst q1
      cases hm : mid.reverse with
      | nil =>
        rw [List.reverse_eq_nil_iff] at hm
        subst hm
        simp at ht
      | cons z rm =>
        have hmid : mid = rm.reverse ++ [z] := by rw [← List.reverse_reverse mid, hm, List.reverse_cons]
        subst hmid
        have hz : z = '\'' := by
          rw [← List.cons_append, List.getLast?_concat] at q2
          exact Option.some.inj q2
        subst hz
        generalize rm.reverse = body at *
        cases body with
        | nil => simp at ht
        | cons c s =>
          have g : ∀ (a : List Char) (u : Token), u.begin = some ('\'' :: (c :: s ++ ['\'']) ++ a) → u.begin = some ('\'' :: c :: (s ++ '\'' :: a)) := by
            intro a u hu; rw [hu]; simp
          rw [evalRune_tail _ _ _ t (g _ _ h), evalRune_tail _ _ _ t' (g _ _ h')]
          suffices hs : runeTail (c32sunescape (c :: (s ++ '\'' :: after))) = runeTail (c32sunescape (c :: (s ++ '\'' :: after'))) by rw [hs]
          by_cases hc : c = '\\'
          · subst hc
            cases s with
            | nil =>
              simp only [List.nil_append]
              have k : ∀ a, ChunkEnd a → runeTail (c32sunescape ('\\' :: '\'' :: a)) = .runeTooLong := fun a hh => by
                have : c32sunescape ('\\' :: '\'' :: a) = some (39, '\'' :: a) := unescape_simple (by decide) a
                rw [this]
                simp only [runeTail]
                rw [if_pos (end_head hh)]
              rw [k _ ha, k _ ha']
            | cons d s =>
              simp only [List.cons_append]
              obtain ⟨i', v', p', r, hr⟩ := hex_local s d 0 0
              have hl := head_local s after after'
              have hl' := head_local r after after'
              have k : ∀ n, runeTail (some (n, d :: (s ++ '\'' :: after))) = runeTail (some (n, d :: (s ++ '\'' :: after'))) := fun n => by
                simp only [runeTail, hl]
              by_cases he : ∃ m, (d, m) ∈ simpleEscapes
              · obtain ⟨m, hm⟩ := he
                rw [unescape_simple hm, unescape_simple hm]
                exact k m
              · have he' : ∀ k, (d, k) ∉ simpleEscapes := fun k hk => he ⟨k, hk⟩
                by_cases hx : d = 'x'
                · subst hx
                  have u : ∀ a, c32sunescape ('\\' :: 'x' :: (s ++ '\'' :: a)) = if i' > 0 then some (v', p' :: (r ++ '\'' :: a)) else none := fun a => by
                    show (match hexLoop (s ++ '\'' :: a) 'x' 0 0 with
                      | (i, value, prev, rest) => if i > 0 then some (value, prev :: rest) else none) = _
                    rw [hr]
                  rw [u, u]
                  split
                  · simp only [runeTail, hl']
                  · rfl
                · rw [unescape_bad he' hx, unescape_bad he' hx]
          · rw [unescape_plain _ _ hc, unescape_plain _ _ hc]
            simp only [runeTail, head_local s after after']

end Skull.Reform
