import Verif.Proofs.Utf8
/-
C16: source bytes are decoded as UTF-8 without loss.
-/
namespace Skull
open Spec

/-- C16 as stated: a file is read exactly when it is non-empty valid UTF-8 without NUL, and the text encodes to the file. -/
def C16_full : Prop :=
  ∀ file text, sourceText file = some text ↔ file ≠ [] ∧ 0 ∉ file ∧ file = utf8 text

/-- C16 is false: everything from the first NUL byte on is dropped without a word, valid or not. -/
theorem C16_false : ¬ C16_full := by
  intro h
  have h1 : sourceText [0x78, 0, 0xFF] = some ['x'] := by decide
  have := ((h _ _).1 h1).2.1
  exact absurd this (by decide)

/-- C16 for files without NUL bytes: read exactly when non-empty and valid, and the text encodes to the file.
Missing for the full claim: a file with a NUL byte is read up to it (`C16_nul`). -/
theorem C16_utf8_partial (file : List UInt8) (hn : 0 ∉ file) (text : List Char) :
    sourceText file = some text ↔ file ≠ [] ∧ file = utf8 text := by
  have hc : cString file = file := by
    have hall : ∀ b ∈ file, decide (b ≠ 0) = true := by
      intro b hb
      simp only [ne_eq, decide_not, Bool.not_eq_true', decide_eq_false_iff_not]
      exact fun e => hn (e ▸ hb)
    have := List.takeWhile_append_of_pos (l₂ := []) hall
    simpa [cString] using this
  unfold sourceText fileToString
  by_cases hf : file = []
  · subst hf; simp
  · rw [if_neg hf, Option.bind_some, hc]
    constructor
    · intro h; exact ⟨hf, utf8_of_mbstoc32s file text h⟩
    · rintro ⟨_, rfl⟩; exact mbstoc32s_utf8 text

/-- C16: a file that is not valid UTF-8 before its first NUL is rejected. -/
theorem C16_reject (file : List UInt8) (hn : 0 ∉ file) (hv : ¬ ValidUtf8 file) : sourceText file = none := by
  cases h : sourceText file with
  | none => rfl
  | some text => exact absurd ⟨text, ((C16_utf8_partial file hn text).1 h).2⟩ hv

/-- C16: with a NUL byte, only what comes before it is read. -/
theorem C16_nul (before after : List UInt8) (hn : 0 ∉ before) :
    sourceText (before ++ 0 :: after) = mbstoc32s before := by
  have hc : cString (before ++ 0 :: after) = before := by
    unfold cString
    have hall : ∀ b ∈ before, decide (b ≠ 0) = true := by
      intro b hb
      simp only [ne_eq, decide_not, Bool.not_eq_true', decide_eq_false_iff_not]
      exact fun e => hn (e ▸ hb)
    rw [List.takeWhile_append_of_pos hall]
    simp
  unfold sourceText fileToString
  rw [if_neg (by simp), Option.bind_some, hc]

/-- C16: the decoded text has at most one character per byte, so the buffer of `strlen + 1` characters holds it. -/
theorem C16_fits (bytes : List UInt8) (text : List Char) (h : mbstoc32s bytes = some text) : text.length ≤ bytes.length := by
  rw [utf8_of_mbstoc32s bytes text h]
  clear h
  induction text with
  | nil => simp
  | cons c s ih =>
    have : 0 < (String.utf8EncodeChar c).length := List.length_pos_iff.2 (encode_ne_nil c)
    simp only [utf8, List.flatMap_cons, List.length_append, List.length_cons] at *
    omega

/-- C16: decoding and encoding again gives the bytes back, and encoding and decoding the text. -/
theorem C16_round_trip (bytes : List UInt8) (text : List Char) :
    (mbstoc32s bytes = some text → c32stombs text = bytes) ∧ mbstoc32s (c32stombs text) = some text := by
  rw [c32stombs_eq]
  exact ⟨fun h => (utf8_of_mbstoc32s bytes text h).symm, mbstoc32s_utf8 text⟩

example : sourceText [0x78, 0xC3, 0xA9, 0xE2, 0x82, 0xAC, 0xF0, 0x9F, 0x92, 0x80] = some ['x', 'é', '€', '💀'] := by decide
example : sourceText [0xC0, 0x80] = none ∧ sourceText [0xED, 0xA0, 0x80] = none ∧ sourceText [0xE2, 0x82] = none := by decide

end Skull
