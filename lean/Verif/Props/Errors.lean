import Verif.Proofs.Errors
/-
C57: the text of diagnostics.
-/
namespace Skull
open Spec

/-- Diagnostics about a whole file or module, which have no place in the text. -/
def wholeFile : Code → Bool
  | .warnFileEmpty | .warnNoBom | .errEofNoBracket | .errIllegalSeqAt | .errLoadModule => true
  | _ => false

/-- C57 as stated: every diagnostic about something in the text says where that is. -/
def C57_full : Prop :=
  ∀ (code : Code) (args : List Arg), (code, args.map Arg.kind) ∈ diagSites → wholeFile code = false →
    (∀ a ∈ args, a.loc.line ≠ 0) → ∀ color filename kind text,
    fmtMessage color filename kind code (args.map Arg.message) = some text → ∃ pre post, text = pre ++ ascii "line " ++ post

/-- C57 is false: the diagnostic for a power of booleans has no place. -/
theorem C57_false : ¬ C57_full := by
  intro h
  have h1 := h .errPowBadType [⟨.type, ⟨1, 1⟩, ascii "Bool", [], 0⟩] (by decide) rfl (by simp) false (ascii "a.sk") .fatal _ rfl
  obtain ⟨pre, post, h2⟩ := h1
  have h3 : ascii "line " <:+: ascii "a.sk: Compilation error: cannot use type \"Bool\" for power operator\n" :=
    ⟨pre, post, by rw [← h2]; decide +kernel⟩
  exact absurd h3 (by decide +kernel)

/-- C57: every diagnostic the compiler reports is the file, the kind, the place of its first message, the template filled with the texts
of its messages in order, and a newline; formatting never needs more texts than there are. -/
theorem C57_format_partial (code : Code) (args : List Arg) (hs : (code, args.map Arg.kind) ∈ diagSites)
    (color : Bool) (filename : List UInt8) (kind : DiagKind) :
    ∃ used body, used <+: args.filterMap Arg.text ∧ Fills (template code).toList used body ∧
      fmtMessage color filename kind code (args.map Arg.message) =
        some (filename ++ heading color kind ++ place args ++ body ++ ascii "\n") :=
  fmt_site color filename kind code args (sites_ok _ hs)

/-- C57: the diagnostics about something in the text that do not say where. -/
theorem C57_unlocated (code : Code) (kinds : List ArgKind) (hs : (code, kinds) ∈ diagSites) (hw : wholeFile code = false) :
    (∃ k ks, kinds = k :: ks ∧ Located k = true) ↔
      code ∉ [.warnTrivialType, .errExpectedReturn, .errNoVoidReturn, .errPowBadType] := by
  have h : ∀ s ∈ diagSites, wholeFile s.1 = false →
      ((match s.2 with | k :: _ => Located k | [] => false) = true ↔
        s.1 ∉ [Code.warnTrivialType, .errExpectedReturn, .errNoVoidReturn, .errPowBadType]) := by decide +kernel
  rw [← h (code, kinds) hs hw]
  constructor
  · rintro ⟨k, ks, rfl, hk⟩
    exact hk
  · intro hk
    cases kinds with
    | nil => simp at hk
    | cons k ks => exact ⟨k, ks, rfl, hk⟩

example : fmtMessage false (ascii "a.sk") .fatal .errExpectedSameType
    [{ loc := some ⟨3, 10⟩, type := some (ascii "Int") }, { type := some (ascii "Bool") }] =
    some (ascii "a.sk: Compilation error: line 3 column 10: expected type \"Int\", got \"Bool\"\n") := by decide +kernel

end Skull
