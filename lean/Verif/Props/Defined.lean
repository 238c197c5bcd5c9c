import Verif.Proofs.SemDefSafe
import Verif.Proofs.SemDefNames
import Verif.Proofs.ParseCounted
import Verif.Props.Memory
/-
C25: when the semantic check is defined.
-/
namespace Skull

open Skull.Spec Skull.Heap Skull.SemDef

/-- The check's share of C25: whatever the source text is, checking it is defined. -/
def C25_semantic_full : Prop := ∀ (cfg : Cfg) (t : Tree), OfSource t → FileFits cfg.filename 1000000 → semantic cfg t ≠ .ub

/-- Checking a source text is undefined. -/
def checkUb (src : String) : Bool :=
  match parseAstTree (lexed src) with
  | .ok (some t) _ => match semantic sampleCfg t with | .ub => true | _ => false
  | _ => false

/-- It is false: a function used as a variable fails an assertion. -/
theorem C25_semantic_false : ¬ C25_semantic_full := by
  intro h
  have h1 : semantic sampleCfg (parsed "f() {\n noop\n}\nx := f\n") ≠ .ub :=
    h sampleCfg _ (ofSource_parsed (by decide +kernel) (by decide +kernel)) ⟨[], ['a'], rfl, .inl rfl, by simp [IsBase], by simp [NulFree], by decide⟩
  have h2 : (match semantic sampleCfg (parsed "f() {\n noop\n}\nx := f\n") with | .ub => true | _ => false) = true := by decide +kernel
  split at h2
  · contradiction
  · cases h2

/-- Every other cause: a namespace used as a variable, a function assigned to, an operator without its operand, a hexadecimal number
with an underscore behind the next character, a rune above U+00FF, and a function in a block behind a call. -/
theorem C25_semantic_false_more : checkUb "namespace n {\n noop\n}\nx := n\n" = true ∧ checkUb "f() {\n noop\n}\nf = 1\n" = true ∧
    checkUb "x := -\n" = true ∧ checkUb "x := 0x1\n_# hi\n" = true ∧ checkUb "x := 'Ā'\n" = true ∧
    checkUb "f(a: Int) {\n noop\n}\nf(1) {\n g() {\n noop\n }\n}\n" = true := by decide +kernel

/-- These are all the causes: if the source text has none of them, checking it is defined.  (Texts of 65536 tokens and more are left
out.)  `VarsOnly` speaks about the names that are visible at each statement. -/
theorem C25_semantic_partial (cfg : Cfg) (w : Bool) (src : List Char) (ts toks : List Token) (t : Tree) (s : PS)
    (h1 : tokenize w src = some (.ok ts)) (h2 : classifyTokens ts = some toks) (h3 : parseAstTree toks = .ok (some t) s)
    (hlen : toks.length < 65536) (hfile : FileFits cfg.filename src.length) (hlit : ∀ u ∈ toks, litFits u = true)
    (hmiss : noneMissing t = true) (hcall : cfg.quiet = true ∨ callsNoFuncs t = true) (hvars : VarsOnly (cfg.world False) t) :
    semantic cfg t ≠ .ub :=
  source_defined h1 h2 h3 (parsed_counted h3 hlen) hfile hlit hcall hmiss hvars

/-- The same, with a condition on names that does not depend on where they are visible: no name used as a variable is, or ends in,
the name of a function or namespace. -/
theorem C25_semantic_names_partial (cfg : Cfg) (w : Bool) (src : List Char) (ts toks : List Token) (t : Tree) (s : PS)
    (h1 : tokenize w src = some (.ok ts)) (h2 : classifyTokens ts = some toks) (h3 : parseAstTree toks = .ok (some t) s)
    (hlen : toks.length < 65536) (hfile : FileFits cfg.filename src.length) (hlit : ∀ u ∈ toks, litFits u = true)
    (hmiss : noneMissing t = true) (hcall : cfg.quiet = true ∨ callsNoFuncs t = true) (hnames : namesApart t = true) :
    semantic cfg t ≠ .ub :=
  C25_semantic_partial cfg w src ts toks t s h1 h2 h3 hlen hfile hlit hmiss hcall (vars_of_names hnames)

/-- C73 without the condition that the check is defined. -/
theorem C73_memory_safe_names (cfg : Cfg) (w : Bool) (src : List Char) (ts toks : List Token) (t : Tree) (s : PS)
    (h1 : tokenize w src = some (.ok ts)) (h2 : classifyTokens ts = some toks) (h3 : parseAstTree toks = .ok (some t) s)
    (hlen : toks.length < 65536) (hfile : FileFits cfg.filename src.length) (hlit : ∀ u ∈ toks, litFits u = true)
    (hmiss : noneMissing t = true) (hcall : cfg.quiet = true ∨ callsNoFuncs t = true) (hnames : namesApart t = true) :
    ∃ es, memoryLog cfg t = some es ∧ MemSafe es :=
  C73_memory_safe cfg t ⟨w, src, ts, toks, s, h1, h2, h3⟩
    (C25_semantic_names_partial cfg w src ts toks t s h1 h2 h3 hlen hfile hlit hmiss hcall hnames)

/-! Examples -/

/-- The conditions of `C25_semantic_names_partial` that can be computed. -/
def checkSafe (src : String) : Bool :=
  match parseAstTree (lexed src) with
  | .ok (some t) _ => src.toList.length < 1000000 && (lexed src).length < 65536 && (lexed src).all litFits && noneMissing t && callsNoFuncs t && namesApart t
  | _ => false

/-- Programs with mistakes of every kind fulfil them: an unknown name, an unknown type, a wrong operand, a second declaration, a break
outside of loops, a return of the wrong type, a call with too few arguments. -/
example : checkSafe "x := y\n" = true ∧ checkSafe "x: T = 1\n" = true ∧ checkSafe "x := 1 + true\n" = true ∧
    checkSafe "x := 1\nx := 2\n" = true ∧ checkSafe "break\n" = true ∧ checkSafe "f() Int {\n return true\n}\n" = true ∧
    checkSafe "f(a: Int) {\n noop\n}\nf()\n" = true := by decide +kernel
example : checkSafe "namespace n {\n f(x: Int) Int {\n  return x\n }\n y := 1\n}\nz := n.f(n.y)\n" = true := by decide +kernel
/-- Those with one of the causes do not. -/
example : checkSafe "f() {\n noop\n}\nx := f\n" = false ∧ checkSafe "namespace n {\n noop\n}\nx := n\n" = false ∧
    checkSafe "x := -\n" = false ∧ checkSafe "x := 0x1\n_# hi\n" = false ∧ checkSafe "x := 'Ā'\n" = false ∧
    checkSafe "f(a: Int) {\n noop\n}\nf(1) {\n g() {\n noop\n }\n}\n" = false ∧ checkSafe "f() {\n noop\n}\nf = 1\n" = false := by decide +kernel
/-- A visible variable named like an invisible function is refused by the condition on names alone, but not by `VarsOnly`. -/
example : checkSafe "if true {\n f() {\n  noop\n }\n}\nf := 1\nx := f\n" = false := by decide +kernel

theorem checkSafe_defined {src : String} (h : checkSafe src = true) (hl : lexed src ≠ []) : semantic sampleCfg (parsed src) ≠ .ub := by
  unfold checkSafe at h
  unfold parsed
  split at h
  · rename_i t s ht
    rw [ht]
    simp only [Bool.and_eq_true, decide_eq_true_eq, List.all_eq_true] at h
    obtain ⟨⟨⟨⟨⟨h0, h1⟩, h2⟩, h3⟩, h4⟩, h5⟩ := h
    have hts : ∃ ts, tokenize false src.toList = some (.ok ts) ∧ classifyTokens ts = some (lexed src) := by
      unfold lexed at hl ⊢
      split
      · rename_i ts hts
        rw [hts] at hl
        cases hc : classifyTokens ts with
        | none => exact absurd (show (classifyTokens ts).getD [] = [] by rw [hc]; rfl) hl
        | some toks => exact ⟨ts, hts, by rw [hc]; rfl⟩
      · rename_i hx
        exfalso
        revert hl
        cases e : tokenize false src.toList with
        | none => simp
        | some r =>
          cases r with
          | ok ts => exact absurd e (hx ts)
          | _ => simp
    obtain ⟨ts, k1, k2⟩ := hts
    exact C25_semantic_names_partial sampleCfg false src.toList ts (lexed src) t s k1 k2 ht h1
      ⟨[], ['a'], rfl, .inl rfl, by simp [IsBase], by simp [NulFree], by simp; omega⟩ h2 h3 (.inr h4) h5
  · cases h

/-- The theorem applies to programs that the check refuses. -/
example : semantic sampleCfg (parsed "x := y\n") ≠ .ub := checkSafe_defined (by decide +kernel) (by decide +kernel)
example : semantic sampleCfg (parsed "f(a: Int) {\n noop\n}\nf()\n") ≠ .ub := checkSafe_defined (by decide +kernel) (by decide +kernel)

end Skull
