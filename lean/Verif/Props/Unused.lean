import Verif.Proofs.UnusedWarn
import Verif.Proofs.SemAccepted
/-
C48, C49: warnings.
-/
namespace Skull
open Spec

/- ### C49 -/

/-- The property as stated: the warnings about unused symbols are those of all declarations in the tree. -/
def C49_full : Prop :=
  ∀ (cfg : Cfg) (t : Tree) (a : ATree) (s : SS), cfg.quiet = false → Parsed t → semantic cfg t = .ok a s →
    ∀ d : PDiag, isUnusedCode d.code = true → (d ∈ s.diags ↔ ∃ f b ann stmt, Within f b a ann stmt ∧ Unused a ann stmt d)

/-- It holds for the declarations outside of functions: each is reported exactly if nothing in the whole program uses it. -/
theorem C49_partial {cfg : Cfg} {t : Tree} {a : ATree} {s : SS} (hq : cfg.quiet = false) (h : semantic cfg t = .ok a s) {d : PDiag}
    (hd : isUnusedCode d.code = true) : d ∈ s.diags ↔ ∃ b ann stmt, Within false b a ann stmt ∧ Unused a ann stmt d := by
  obtain ⟨ds, es, h1, h2, _, h4, _⟩ := semantic_warned hq h
  rw [h1, List.mem_append, h4]
  constructor
  · rintro (h | h)
    · exact h
    · rw [h2 d h] at hd; cases hd
  · exact .inl

/-- The check of a source text. -/
def checked (cfg : Cfg) (src : String) : SRes ATree := semantic cfg (parsed src)

/-- The warnings about unused symbols, with the texts of the tokens. -/
def warnings (cfg : Cfg) (src : String) : Option (List (Code × Option (List Char))) :=
  match checked cfg src with
  | .ok _ s => some (s.diags.map fun d => (d.code, d.at?.bind tokenToString))
  | _ => none

/-- `x` is never read, `y` never assigned to and `f` never called; `z` is used in a function only. -/
example : warnings sampleCfg "x := 1\nmut y := 2\nmut z := y\nf() {\nz = 3\nreturn\n}\ng(a: Int) {\nz = z + a\n}\ng(1)\n" =
    some [(.warnFuncUnused, some ['f']), (.warnVarNotConst, some ['y']), (.warnVarUnused, some ['x'])] := by decide +kernel

/-- A variable in a function that is never read. -/
def unusedInFunc : String := "f() {\nx := 1\n}\nf()\n"

theorem C49_false : ¬ C49_full := by
  intro hf
  have key : (match checked sampleCfg unusedInFunc with
      | .ok (.node (.func f ps) st tk (.node (.varDef id e) (.varDef (n :: rest) c i x ex) tok ch nx) next) s =>
        decide (s.diags = []) && !x && decide ((ATree.node (.func f ps) st tk (.node (.varDef id e) (.varDef (n :: rest) c i x ex) tok ch nx) next).reads id = false)
      | _ => false) = true := by decide +kernel
  have hacc : acceptsSrc unusedInFunc = true := by decide +kernel
  have hp := parsed_src hacc
  split at key
  · rename_i f ps st tk id e n rest c i x ex tok ch nx next s hs
    simp only [Bool.and_eq_true, decide_eq_true_eq, Bool.not_eq_true'] at key
    obtain ⟨⟨h1, rfl⟩, h2⟩ := key
    have := (hf sampleCfg _ _ s rfl hp hs ⟨.warnVarUnused, some n⟩ rfl).2 ⟨_, _, _, _, .child .here, .read h2⟩
    rw [h1] at this
    cases this
  · cases key

/- ### C48 -/

/-- The property as stated: when warnings are errors, nothing was reported about an accepted program. -/
def C48_full : Prop :=
  ∀ (cfg : Cfg) (t : Tree) (a : ATree) (s : SS), cfg.werror = true → Parsed t → semantic cfg t = .ok a s → s.diags = []

/-- The only warnings that may be ignored are those about unused symbols. -/
theorem C48_other_partial {cfg : Cfg} {t : Tree} {a : ATree} {s : SS} (hq : cfg.quiet = false) (hw : cfg.werror = true)
    (h : semantic cfg t = .ok a s) : ∀ d ∈ s.diags, isUnusedCode d.code = true := by
  obtain ⟨ds, es, h1, _, h3, h4, _⟩ := semantic_warned hq h
  intro d hd
  rw [h1, h3 hw, List.append_nil, h4] at hd
  obtain ⟨b, ann, stmt, _, hu⟩ := hd
  cases hu <;> rfl

/-- The property holds unless a declaration inside a block, but in no function, is unused. -/
theorem C48_partial {cfg : Cfg} {t : Tree} {a : ATree} {s : SS} (hq : cfg.quiet = false) (hw : cfg.werror = true)
    (h : semantic cfg t = .ok a s) (hb : ∀ ann stmt d, Within false true a ann stmt → ¬ Unused a ann stmt d) : s.diags = [] := by
  obtain ⟨ds, es, h1, _, h3, _, h5⟩ := semantic_warned hq h
  rw [h1, h3 hw, h5 hw hb]
  rfl

/-- Warnings are errors. -/
def strictCfg : Cfg := { sampleCfg with werror := true }

/-- Nothing reported, and accepted. -/
example : warnings strictCfg "x := 1\ng(a: Int) {\nb := a\n}\ng(x)\n" = some [] := by decide +kernel

/-- Refused since `x` is not used; accepted although `x` and `w` are not used, as the warning in the block clears the error. -/
example : warnings strictCfg "x := 1\n" = none := by decide +kernel
example : warnings strictCfg "x := 1\nc := 1 is 1\nif c {\nw := 2\n}\n" =
    some [(.warnVarUnused, some ['w']), (.warnVarUnused, some ['x'])] := by decide +kernel

theorem C48_false : ¬ C48_full := by
  intro hf
  have key : (match checked strictCfg "c := 1 is 1\nif c {\nw := 2\n}\n" with
      | .ok _ s => decide (s.diags ≠ [])
      | _ => false) = true := by decide +kernel
  have hacc : acceptsSrc "c := 1 is 1\nif c {\nw := 2\n}\n" = true := by decide +kernel
  have hp := parsed_src hacc
  split at key
  · rename_i s hs
    exact of_decide_eq_true key (hf strictCfg _ _ s rfl hp hs)
  · cases key

end Skull
