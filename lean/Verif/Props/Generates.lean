import Verif.Proofs.LTotalConv
import Verif.Props.CodegenLLVM
/-
C61: which programs get LLVM code.
-/
namespace Skull
open Spec

/- ### C61 -/

/-- Every accepted program that is not empty gets code: the generator does not run into an assertion or a null pointer. -/
def C61_full : Prop :=
  ∀ (cfg : Cfg) (t : Tree) (a : ATree) (s : SS) (fold : LOp → LVal → LVal → Option LVal) (debug : Bool) (name : List Char),
    Parsed t → ¬ EmptyProgram t → semantic cfg t = .ok a s → ∃ m, codegenL ⟨s.syms, fold, debug⟩ name a = some m

/-- An accepted program gets code exactly when it compares no references and no calls without a value: there is no other way for the
generator to run into an assertion or a null pointer.  Missing from the full statement: programs that do compare these. -/
theorem C61_partial {cfg : Cfg} {t : Tree} {a : ATree} {s : SS} (hp : Parsed t) (he : ¬ EmptyProgram t) (h : semantic cfg t = .ok a s)
    (fold : LOp → LVal → LVal → Option LVal) (debug : Bool) (name : List Char) :
    (∃ m, codegenL ⟨s.syms, fold, debug⟩ name a = some m) ↔ ComparesAll a :=
  ⟨fun ⟨_, hm⟩ => codegenL_compares hp h hm, fun hc => codegenL_total hp he h hc fold debug name⟩

/-- References are compared. -/
def compareRefs : String := "x := 1\ny := 2\na := &x\nb := &y\nif a is b {\nnoop\n}\n"

/-- Calls without a value are compared. -/
def compareVoid : String := "f() {\nnoop\n}\nif f() is f() {\nnoop\n}\n"

/-- Both are accepted, and crash the generator. -/
example : (match checked sampleCfg compareVoid with
    | .ok a s => (codegenL ⟨s.syms, fun _ _ _ => none, false⟩ ['m'] a).isNone
    | _ => false) = true := by decide +kernel

theorem C61_false : ¬ C61_full := by
  intro hf
  have hacc : acceptsSrc compareRefs = true := by decide +kernel
  have key : (match checked sampleCfg compareRefs, parsed compareRefs with
      | .ok a s, .node st _ _ _ _ => (match st with | .varDef .. => true | _ => false) && (codegenL ⟨s.syms, fun _ _ _ => none, false⟩ ['m'] a).isNone
      | _, _ => false) = true := by decide +kernel
  split at key
  · rename_i a s st tok te ch nx hs ht
    simp only [Bool.and_eq_true, Option.isNone_iff_eq_none] at key
    obtain ⟨m, hm⟩ := hf sampleCfg _ a s (fun _ _ _ => none) false ['m'] (parsed_src hacc) (by
      rintro ⟨tok', te', h⟩
      rw [ht] at h
      cases h
      cases key.1) hs
    rw [key.2] at hm
    cases hm
  · cases key

/-- A reference to a reference is compared by the type of what the latter refers to, and gets code. -/
example : (match checked sampleCfg "x := 1\na := &x\nb := &x\nif &a is &b {\nnoop\n}\n" with
    | .ok a s => (codegenL ⟨s.syms, fun _ _ _ => none, false⟩ ['m'] a).isSome
    | _ => false) = true := by decide +kernel

/-- A program with all kinds of statements that gets code. -/
example : (match checked sampleCfg
      "namespace n {\nf(x: Int) Int {\nif x is 0 {\nreturn 0\n} elif x is 1 {\nreturn 2\n} else {\nnoop\n}\nreturn f(x - 1)\n}\n}\nmut y := 1\nwhile y < 3 {\ny = n.f(y)\nbreak\n}\nz := &y\nw := *z + 1\nif \"a\" is \"b\" {\nreturn w\n}\nunreachable\n" with
    | .ok a s => (codegenL ⟨s.syms, fun _ _ _ => none, false⟩ ['m'] a).isSome
    | _ => false) = true := by decide +kernel

/-- The condition refuses a comparison of references, and accepts one of numbers. -/
example {t : Token} : ¬ Compares (.bin .is (.ident t 1 (.ref Int') false) (.ident t 1 (.ref Int') false) Bool' false) ∧
    Compares (.bin .is (.ident t 1 Int' false) (.ident t 1 Int' false) Bool' false) := by
  constructor
  · intro h
    unfold Compares at h
    obtain ⟨p, hp, _⟩ := h.1 (.inl rfl)
    simp [comparedAs, AExpr.type] at hp
  · unfold Compares
    exact ⟨fun _ => ⟨.int, rfl, by simp⟩, by simp only [Compares], by simp only [Compares]⟩

/-- The empty program. -/
example : (match parsed "# nothing\n" with
    | .node .unknown _ _ .nil .nil => true
    | _ => false) = false ∧
    (match parsed "\n" with
    | .node .unknown _ _ .nil .nil => true
    | _ => false) = true := by decide +kernel

end Skull
