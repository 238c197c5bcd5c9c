import Verif.Proofs.SemAccepted
import Verif.Proofs.SemComplete
/-
C58: the check and the rules of the language.
-/
namespace Skull
open Spec

/-! ## C58 The check accepts exactly the well formed programs -/

/-- What the check accepts follows the rules for names, types, loops, jumps and branches.  The rules for returns are followed too
when functions are not declared in functions and external functions do not come with returns outside functions (`Plain`).
(Missing: functions in functions, more than 65535 arguments or parameters.) -/
theorem C58_sound_partial (cfg : Cfg) (t : Tree) (h : Accepted cfg t) (hc : Counted t) :
    Program (cfg.world False) t ∧ ∀ ext, Plain ext false t → Program (cfg.world True) t := by
  obtain ⟨a, s, h⟩ := h
  exact ⟨semantic_sound (world_models cfg False) h hc (ext := false) False.elim, fun ext hp =>
    semantic_sound (world_models cfg True) h hc fun _ => hp⟩

/-- What follows the rules is accepted, without `--werror`.  Aliases without a type and names with dots count as taken here.
(Missing: as above, blocks behind calls, loops nested 2^32 deep, files whose name gives no linkage names.) -/
theorem C58_complete_partial (cfg : Cfg) (t : Tree) (h : Program cfg.strictWorld t) (hw : cfg.werror = false) (hc : Counted t)
    (ext : Bool) (hp : Plain ext false t) (hb : CallsBare t) (hd : loopDepth t < 2 ^ 32) (hl : Linked cfg t)
    (hm : (createMainFuncName cfg.filename).isSome = true) : Accepted cfg t :=
  semantic_complete (W := cfg.strictWorld) ⟨⟨rfl, fun _ => Iff.rfl, id⟩, trivial, trivial, hw⟩ h hc hp hl hd hm fun _ => hb

/-- As stated; false. -/
def C58_full : Prop := ∀ (cfg : Cfg) (t : Tree), Parsed t → Accepted cfg t → Program (cfg.world True) t

/-- The check for a missing return looks at the function declared last, here the inner one. -/
local notation "lastSrc" => "f() Int {\ng() {\nh() {\nnoop\n}\n}\n}\n"

theorem C58_false : ¬ C58_full := by
  intro h
  have ha : acceptsSrc lastSrc = true := by decide +kernel
  obtain ⟨E, h1⟩ := h _ _ (parsed_src ha) (accepted_src ha)
  have hr : ∃ p tok tokEnd q tok₁ tokEnd₁ child next u us, parsed lastSrc = .node (.funcProto p) tok tokEnd
      (.node (.funcProto q) tok₁ tokEnd₁ child .nil) next ∧ p.isExternal = false ∧ p.returnType = some (u :: us) ∧
      u.ty = .identifier ∧ tokenToString u = some ['I', 'n', 't'] := by
    have : (match parsed lastSrc with
        | .node (.funcProto p) _ _ (.node (.funcProto _) _ _ _ .nil) _ =>
          decide (p.isExternal = false) && (match p.returnType with
            | some (u :: _) => decide (u.ty = .identifier ∧ tokenToString u = some ['I', 'n', 't'])
            | _ => false)
        | _ => false) = true := by decide +kernel
    split at this
    · rename_i p _ _ _ _ _ _ _ hs
      rw [Bool.and_eq_true] at this
      obtain ⟨g1, g2⟩ := this
      split at g2
      · rename_i g3
        exact ⟨_, _, _, _, _, _, _, _, _, _, hs, of_decide_eq_true g1, g3, of_decide_eq_true g2⟩
      · cases g2
    · cases this
  obtain ⟨p, tok, tokEnd, q, tok₁, tokEnd₁, child, next, u, us, h2, h3, h4, h5, h6⟩ := hr
  generalize parsed lastSrc = t at *
  subst h2
  cases h1 with
  | node _ h7 _ =>
    cases h7 with
    | func _ h8 _ _ _ _ h9 =>
      have h10 := (h9 trivial h3).2
      rw [h4] at h8
      cases TypeAt.det h8 (.name (.inl h5) h6)
      exact absurd (h10 (by decide)) (by simp [ReturnsValue])

example : acceptsSrc "mut x := 1\nf(a: Int) Int {\nreturn a + 1\n}\nwhile x < 3 {\nx = f(x)\n}\nreturn x\n" = true := by decide +kernel

end Skull
