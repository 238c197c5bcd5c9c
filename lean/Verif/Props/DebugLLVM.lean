import Verif.Props.Agree
import Verif.Props.Generates
/-
C80: what `-g` changes about the code of the LLVM back end.
-/
namespace Skull
open Spec

/- ### C80 -/

/-- Compiling with and without `-g` does the same, for the checked trees with property `P`, when they are run from this world. -/
def DebugKeeps (P : {ω : Type} → Floats → (List Char → List Val → ω → Option (Val × ω)) → List Symbol → ATree → ω → Prop) : Prop :=
  ∀ (ω : Type) (F : Floats) (ext : List Char → List Val → ω → Option (Val × ω)) (scfg : Cfg) (t : Tree) (a : ATree) (ss : SS) (fold)
    (name : List Char) (s g : LState) (w : ω), Parsed t → semantic scfg t = .ok a ss → FoldSound F fold →
    codegenL ⟨ss.syms, fold, false⟩ name a = some s → codegenL ⟨ss.syms, fold, true⟩ name a = some g → P F ext ss.syms a w →
    ∀ i w', RunsTo F ext s.funcs s.globals w i w' ↔ RunsTo F ext g.funcs g.globals w i w'

/-- The property as stated: for all programs. -/
def C80_full : Prop := DebugKeeps fun _ _ _ _ _ => True

/-- It holds for the programs that come to their end with the arithmetic that the code can do, without references, in which no loop
comes before a `break` or `continue` in the same loop and no variable outside functions is set to a literal in a loop. -/
theorem C80_partial : DebugKeeps fun {ω} F ext syms a w =>
    (JumpsOk false a ∧ NoLoopInit syms false a) ∧ ∃ (n : Nat) (r : Int × ω), runProgram ⟨safeArith F, ext, syms, a⟩ n w = some r := by
  intro ω F ext scfg t a ss fold name s g w hp hs hf h h' ⟨hc, n, ⟨j, w₁⟩, hr⟩ i w'
  obtain ⟨h1, h2⟩ := C59_partial ω F ext scfg t a ss fold false name s n w j w₁ hp hs hf h hc hr
  obtain ⟨h3, h4⟩ := C59_partial ω F ext scfg t a ss fold true name g n w j w₁ hp hs hf h' hc hr
  constructor
  · intro h
    obtain ⟨rfl, rfl⟩ := h2 _ _ h
    exact h3
  · intro h
    obtain ⟨rfl, rfl⟩ := h4 _ _ h
    exact h1

/-- Whether there is code does not depend on `-g`: the back end generates code with it for the programs for which it does so without. -/
theorem C80_generates {cfg : Cfg} {t : Tree} {a : ATree} {s : SS} (hp : Parsed t) (he : ¬ EmptyProgram t) (h : semantic cfg t = .ok a s)
    (fold) (name : List Char) :
    (∃ m, codegenL ⟨s.syms, fold, false⟩ name a = some m) ↔ ∃ m, codegenL ⟨s.syms, fold, true⟩ name a = some m := by
  rw [C61_partial hp he h, C61_partial hp he h]

/- #### The property is false -/

theorem blockOf_at {M : List LFunc} {L : List (List (List LInstr))} {f : Nat} (b : Nat) (h : M.map (·.blocks) = L) :
    blockOf M f b = (L[f]?).bind (·[b]?) := by
  subst h
  unfold blockOf
  rw [List.getElem?_map]
  cases M[f]? <;> rfl

/-- A function that gives what its parameter refers to. -/
def readsParam : String := "mut x := 5\nf(p: &Int) Int {\nreturn *p\n}\nreturn f(&x)\n"

/-- Without `-g`, the code of `*p` loads the value of `x`, and then loads from that. With `-g`, it loads the address of `x` from the
place that `-g` has given to `p`. -/
theorem C80_false : ¬ C80_full := by
  intro hk
  have key : (match checked sampleCfg readsParam with
      | .ok a s =>
        match codegenL ⟨s.syms, fun _ _ _ => none, false⟩ ['m'] a, codegenL ⟨s.syms, fun _ _ _ => none, true⟩ ['m'] a with
        | some st, some g => decide ((st.funcs.map (·.blocks)) =
            [[[.call 2 1 [.global 0], .ret (.reg 2)]],
              [[.load 0 (.ref (.prim .int)) (.param 0), .load 1 (.prim .int) (.reg 0), .ret (.reg 1)]]]) &&
            (decide (st.globals.map (·.init) = [.int 5]) && decide (resultIR noFloats noting g.funcs g.globals 30 [] = some (5, [])))
        | _, _ => false
      | _ => false) = true := by decide +kernel
  split at key
  · rename_i a ss hs
    split at key
    · rename_i st g hst hg
      rw [Bool.and_eq_true, Bool.and_eq_true, decide_eq_true_eq, decide_eq_true_eq, decide_eq_true_eq] at key
      obtain ⟨hb, hi, hr⟩ := key
      have hrun := (hk _ noFloats noting sampleCfg _ a ss _ _ st g [] (parsed_src (by decide +kernel)) hs fold_none hst hg trivial 5 []).2
        (resultIR_sound hr)
      obtain ⟨m', h0⟩ := main_run hrun (blockOf_map 0 hb)
      have hcode := blockOf_at (f := 1) 0 hb
      have hx : (initMem st.globals ([] : List (List Char × List Val))).read (.global 0) = some (.val (.int 5)) := by
        cases hG : st.globals with
        | nil => rw [hG] at hi; cases hi
        | cons x G =>
          rw [hG] at hi
          have hxi : x.init = .int 5 := (List.cons.inj hi).1
          simp [initMem, Mem.read, hxi, constVal]
      cases h0 with
      | step h => cases h
      | call ho hc _ =>
        cases ho
        generalize hv : [MVal.global 0] = vs at hc
        have stuck : ∀ {v m'}, ¬ IRun noFloats noting st.funcs 1
            [.load 0 (.ref (.prim .int)) (.param 0), .load 1 (.prim .int) (.reg 0), .ret (.reg 1)] (fun _ => none) [MVal.global 0]
            (initMem st.globals []) v m' := by
          intro v m' h
          cases h with
          | step h h' =>
            simp only [step, operand, List.getElem?_cons_zero, hx, Option.some.injEq, Prod.mk.injEq] at h
            obtain ⟨rfl, rfl⟩ := h
            cases h' with
            | step h _ => simp [step, operand, Regs.set, Mem.read] at h
        cases hc with
        | value _ _ _ h1 h2 => rw [hcode] at h1; cases h1; subst hv; exact stuck h2
        | void _ _ _ h1 h2 => rw [hcode] at h1; cases h1; subst hv; exact stuck h2
        | @external _ _ ws _ _ _ _ _ _ =>
          cases ws with
          | nil => cases hv
          | cons x ws => cases (List.cons.inj hv).1
    · cases key
  · cases key

/- #### Examples -/

/-- Whether a program gives this, and so does its code with and without `-g`. -/
def debugRuns (src : String) (n : Nat) (r : Int × List (List Char × List Val)) : Bool :=
  match checked sampleCfg src with
  | .ok a ss =>
    match codegenL ⟨ss.syms, fun _ _ _ => none, false⟩ ['m'] a, codegenL ⟨ss.syms, fun _ _ _ => none, true⟩ ['m'] a with
    | some s, some g =>
      decide (runProgram ⟨safeArith noFloats, noting, ss.syms, a⟩ n [] = some r) &&
        (decide (resultIR noFloats noting s.funcs s.globals n [] = some r) && decide (resultIR noFloats noting g.funcs g.globals n [] = some r))
    | _, _ => false
  | _ => false

/-- The sample of C59, of which the conditions of `C80_partial` are checked there. -/
example : debugRuns sampleRun 400 sampleResult = true := by decide +kernel

/-- The code of a function with and without `-g`: with `-g` the parameter has a place, and so has the statement that does nothing. -/
example : (match checked sampleCfg "f(n: Int) Int {\nnoop\nreturn n\n}\nreturn f(5)\n" with
    | .ok a ss =>
      match codegenL ⟨ss.syms, fun _ _ _ => none, false⟩ ['m'] a, codegenL ⟨ss.syms, fun _ _ _ => none, true⟩ ['m'] a with
      | some s, some g => decide (s.funcs.map (·.blocks) = [[[.call 0 1 [.int 5], .ret (.reg 0)]], [[.ret (.param 0)]]]) &&
        decide (g.funcs.map (·.blocks) = [[[.call 3 1 [.int 5], .ret (.reg 3)]],
          [[.alloca 0 (.prim .int), .store (.param 0) (.reg 0), .alloca 1 (.prim .int), .store (.int 0) (.reg 1),
            .load 2 (.prim .int) (.reg 0), .ret (.reg 2)]]])
      | _, _ => false
    | _ => false) = true := by decide +kernel

end Skull
