import Verif.Proofs.SrcArith
import Verif.Props.CRun
/-
C71: both back ends give programs the same meaning.
-/
namespace Skull
open Spec Spec.C

/- ### C59, C70 -/

theorem c_le {F : Floats} : ArithLe (cArith F) (docArith F) := by
  constructor
  · intro o ty x z h
    exact h
  · intro o ty x y z h
    simp only [cArith] at h
    split at h
    · exact h
    · cases h

/-- What a program gives with the arithmetic that the LLVM back end can do is what it gives with the documented one. -/
theorem C59_documented {ω : Type} {F : Floats} {ext : List Char → List Val → ω → Option (Val × ω)} {syms a n w r}
    (h : runProgram ⟨safeArith F, ext, syms, a⟩ n w = some r) : runProgram ⟨docArith F, ext, syms, a⟩ n w = some r :=
  run_less (c := ⟨safeArith F, ext, syms, a⟩) safe_le h

/-- So it is with the arithmetic that C can do. -/
theorem C70_documented {ω : Type} {F : Floats} {ext : List Char → List Val → ω → Option (Val × ω)} {syms a n w r}
    (h : runProgram ⟨cArith F, ext, syms, a⟩ n w = some r) : runProgram ⟨docArith F, ext, syms, a⟩ n w = some r :=
  run_less (c := ⟨cArith F, ext, syms, a⟩) c_le h

/- ### C71 -/

/-- The C program in a file cannot come to its end with another result. -/
theorem CEnds.det {ω : Type} {F dbl ext a file} {w : ω} {r r'} (h : CEnds F dbl ext a file w r) (h' : CEnds F dbl ext a file w r') : r = r' := by
  obtain ⟨text, toks, items, h1, h2, h3, h4, m, h5⟩ := h
  obtain ⟨text', toks', items', g1, g2, g3, g4, m', g5⟩ := h'
  have e1 : text = text' := List.append_cancel_left (h1.symm.trans g1)
  subst e1
  rw [h2] at g2
  cases g2
  have e2 := h4 _ g3
  subst e2
  have a1 := h5 (max m m') (Nat.le_max_left ..)
  have a2 := g5 (max m m') (Nat.le_max_right ..)
  rw [a1] at a2
  cases a2
  rfl

/-- Both back ends give the same meaning to programs with property `P`: the code of the one and that of the other cannot come to their ends with different results
or different calls of external functions. -/
def BackEndsAgree (P : {ω : Type} → Floats → (List Char → List Val → ω → Option (Val × ω)) → List Symbol → (Nat → List Char) → List Char → ATree → ω → Prop) : Prop :=
  ∀ (ω : Type) (F : Floats) (dbl : List Char → Option Nat) (ext : List Char → List Val → ω → Option (Val × ω)) (cfg : Cfg) (t : Tree) (a : ATree) (s : SS)
    (fold) (debug : Bool) (name : List Char) (l : LState) (fmtA : Nat → List Char) (main : List Char) (r : Option (List Char) × CState) (w : ω) (i j : Int) (w' w'' : ω),
    Parsed t → semantic cfg t = .ok a s → FoldSound F fold → codegenL ⟨s.syms, fold, debug⟩ name a = some l → genModuleC ⟨s.syms, none, fmtA⟩ a = some r →
    (∀ e ∈ a.exprs, FloatTexts fmtA ⟨fun _ => none, F, dbl⟩ e) → ExtTyped s.syms ext → P F ext s.syms fmtA main a w →
    RunsTo F ext l.funcs l.globals w i w' → CEnds F dbl ext a (fileC ⟨s.syms, none, fmtA⟩ main r.1 r.2) w (j, w'') → i = j ∧ w' = w''

/-- The property as stated. -/
def C71_full : Prop := BackEndsAgree fun _ _ _ _ _ _ _ => True

/-- It holds for programs that come to their end with both arithmetics, and fulfil the conditions of `C59_partial` and `C70_partial`. -/
theorem C71_partial : BackEndsAgree fun {ω} F ext syms fmtA main a w =>
    (JumpsOk false a ∧ NoLoopInit syms false a) ∧ (FineTree syms fmtA a ∧ PlainText main ∧ C.fits F syms a = true) ∧
    (∃ n r, runProgram (ω := ω) ⟨safeArith F, ext, syms, a⟩ n w = some r) ∧
    ∃ n i w', runProgram ⟨cArith F, ext, syms, a⟩ n w = some (i, w') ∧ isInt32 i = true := by
  intro ω F dbl ext cfg t a s fold debug name l fmtA main r w i j w' w'' hp hs hfold hl hr htx hx ⟨h1, ⟨h2, h3, h4⟩, ⟨n, ⟨i1, w1⟩, h5⟩, m, i2, w2, h6, h7⟩ hi hj
  obtain ⟨_, e1⟩ := C59_partial ω F ext cfg t a s fold debug name l n w i1 w1 hp hs hfold hl h1 h5
  have e2 := (C70_partial ω F dbl ext cfg t a s fmtA main r m w i2 w2 hp hs hr htx hx ⟨h2, h3, h4, h7⟩ h6).det hj
  have e3 := C59_result (C59_documented h5) (C70_documented h6)
  obtain ⟨rfl, rfl⟩ := e1 i w' hi
  cases e2
  cases e3
  exact ⟨rfl, rfl⟩

/-- Under the same conditions both do come to their ends. -/
theorem C71_both {ω : Type} {F : Floats} {dbl ext} {cfg : Cfg} {t : Tree} {a : ATree} {s : SS} {fold debug name l fmtA main r} {n m : Nat} {w : ω} {i j w' w''}
    (hp : Parsed t) (hs : semantic cfg t = .ok a s) (hfold : FoldSound F fold) (hl : codegenL ⟨s.syms, fold, debug⟩ name a = some l)
    (hr : genModuleC ⟨s.syms, none, fmtA⟩ a = some r) (htx : ∀ e ∈ a.exprs, FloatTexts fmtA ⟨fun _ => none, F, dbl⟩ e) (hx : ExtTyped s.syms ext)
    (hj : JumpsOk false a) (hn : NoLoopInit s.syms false a) (hf : FineTree s.syms fmtA a) (hm : PlainText main) (hfit : C.fits F s.syms a = true)
    (h1 : runProgram ⟨safeArith F, ext, s.syms, a⟩ n w = some (i, w')) (h2 : runProgram ⟨cArith F, ext, s.syms, a⟩ m w = some (j, w''))
    (h32 : isInt32 j = true) :
    RunsTo F ext l.funcs l.globals w i w' ∧ CEnds F dbl ext a (fileC ⟨s.syms, none, fmtA⟩ main r.1 r.2) w (i, w') := by
  have e3 := C59_result (C59_documented h1) (C70_documented h2)
  cases e3
  exact ⟨(C59_partial ω F ext cfg t a s fold debug name l n w i w' hp hs hfold hl ⟨hj, hn⟩ h1).1,
    C70_partial ω F dbl ext cfg t a s fmtA main r m w i w' hp hs hr htx hx ⟨hf, hm, hfit, h32⟩ h2⟩

/-- The code of the LLVM back end gives this. -/
def llvmGives (src : String) (n : Nat) (r : Int × List (List Char × List Val)) : Bool :=
  match checked sampleCfg src with
  | .ok a s =>
    match codegenL ⟨s.syms, fun _ _ _ => none, false⟩ ['m'] a with
    | some l => decide (resultIR noFloats noting l.funcs l.globals n [] = some r)
    | none => false
  | _ => false

/-- In the code of the LLVM back end the function counts from 0 every time, in C it goes on counting. -/
theorem C71_false : ¬ C71_full := by
  intro h
  have hacc : acceptsSrc counter = true := by decide +kernel
  have hc : conditionsC false counter = true := by decide +kernel
  have hL : llvmGives counter 60 (1, []) = true := by decide +kernel
  have hC : bothC cArith counter 60 (1, []) counterItems = true := by decide +kernel
  have hR : runC ⟨noFloats, fun _ => none, noting, counterItems⟩ 60 [] = some (2, []) := by decide +kernel
  unfold llvmGives at hL
  unfold bothC at hC
  split at hL
  · rename_i a s hs
    rw [hs] at hC
    split at hL
    · rename_i l hl
      dsimp only at hC
      split at hC
      · rename_i m hm
        simp only [Bool.and_eq_true, decide_eq_true_eq] at hC hL
        obtain ⟨⟨⟨_, h2⟩, h3⟩, h4⟩ := hC
        obtain ⟨_, _, hpl⟩ := conditionsC_ok hc hs
        have e := List.take_append_drop (runTimeText a).length (fileC ⟨s.syms, none, fun _ => ['0']⟩ "m".toList m.1 m.2)
        rw [h2] at e
        have hend : CEnds noFloats (fun _ => none) noting a (fileC ⟨s.syms, none, fun _ => ['0']⟩ "m".toList m.1 m.2) [] (2, []) :=
          ⟨_, toksU counterItems, counterItems, e.symm, h3, readsU_ok h4, fun _ h => h.uniq (readsU_ok h4), 60, fun n hn => runC_mono hR hn⟩
        have := h _ noFloats (fun _ => none) noting sampleCfg _ a s _ _ _ l (fun _ => ['0']) "m".toList m [] 1 2 [] [] (parsed_src hacc) hs fold_none hl hm
          (plain_texts hpl) (plain_typed hpl) trivial (resultIR_sound hL) hend
        cases this.1
      · cases hC
    · cases hL
  · cases hL

/-- The conditions of `C71_partial` hold for a program with a bit of everything. -/
example : conditionsC true sampleC && conditionsTest true true sampleC && bothC cArith sampleC 400 sampleResultC sampleItems &&
    bothC safeArith sampleC 400 sampleResultC sampleItems && llvmGives sampleC 400 sampleResultC = true := by decide +kernel

end Skull
