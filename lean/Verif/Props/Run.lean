import Verif.Proofs.LSimProg
import Verif.Proofs.LInterp
import Verif.Proofs.SrcMono
import Verif.Props.CodegenLLVM
/-
C59: what the code of the LLVM back end does is what the program does.
-/
namespace Skull
open Spec

/- ### C59 -/

/-- Compiling keeps the meaning of programs, with this arithmetic, for the checked trees with property `P`: if the program comes to its end
and returns `i`, so does the code, and there is nothing else that the code does. -/
def KeepsMeaning (A : Floats → Arith) (P : List Symbol → ATree → Prop) : Prop :=
  ∀ (ω : Type) (F : Floats) (ext : List Char → List Val → ω → Option (Val × ω)) (scfg : Cfg) (t : Tree) (a : ATree) (ss : SS) (fold) (debug : Bool)
    (name : List Char) (s : LState) (n : Nat) (w : ω) (i : Int) (w' : ω), Parsed t → semantic scfg t = .ok a ss → FoldSound F fold →
    codegenL ⟨ss.syms, fold, debug⟩ name a = some s → P ss.syms a → runProgram ⟨A F, ext, ss.syms, a⟩ n w = some (i, w') →
    RunsTo F ext s.funcs s.globals w i w' ∧ ∀ j w'', RunsTo F ext s.funcs s.globals w j w'' → j = i ∧ w'' = w'

/-- The property as stated: with the documented arithmetic, for all programs. -/
def C59_full : Prop := KeepsMeaning docArith fun _ _ => True

/-- It holds for the arithmetic that the code can do, and for programs in which no loop comes before a `break` or `continue` in the same
loop and no variable outside functions is set to a literal in a loop. -/
theorem C59_partial : KeepsMeaning safeArith fun syms a => JumpsOk false a ∧ NoLoopInit syms false a := by
  intro ω F ext scfg t a ss fold debug name s n w i w' hp hs hf h hc hr
  have := accepted_runs hp hs rfl h hc.1 hf hc.2 hr
  exact ⟨this, fun j w'' hj => hj.det this⟩

/-- What a program gives does not depend on the number of steps that are allowed. -/
theorem C59_result {ω : Type} {c : RunCtx ω} {n n' : Nat} {w : ω} {r r' : Int × ω} (h : runProgram c n w = some r)
    (h' : runProgram c n' w = some r') : r = r' := by
  rcases Nat.le_total n n' with hn | hn
  · rw [run_mono h hn] at h'; cases h'; rfl
  · rw [run_mono h' hn] at h; cases h; rfl

/- #### Examples -/

def noFloats : Floats :=
  ⟨fun _ _ => 0, fun _ _ => 0, fun _ _ => 0, fun _ _ => 0, fun _ _ => 0, fun _ _ => 0, fun _ => 0, fun _ _ => true, fun _ _ => true,
    fun _ _ => true, fun _ _ => true, fun _ _ => true⟩

/-- An external function that notes down what it is called with. -/
def noting (name : List Char) (vs : List Val) (w : List (List Char × List Val)) : Option (Val × List (List Char × List Val)) :=
  some (.unit, w ++ [(name, vs)])

/-- Whether a program gives this, and its code that. -/
def bothRun (A : Floats → Arith) (src : String) (n : Nat) (r r' : Option (Int × List (List Char × List Val))) : Bool :=
  match checked sampleCfg src with
  | .ok a ss =>
    match codegenL ⟨ss.syms, fun _ _ _ => none, false⟩ ['m'] a with
    | some s =>
      decide (runProgram ⟨A noFloats, noting, ss.syms, a⟩ n [] = r) && decide (resultIR noFloats noting s.funcs s.globals n [] = r')
    | none => false
  | _ => false

/-- Whether a tree has variables outside functions that are set to a literal in a loop. -/
def noLoopInitTest (syms : List Symbol) : Bool → ATree → Bool
  | loop, .node ann stmt _ child next =>
    (match ann with
      | .varDef id e =>
        match syms[id]? with
        | some sym => match sym.kind with | .var v => !loop || !literalOnly e || v.isConst | _ => true
        | none => true
      | _ => true) &&
    (match stmt with
      | .funcProto _ => true
      | .whiles _ => noLoopInitTest syms true child
      | _ => noLoopInitTest syms loop child) && noLoopInitTest syms loop next
  | _, _ => true

theorem noLoopInitTest_ok {syms : List Symbol} : ∀ {t : ATree} {loop : Bool}, noLoopInitTest syms loop t = true → NoLoopInit syms loop t
  | .nil, _, _ => by unfold NoLoopInit; trivial
  | .unchecked _, _, _ => by unfold NoLoopInit; trivial
  | .node ann stmt tok child next, loop, h => by
    unfold noLoopInitTest at h
    unfold NoLoopInit
    rw [Bool.and_eq_true, Bool.and_eq_true] at h
    refine ⟨?_, ?_, noLoopInitTest_ok h.2⟩
    · rintro id e sym v rfl hs hk rfl hl
      have h1 := h.1.1
      simp only [hs, hk, hl] at h1
      simpa using h1
    · have h2 := h.1.2
      cases stmt <;> first | trivial | exact noLoopInitTest_ok h2

theorem fold_none {F : Floats} : FoldSound F fun _ _ _ => none := fun _ _ _ _ h => by cases h

/-- A folder that does all operations on constants that have a value. -/
def foldAll (F : Floats) (op : LOp) (a b : LVal) : Option LVal :=
  match constVal a, constVal b with
  | some x, some y =>
    match machBin F op x y with
    | some (.int i) => some (.int i)
    | some (.float f) => some (.float f)
    | some (.bool b) => some (.bool b)
    | some (.rune r) => some (.rune r)
    | some (.str s) => some (.str s)
    | _ => none
  | _, _ => none

theorem isConstant_of {a : LVal} {x} (h : constVal a = some x) : a.isConstant = true := by
  cases a <;> first | rfl | cases h

example {F : Floats} : FoldSound F (foldAll F) := by
  intro op a b v h
  unfold foldAll at h
  split at h
  · rename_i x y hx hy
    refine ⟨isConstant_of hx, isConstant_of hy, ?_⟩
    split at h <;> first | (cases h; done) | skip
    all_goals
      rename_i hz
      cases h
      refine ⟨rfl, ?_⟩
      intro x' y' z h1 h2 h3
      rw [hx] at h1
      rw [hy] at h2
      cases h1
      cases h2
      rw [hz] at h3
      cases h3
      rfl
  · cases h

/-- Recursion, loops, a namespace, external functions, variables in and outside functions. -/
def sampleRun : String :=
  "external show(n: Int, s: Str)\nfac(n: Int) Int {\nif n < 2 {\nreturn 1\n}\nmut r := n\nr = r * fac(n - 1)\nreturn r\n}\n" ++
  "mut sum := 0\nmut i := 0\nwhile true {\nif i is 4 {\nbreak\n}\ni = i + 1\nif i is 2 {\ncontinue\n}\nt := fac(i)\nshow(t, \"x\")\nsum = sum + t\n}\n" ++
  "namespace n {\ntwice(x: Int) Int {\nreturn x + x\n}\n}\nreturn n.twice(sum) - i mod 3\n"

/-- What it gives. -/
def sampleResult : Int × List (List Char × List Val) :=
  (61, [("show".toList, [.int 1, .str ['x'.toNat]]), ("show".toList, [.int 6, .str ['x'.toNat]]), ("show".toList, [.int 24, .str ['x'.toNat]])])

example : bothRun safeArith sampleRun 400 (some sampleResult) (some sampleResult) = true := by decide +kernel

/-- The conditions of `C59_partial` hold for this program. -/
example : (match checked sampleCfg sampleRun with
    | .ok a s => jumpsTest false a && noLoopInitTest s.syms false a
    | _ => false) = true := by decide +kernel

/- #### The conditions are needed -/

/-- A program whose code gives something else. -/
theorem not_kept {A P src n i j} (hacc : acceptsSrc src = true) (h : bothRun A src n (some (i, [])) (some (j, [])) = true) (hne : i ≠ j)
    (hP : ∀ a s, checked sampleCfg src = .ok a s → P s.syms a) : ¬ KeepsMeaning A P := by
  intro hk
  unfold bothRun at h
  split at h
  · rename_i a ss hs
    split at h
    · rename_i s hc
      rw [Bool.and_eq_true, decide_eq_true_eq, decide_eq_true_eq] at h
      obtain ⟨_, h2⟩ := hk _ noFloats noting sampleCfg _ a ss _ _ _ s n [] i [] (parsed_src hacc) hs fold_none hc (hP a ss hs) h.1
      exact hne (h2 j [] (resultIR_sound h.2)).1.symm
    · cases h
  · cases h

/-- A program whose code does not come to its end. -/
theorem not_ended {A P src n i} (hacc : acceptsSrc src = true)
    (h : (match checked sampleCfg src with
      | .ok a ss => decide (runProgram ⟨A noFloats, noting, ss.syms, a⟩ n [] = some (i, []))
      | _ => false) = true)
    (hP : ∀ a s, checked sampleCfg src = .ok a s → P s.syms a)
    (hstuck : ∀ a ss, checked sampleCfg src = .ok a ss → ∃ s, codegenL ⟨ss.syms, fun _ _ _ => none, false⟩ ['m'] a = some s ∧
      ¬ RunsTo noFloats noting s.funcs s.globals [] i []) : ¬ KeepsMeaning A P := by
  intro hk
  split at h
  · rename_i a ss hs
    rw [decide_eq_true_eq] at h
    obtain ⟨s, h1, h2⟩ := hstuck a ss hs
    exact h2 (hk _ noFloats noting sampleCfg _ a ss _ _ _ s n [] i [] (parsed_src hacc) hs fold_none h1 (hP a ss hs) h).1
  · cases h

/-- The conditions of `C59_partial`, to be checked. -/
def conditionsTest (jumps inits : Bool) (src : String) : Bool :=
  match checked sampleCfg src with
  | .ok a s => (!jumps || jumpsTest false a) && (!inits || noLoopInitTest s.syms false a)
  | _ => false

theorem conditions_ok {jumps inits src} (h : conditionsTest jumps inits src = true) {a s} (hs : checked sampleCfg src = .ok a s) :
    (jumps = true → JumpsOk false a) ∧ (inits = true → NoLoopInit s.syms false a) := by
  unfold conditionsTest at h
  rw [hs] at h
  simp only [Bool.and_eq_true, Bool.or_eq_true, Bool.not_eq_true'] at h
  constructor
  · intro hj
    exact jumpsTest_ok (h.1.resolve_left (by simp [hj]))
  · intro hj
    exact noLoopInitTest_ok (h.2.resolve_left (by simp [hj]))

/-- The arithmetic is needed: `5 ^ 0` is 5. -/
theorem C59_needs_arith : ¬ KeepsMeaning docArith fun syms a => JumpsOk false a ∧ NoLoopInit syms false a := by
  refine not_kept (src := "return 5 ^ 0\n") (n := 20) (i := 1) (j := 5) (by decide +kernel) (by decide +kernel) (by decide) ?_
  intro a s hs
  have := conditions_ok (jumps := true) (inits := true) (src := "return 5 ^ 0\n") (by decide +kernel) hs
  exact ⟨this.1 rfl, this.2 rfl⟩

theorem C59_false : ¬ C59_full := by
  intro h
  refine C59_needs_arith fun ω F ext scfg t a ss fold debug name s n w i w' hp hs hf hc _ hr => ?_
  exact h ω F ext scfg t a ss fold debug name s n w i w' hp hs hf hc trivial hr

/-- A loop in which a variable is set to 0. -/
def initInLoop : String := "mut i := 0\nmut s := 0\nwhile i < 2 {\nmut x := 0\nx = x + 1\ns = s + x\ni = i + 1\n}\nreturn s\n"

/-- The condition on variables in loops is needed: `x` is set to 0 only once. -/
theorem C59_needs_inits : ¬ KeepsMeaning safeArith fun _ a => JumpsOk false a := by
  refine not_kept (src := initInLoop) (n := 60) (i := 2) (j := 3) (by decide +kernel) (by decide +kernel) (by decide) ?_
  intro a s hs
  exact (conditions_ok (jumps := true) (inits := false) (src := initInLoop) (by decide +kernel) hs).1 rfl

theorem main_run {ω : Type} {F : Floats} {ext : List Char → List Val → ω → Option (Val × ω)} {M : List LFunc} {G : List LGlobal} {w i w' code}
    (h : RunsTo F ext M G w i w') (hb : blockOf M 0 0 = some code) :
    ∃ m', IRun F ext M 0 code (fun _ => none) [] (initMem G w) (some (.int i)) m' := by
  obtain ⟨m', h, _⟩ := h
  generalize hv : ([] : List MVal) = vs at h
  cases h with
  | value _ _ _ h1 h2 =>
    subst hv
    rw [hb] at h1
    cases h1
    exact ⟨m', h2⟩
  | external h1 h2 => rw [no_block h1 h2] at hb; cases hb

theorem run_br {ω : Type} {F : Floats} {ext : List Char → List Val → ω → Option (Val × ω)} {M : List LFunc} {f b rest regs ps v code} {m m' : Mem ω}
    (h : IRun F ext M f (.br (some b) :: rest) regs ps m v m') (hb : blockOf M f b = some code) : IRun F ext M f code regs ps m v m' := by
  cases h with
  | step h => cases h
  | br h1 h2 => rw [hb] at h1; cases h1; exact h2

theorem run_true {ω : Type} {F : Floats} {ext : List Char → List Val → ω → Option (Val × ω)} {M : List LFunc} {f b b' rest regs ps v code}
    {m m' : Mem ω} (h : IRun F ext M f (.condBr (.bool true) b b' :: rest) regs ps m v m') (hb : blockOf M f b = some code) :
    IRun F ext M f code regs ps m v m' := by
  cases h with
  | step h => cases h
  | condBr h0 h1 h2 => cases h0; rw [if_pos rfl, hb] at h1; cases h1; exact h2

/-- The condition on jumps is needed: the second `break` goes nowhere. -/
theorem C59_needs_jumps : ¬ KeepsMeaning safeArith fun syms a => NoLoopInit syms false a := by
  refine not_ended (src := breakAfterLoop) (n := 30) (i := 0) (by decide +kernel) (by decide +kernel)
    (fun a s hs => (conditions_ok (jumps := false) (inits := true) (src := breakAfterLoop) (by decide +kernel) hs).2 rfl) ?_
  intro a ss hs
  have key : (match checked sampleCfg breakAfterLoop with
      | .ok a s => match codegenL ⟨s.syms, fun _ _ _ => none, false⟩ ['m'] a with
        | some st => decide ((st.funcs.map (·.blocks)) =
          [[[.br (some 1)], [.condBr (.bool true) 2 3], [.br (some 4)], [.ret (.int 0)], [.condBr (.bool true) 5 6], [.br (some 6)],
            [.br none]]])
        | none => false
      | _ => false) = true := by decide +kernel
  rw [hs] at key
  dsimp only at key
  split at key
  · rename_i st hst
    refine ⟨st, hst, fun hr => ?_⟩
    simp only [decide_eq_true_eq] at key
    have hb : ∀ b, blockOf st.funcs 0 b = _ := fun b => blockOf_map b key
    obtain ⟨m', h0⟩ := main_run hr (hb 0)
    have h1 := run_br h0 (hb 1)
    have h2 := run_true h1 (hb 2)
    have h3 := run_br h2 (hb 4)
    have h4 := run_true h3 (hb 5)
    have h5 := run_br h4 (hb 6)
    cases h5 with
    | step h => cases h
  · cases key

/-- Division with a remainder has no value in the code. -/
theorem C59_needs_exact : ¬ KeepsMeaning docArith fun syms a => JumpsOk false a ∧ NoLoopInit syms false a := by
  refine not_ended (src := "return 7 / 2\n") (n := 20) (i := 3) (by decide +kernel) (by decide +kernel) (fun a s hs => ?_) ?_
  · have := conditions_ok (jumps := true) (inits := true) (src := "return 7 / 2\n") (by decide +kernel) hs
    exact ⟨this.1 rfl, this.2 rfl⟩
  intro a ss hs
  have key : (match checked sampleCfg "return 7 / 2\n" with
      | .ok a s => match codegenL ⟨s.syms, fun _ _ _ => none, false⟩ ['m'] a with
        | some st => decide ((st.funcs.map (·.blocks)) = [[[.bin 0 .sdiv (.int 7) (.int 2), .ret (.reg 0)]]])
        | none => false
      | _ => false) = true := by decide +kernel
  rw [hs] at key
  dsimp only at key
  split at key
  · rename_i st hst
    refine ⟨st, hst, fun hr => ?_⟩
    simp only [decide_eq_true_eq] at key
    obtain ⟨m', h0⟩ := main_run hr (blockOf_map 0 key)
    cases h0 with
    | step h => cases h
  · cases key

end Skull
