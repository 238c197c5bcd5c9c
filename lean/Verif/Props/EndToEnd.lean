import Verif.Proofs.Start
import Verif.Props.Run
import Verif.Props.Driver
/-
C67: a binary does what its source says.
-/
namespace Skull
open Spec

/-- What is asked of LLVM's passes: a process that exits with `i`, and with nothing else, does so afterwards. -/
def Spec.PassesSound (opt : List Char → LState → LState) : Prop :=
  ∀ (ω : Type) (F : Floats) (ext : List Char → List Val → ω → Option (Val × ω)) (p : List Char) (m : LState) (w : ω) (i : Int) (w' : ω),
    (Exits F ext m.funcs m.globals w i w' ∧ ∀ j w'', Exits F ext m.funcs m.globals w j w'' → j = i ∧ w'' = w') →
    Exits F ext (opt p m).funcs (opt p m).globals w i w' ∧
      ∀ j w'', Exits F ext (opt p m).funcs (opt p m).globals w j w'' → j = i ∧ w'' = w'

/-- A run of the compiler that ends with 0 and was asked for a binary has linked an object file of a module to it that does what the
program in the source does, with this arithmetic, for checked programs with property `P`: if the program returns `i`, the process exits
with `i`, after the same calls of external functions. -/
def BinaryKeepsMeaning (A : Floats → Arith) (P : List Symbol → ATree → Prop) : Prop :=
  ∀ (sys : Sys) (args : List (List Char)) (b : BuildData) (stem : List Char) (acts : List Act), cliMain sys.colorEnv args = .run b →
    Source b stem → skull sys args = some (0, acts) → sys.read (stem ++ ".sk".toList) ≠ some [] → format b = .bin → b.outFile = none →
    (∀ cmd, sys.wait cmd % 256 = 0 ∧ sys.wait cmd < 65536) → PassesSound sys.optimize →
    ∃ file t a s obj m, sys.read (stem ++ ".sk".toList) = some file ∧ ProgramIn b.werror file t ∧ semantic (checkCfg sys b) t = .ok a s ∧
      .emit obj false m ∈ acts ∧ .shell (linkCommand obj stem b.extraArgs) ∈ acts ∧
      ∀ (ω : Type) (F : Floats) (ext : List Char → List Val → ω → Option (Val × ω)) (n : Nat) (w : ω) (i : Int) (w' : ω),
        FoldSound F sys.fold → P s.syms a → runProgram ⟨A F, ext, s.syms, a⟩ n w = some (i, w') →
        Exits F ext m.funcs m.globals w i w' ∧ ∀ j w'', Exits F ext m.funcs m.globals w j w'' → j = i ∧ w'' = w'

/-- C67: with the documented arithmetic, for all programs. -/
def C67_full : Prop := BinaryKeepsMeaning docArith fun _ _ => True

/-- No function has one of the names that the run time needs. -/
def Spec.NamesFree (syms : List Symbol) : Prop := ∀ sym ∈ syms, sym.linkageName ≠ "exit".toList ∧ sym.linkageName ≠ "_start".toList

theorem module_exits {ω : Type} {scfg : Cfg} {t : Tree} {a : ATree} {s : SS} {F : Floats} {ext : List Char → List Val → ω → Option (Val × ω)}
    {n w i w' fold debug} {main : Symbol} {m m' : LState} (hp : Parsed t) (hs : semantic scfg t = .ok a s) (h0 : s.syms[0]? = some main)
    (h : codegenL ⟨s.syms, fold, debug⟩ main.linkageName a = some m) (hm : addStart m = some m') (hf : FoldSound F fold)
    (hj : JumpsOk false a) (hi : NoLoopInit s.syms false a) (hN : NamesFree s.syms)
    (hr : runProgram ⟨safeArith F, ext, s.syms, a⟩ n w = some (i, w')) :
    Exits F ext m'.funcs m'.globals w i w' ∧ ∀ j w'', Exits F ext m'.funcs m'.globals w j w'' → j = i ∧ w'' = w' := by
  have hrun := accepted_runs hp hs rfl h hj hf hi hr
  obtain ⟨hn, hd⟩ := semantic_defs hp hs
  obtain ⟨_, wt⟩ := semantic_wt hp hs
  have href := codegenL_ref h hn hd (wt_assigns (cfg := ⟨s.syms, fold, debug⟩) wt)
  have hnames : NamesOk (fun x => x ≠ "exit".toList ∧ x ≠ "_start".toList) m := by
    refine codegenL_names h (hN _ (List.mem_of_getElem? h0)) ?_
    intro id sym f hfn
    unfold LCfg.func at hfn
    split at hfn
    · rename_i sym' hsym
      split at hfn
      · cases hfn; exact hN _ (List.mem_of_getElem? hsym)
      · cases hfn
    · cases hfn
  exact start_exits hm href hnames hrun

/-- C67 holds for the arithmetic that the code can do, and for programs in which no loop comes before a `break` or `continue` in the same
loop, no variable outside functions is set to a literal in a loop, and no function is called `exit` or `_start`. -/
theorem C67_partial : BinaryKeepsMeaning safeArith fun syms a => JumpsOk false a ∧ NoLoopInit syms false a ∧ NamesFree syms := by
  intro sys args b stem acts hb hsrc h hne hfmt hout hwait hopt
  obtain ⟨file, t, a, s, hr, hp, hs, hd⟩ := C63_delivered_partial sys args b stem acts hb hsrc h hne (fun _ => hout) hwait
  have hat : outputAt b stem = some stem := by
    have hpre : b.preprocess = false := by
      cases hp : b.preprocess with
      | false => rfl
      | true => unfold format at hfmt; rw [hp] at hfmt; split at hfmt <;> cases hfmt
    unfold outputAt
    rw [hout, hpre, hfmt]
    rfl
  have hd := hd.2
  rw [hfmt, hat] at hd
  obtain ⟨m, m', obj, ⟨main, hmain, hcode⟩, hstart, hemit, _, hshell, _⟩ := hd
  refine ⟨file, t, a, s, obj, optimized sys b m', hr, hp, hs, hemit, hshell, ?_⟩
  intro ω F ext n w i w' hf hP hrun
  obtain ⟨_, _, _, _, _, _, _, hparse⟩ := hp
  have key := module_exits ⟨_, _, hparse⟩ hs hmain hcode hstart hf hP.1 hP.2.1 hP.2.2 hrun
  unfold optimized
  split
  · exact hopt _ _ _ _ _ _ _ _ key
  · split
    · exact hopt _ _ _ _ _ _ _ _ key
    · split
      · exact hopt _ _ _ _ _ _ _ _ key
      · exact key

/- #### Examples -/

/-- A test of the checked program in a file. -/
def programTest (cfg : Cfg) (werror : Bool) (file : List UInt8) (k : ATree → SS → Bool) : Bool :=
  match sourceText file with
  | some src =>
    match tokenize werror src with
    | some (.ok toks) =>
      match classifyTokens toks with
      | some toks =>
        match parseAstTree toks with
        | .ok (some t) _ => match semantic cfg t with | .ok a s => k a s | _ => false
        | _ => false
      | none => false
    | _ => false
  | none => false

theorem programTest_ok {cfg werror file k t a s} (h : programTest cfg werror file k = true) (hp : ProgramIn werror file t)
    (hs : semantic cfg t = .ok a s) : k a s = true := by
  obtain ⟨src, toks, toks', p, h1, h2, h3, h4⟩ := hp
  unfold programTest at h
  simp only [h1, h2, h3, h4, hs] at h
  exact h

/-- Whether the code returns `i`, and `_start` gives that to `exit`. -/
def exitsTest (n : Nat) (i : Int) (m : LState) : Bool :=
  decide (resultIR noFloats noting m.funcs m.globals n [] = some (i, [])) &&
    match m.funcs[1]?, m.funcs[2]? with
    | some x, some y => decide (x.name = "_start".toList ∧ y.name = "exit".toList ∧ y.blocks = []) &&
      match x.blocks with
      | [.call r 0 [], .call _ 2 [.reg r'], .retVoid] :: _ => r == r'
      | _ => false
    | _, _ => false

theorem exitsTest_ok {n i m} (h : exitsTest n i m = true) : Exits noFloats noting m.funcs m.globals [] i [] := by
  unfold exitsTest at h
  rw [Bool.and_eq_true, decide_eq_true_eq] at h
  obtain ⟨h1, h2⟩ := h
  obtain ⟨m', hc, hw⟩ := resultIR_sound h1
  split at h2
  · rename_i x y hx hy
    rw [Bool.and_eq_true, decide_eq_true_eq] at h2
    obtain ⟨⟨hn, hn', hb⟩, h3⟩ := h2
    split at h3
    · rename_i r r2 r' rest hbl
      have := eq_of_beq h3
      subst this
      refine ⟨1, x, _, hx, hn, by unfold blockOf; rw [hx]; simp only [Option.bind_some, hbl]; rfl, .call rfl hc ?_⟩
      rw [← hw]
      exact .exit (by simp [operands, operand, Regs.set]) hy hb hn'
    · cases h3
  · cases h2

/-- A program whose binary exits with something else. -/
theorem not_binary {A P src n i j} (hne : i ≠ j)
    (hr : ranWith (world src) ["a.sk"] 0 (fun acts => acts.all fun | .emit _ _ m => exitsTest n j m | _ => true) = true)
    (hp : programTest (checkCfg (world src) { filename := some "a.sk".toList }) false (asciiBytes src) (fun a s =>
      decide (runProgram ⟨A noFloats, noting, s.syms, a⟩ n [] = some (i, []))) = true)
    (hP : ∀ t a s, ProgramIn false (asciiBytes src) t → semantic (checkCfg (world src) { filename := some "a.sk".toList }) t = .ok a s →
      P s.syms a) (hsrc : asciiBytes src ≠ []) : ¬ BinaryKeepsMeaning A P := by
  intro h
  obtain ⟨acts, h1, h2⟩ := ranWith_true hr
  have hb : cliMain none (argv ["a.sk"]) = .run { filename := some "a.sk".toList } := by decide +kernel
  obtain ⟨file, t, a, s, obj, m, g1, g2, g3, g4, _, g6⟩ := h (world src) _ _ ['a'] acts hb (source_a rfl) h1
    (by intro he; exact hsrc (Option.some.inj he)) rfl rfl (fun _ => ⟨rfl, Nat.zero_lt_succ 65535⟩) (fun ω F ext p m w i w' h => h)
  have g1 : some (asciiBytes src) = some file := g1
  cases g1
  have hex := exitsTest_ok (List.all_eq_true.1 h2 _ g4)
  have hk := of_decide_eq_true (programTest_ok hp g2 g3)
  exact hne ((g6 _ noFloats noting n [] i [] fold_none (hP _ _ _ g2 g3) hk).2 j [] hex).1.symm

theorem C67_false : ¬ C67_full :=
  not_binary (src := "return 5 ^ 0\n") (n := 20) (i := 1) (j := 5) (by decide) (by decide +kernel) (by decide +kernel)
    (fun _ _ _ _ _ => trivial) (by decide)

/-- The sample program of C59, in a file: the binary exits with what the program returns. -/
example : ranWith (world "f(n: Int) Int {\nreturn n * 2\n}\nreturn f(20) + 2\n") ["a.sk"] 0 (fun acts => acts.any fun
    | .emit _ _ m => decide (resultIR noFloats noting m.funcs m.globals 40 [] = some (42, []))
    | _ => false) = true := by decide +kernel

/-- And the conditions of `C67_partial` hold for it. -/
example : programTest sampleCfg false (asciiBytes "f(n: Int) Int {\nreturn n * 2\n}\nreturn f(20) + 2\n") (fun a s =>
    jumpsTest false a && noLoopInitTest s.syms false a &&
      s.syms.all fun sym => sym.linkageName != "exit".toList && sym.linkageName != "_start".toList) = true := by decide +kernel

end Skull
