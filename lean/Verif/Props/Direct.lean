import Verif.Proofs.DirectRun
import Verif.Proofs.ElabCheck
import Verif.Props.CRun
import Verif.Props.EndToEnd
/-
C78: what the check makes of a program does what was written.
C79: binaries and C programs do what was written.
-/
namespace Skull
open Spec Spec.C

/-! ## C78 The check keeps the meaning of programs -/

/-- A program that is accepted does what is written: names, aliases, types, constants and literals are what they stand for where they are
written. -/
def CheckKeepsMeaning (P : Tree → Prop) : Prop :=
  ∀ (ω : Type) (A : Arith) (ext : List Char → List Val → ω → Option (Val × ω)) (cfg : Cfg) (t : Tree) (a : ATree) (s : SS) (n : Nat) (w : ω),
    Parsed t → semantic cfg t = .ok a s → P t → runTree ⟨A, cfg.strtod, ext⟩ t n w = runProgram ⟨A, ext, s.syms, a⟩ n w

/-- The property as stated: for all programs. -/
def C78_full : Prop := CheckKeepsMeaning fun _ => True

/-- It holds for programs without functions in functions and without blocks behind calls, with less than 65536 arguments for a function.
The two runs even end after the same number of steps.  (Missing: functions in functions, for which it is false.) -/
theorem C78_partial : CheckKeepsMeaning fun t => Counted t ∧ CallsBare t ∧ FlatFuncs false t := by
  intro ω A ext cfg t a s n w ⟨toks, ps, hp⟩ h ⟨hc, hb, hf⟩
  obtain ⟨W, E, hW, hel⟩ := Elab.accepted_el h hc hb (parsed_placed hp)
  rw [← hW]
  exact Elab.run_same hel hf n w

/- #### Examples -/

/-- Whether a program is accepted, and gives this as it is written, and that after the check. -/
def writtenRun (A : Floats → Arith) (src : String) (n : Nat) (r r' : Option (Int × List (List Char × List Val))) : Bool :=
  match checked sampleCfg src with
  | .ok a s =>
    decide (runTree ⟨A noFloats, sampleCfg.strtod, noting⟩ (parsed src) n [] = r) &&
      decide (runProgram ⟨A noFloats, noting, s.syms, a⟩ n [] = r')
  | _ => false

/- To check the conditions of `C78_partial`. -/
mutual
def countedE : Expr → Bool
  | .missing | .ident _ | .const _ => true
  | .call _ args num => countedA args num
  | .un _ e => countedE e
  | .bin _ l r => countedE l && countedE r
def countedA : Args → Nat → Bool
  | .nil, num => num == 0
  | .cons _ e next, num => countedE e && match num with | n + 1 => countedA next n | 0 => false
end

mutual
theorem countedE_ok : ∀ {e}, countedE e = true → Expr.Counted e
  | .missing, _ => by unfold Expr.Counted; trivial
  | .ident _, _ => by unfold Expr.Counted; trivial
  | .const _, _ => by unfold Expr.Counted; trivial
  | .call _ args num, h => by unfold Expr.Counted; unfold countedE at h; exact countedA_ok h
  | .un _ e, h => by unfold Expr.Counted; unfold countedE at h; exact countedE_ok h
  | .bin _ l r, h => by
    unfold Expr.Counted
    unfold countedE at h
    rw [Bool.and_eq_true] at h
    exact ⟨countedE_ok h.1, countedE_ok h.2⟩
theorem countedA_ok : ∀ {args num}, countedA args num = true → Args.Counted args num
  | .nil, _, h => by unfold Args.Counted; unfold countedA at h; exact eq_of_beq h
  | .cons _ e next, 0, h => by unfold countedA at h; simp at h
  | .cons _ e next, n + 1, h => by
    unfold Args.Counted
    unfold countedA at h
    rw [Bool.and_eq_true] at h
    exact ⟨countedE_ok h.1, n, rfl, countedA_ok h.2⟩
end

def directTest : Bool → Tree → Bool
  | _, .nil => true
  | inFunc, .node stmt _ _ child next =>
    (match stmt with
      | .funcProto p => !inFunc && p.numParams == p.params.length && directTest true child
      | .varDef _ _ _ _ e | .varAssign e | .ret e | .ifs e | .elifs e | .whiles e => countedE e && directTest inFunc child
      | .expr e => countedE e && match child with | .nil => true | .node .. => false
      | _ => directTest inFunc child) && directTest inFunc next

theorem directTest_ok : ∀ {inFunc t}, directTest inFunc t = true → Counted t ∧ CallsBare t ∧ FlatFuncs inFunc t
  | _, .nil, _ => ⟨trivial, trivial, trivial⟩
  | inFunc, .node stmt _ _ child next, h => by
    unfold directTest at h
    rw [Bool.and_eq_true] at h
    have ⟨n1, n2, n3⟩ := directTest_ok h.2
    have h1 := h.1
    cases stmt <;> simp only [Bool.and_eq_true, Bool.not_eq_true', beq_iff_eq] at h1 <;> first
      | exact ⟨⟨trivial, (directTest_ok h1).1, n1⟩, ⟨(fun _ _ _ e => by cases e), (directTest_ok h1).2.1, n2⟩, (directTest_ok h1).2.2, n3⟩
      | exact ⟨⟨countedE_ok h1.1, (directTest_ok h1.2).1, n1⟩, ⟨(fun _ _ _ e => by cases e), (directTest_ok h1.2).2.1, n2⟩,
          (directTest_ok h1.2).2.2, n3⟩
      | exact ⟨⟨h1.1.2, (directTest_ok h1.2).1, n1⟩, ⟨(fun _ _ _ e => by cases e), (directTest_ok h1.2).2.1, n2⟩,
          ⟨h1.1.1, (directTest_ok h1.2).2.2⟩, n3⟩
      | (cases child with
         | nil => exact ⟨⟨countedE_ok h1.1, trivial, n1⟩, ⟨(fun _ _ _ _ => rfl), trivial, n2⟩, trivial, n3⟩
         | node => exact absurd h1.2 (by simp))

/-- A name of the outer function that the inner one uses. -/
def outerUsed : String := "f() Int {\nx := 1\ng() Int {\nreturn x\n}\nreturn g()\n}\nreturn f()\n"

/-- It is false: in a function in a function, the check takes variables of the outer one, but they are not there when it runs. -/
theorem C78_false : ¬ C78_full := by
  intro h
  have hacc : acceptsSrc outerUsed = true := by decide +kernel
  have ht : writtenRun docArith outerUsed 40 (some (1, [])) none = true := by decide +kernel
  unfold writtenRun at ht
  split at ht
  · rename_i a s hs
    rw [Bool.and_eq_true, decide_eq_true_eq, decide_eq_true_eq] at ht
    have := h _ (docArith noFloats) noting sampleCfg _ a s 40 [] (parsed_src hacc) hs trivial
    rw [ht.1, ht.2] at this
    cases this
  · cases ht

example : writtenRun safeArith sampleRun 400 (some sampleResult) (some sampleResult) = true := by decide +kernel

example : directTest false (parsed sampleRun) = true := by decide +kernel

/-- A name that is declared again in another block, an alias, and names of a namespace. -/
def sampleNames : String :=
  "namespace n {\nT := Int\nx: T = 5\nf(a: T) T {\nreturn a * x\n}\n}\nmut i := 0\nwhile i < 9 {\nx := i + 1\ni = x\nif x is 2 {\nbreak\n}\n}\n" ++
  "if true {\nx := 7\ni = i + x\n}\nreturn n.f(4) + i * 10\n"

example : writtenRun safeArith sampleNames 100 (some (110, [])) (some (110, [])) = true := by decide +kernel

example : directTest false (parsed sampleNames) = true := by decide +kernel

/-! ## C79 Binaries and C programs do what was written -/

/-- A run of the compiler that ends with 0 and was asked for a binary has linked an object file of a module to it that does what is written
in the source file: if the program as written returns `i`, the process exits with `i` and nothing else, after the same calls of external
functions. -/
def BinaryDoesWritten (A : Floats → Arith) (P : Tree → List Symbol → ATree → Prop) : Prop :=
  ∀ (sys : Sys) (args : List (List Char)) (b : BuildData) (stem : List Char) (acts : List Act), cliMain sys.colorEnv args = .run b →
    Source b stem → skull sys args = some (0, acts) → sys.read (stem ++ ".sk".toList) ≠ some [] → format b = .bin → b.outFile = none →
    (∀ cmd, sys.wait cmd % 256 = 0 ∧ sys.wait cmd < 65536) → PassesSound sys.optimize →
    ∃ file t obj m, sys.read (stem ++ ".sk".toList) = some file ∧ ProgramIn b.werror file t ∧
      .emit obj false m ∈ acts ∧ .shell (linkCommand obj stem b.extraArgs) ∈ acts ∧
      ∀ (ω : Type) (F : Floats) (ext : List Char → List Val → ω → Option (Val × ω)) (n : Nat) (w : ω) (i : Int) (w' : ω),
        FoldSound F sys.fold → (∀ a s, semantic (checkCfg sys b) t = .ok a s → P t s.syms a) →
        runTree ⟨A F, (checkCfg sys b).strtod, ext⟩ t n w = some (i, w') →
        Exits F ext m.funcs m.globals w i w' ∧ ∀ j w'', Exits F ext m.funcs m.globals w j w'' → j = i ∧ w'' = w'

/-- A C file that is made of a source does what is written there. -/
def CDoesWritten (A : Floats → Arith) (P : Floats → Tree → List Symbol → (Nat → List Char) → List Char → ATree → Int → Prop) : Prop :=
  ∀ (ω : Type) (F : Floats) (dbl : List Char → Option Nat) (ext : List Char → List Val → ω → Option (Val × ω)) (cfg : Cfg) (t : Tree) (a : ATree) (s : SS)
    (fmtA : Nat → List Char) (main : List Char) (r : Option (List Char) × CState) (n : Nat) (w : ω) (i : Int) (w' : ω),
    Parsed t → semantic cfg t = .ok a s → genModuleC ⟨s.syms, none, fmtA⟩ a = some r →
    (∀ e ∈ a.exprs, FloatTexts fmtA ⟨fun _ => none, F, dbl⟩ e) → ExtTyped s.syms ext → P F t s.syms fmtA main a i →
    runTree ⟨A F, cfg.strtod, ext⟩ t n w = some (i, w') → CEnds F dbl ext a (fileC ⟨s.syms, none, fmtA⟩ main r.1 r.2) w (i, w')

/-- The property as stated: with the documented arithmetic, for all programs. -/
def C79_full : Prop := BinaryDoesWritten docArith (fun _ _ _ => True) ∧ CDoesWritten docArith fun _ _ _ _ _ _ _ => True

/-- It holds for the programs of C67 and C78. -/
theorem C79_partial : BinaryDoesWritten safeArith fun t syms a =>
    (Counted t ∧ CallsBare t ∧ FlatFuncs false t) ∧ JumpsOk false a ∧ NoLoopInit syms false a ∧ NamesFree syms := by
  intro sys args b stem acts hb hsrc h hne hfmt hout hwait hopt
  obtain ⟨file, t, a, s, obj, m, h1, h2, h3, h4, h5, h6⟩ := C67_partial sys args b stem acts hb hsrc h hne hfmt hout hwait hopt
  refine ⟨file, t, obj, m, h1, h2, h4, h5, ?_⟩
  intro ω F ext n w i w' hF hP hrun
  obtain ⟨hd, hP⟩ := hP a s h3
  obtain ⟨_, _, _, _, _, _, _, hp⟩ := h2
  rw [C78_partial ω (safeArith F) ext _ t a s n w ⟨_, _, hp⟩ h3 hd] at hrun
  exact h6 ω F ext n w i w' hF hP hrun

/-- And for the C files of the programs of C70 and C78. -/
theorem C79_c_partial : CDoesWritten cArith fun F t syms fmtA main a i =>
    (Counted t ∧ CallsBare t ∧ FlatFuncs false t) ∧ FineTree syms fmtA a ∧ PlainText main ∧ C.fits F syms a = true ∧ isInt32 i = true := by
  intro ω F dbl ext cfg t a s fmtA main r n w i w' hp h hr htx hx ⟨hd, hP⟩ hrun
  rw [C78_partial ω (cArith F) ext cfg t a s n w hp h hd] at hrun
  exact C70_partial ω F dbl ext cfg t a s fmtA main r n w i w' hp h hr htx hx hP hrun

/- #### Examples -/

/-- A test of the program in a file, as it is written. -/
def treeTest (werror : Bool) (file : List UInt8) (k : Tree → Bool) : Bool :=
  match sourceText file with
  | some src =>
    match tokenize werror src with
    | some (.ok toks) =>
      match classifyTokens toks with
      | some toks => match parseAstTree toks with | .ok (some t) _ => k t | _ => false
      | none => false
    | _ => false
  | none => false

theorem treeTest_ok {werror file k t} (h : treeTest werror file k = true) (hp : ProgramIn werror file t) : k t = true := by
  obtain ⟨src, toks, toks', p, h1, h2, h3, h4⟩ := hp
  unfold treeTest at h
  simp only [h1, h2, h3, h4] at h
  exact h

/-- It is false: `5 ^ 0` is 5 in a binary. -/
theorem C79_false : ¬ C79_full := by
  intro ⟨h, _⟩
  have hr : ranWith (world "return 5 ^ 0\n") ["a.sk"] 0 (fun acts => acts.all fun | .emit _ _ m => exitsTest 20 5 m | _ => true) = true := by
    decide +kernel
  have hp : treeTest false (asciiBytes "return 5 ^ 0\n") (fun t =>
      decide (runTree ⟨docArith noFloats, (checkCfg (world "return 5 ^ 0\n") { filename := some "a.sk".toList }).strtod, noting⟩ t 20 [] =
        some (1, []))) = true := by decide +kernel
  obtain ⟨acts, h1, h2⟩ := ranWith_true hr
  have hb : cliMain none (argv ["a.sk"]) = .run { filename := some "a.sk".toList } := by decide +kernel
  obtain ⟨file, t, obj, m, g1, g2, g4, _, g6⟩ := h (world "return 5 ^ 0\n") _ _ ['a'] acts hb (source_a rfl) h1
    (by intro he; exact absurd (Option.some.inj he) (by decide)) rfl rfl (fun _ => ⟨rfl, Nat.zero_lt_succ 65535⟩) (fun ω F ext p m w i w' h => h)
  have g1 : some (asciiBytes "return 5 ^ 0\n") = some file := g1
  cases g1
  have hex := exitsTest_ok (List.all_eq_true.1 h2 _ g4)
  have hk := of_decide_eq_true (treeTest_ok hp g2)
  have := ((g6 _ noFloats noting 20 [] 1 [] fold_none (fun _ _ _ => trivial) hk).2 5 [] hex).1
  exact absurd this (by decide)

/-- The sample program of C67, in a file: as written it returns what the binary exits with, and the conditions hold. -/
example : treeTest false (asciiBytes "f(n: Int) Int {\nreturn n * 2\n}\nreturn f(20) + 2\n") (fun t => directTest false t &&
    decide (runTree ⟨safeArith noFloats, sampleCfg.strtod, noting⟩ t 40 [] = some (42, []))) = true := by decide +kernel

end Skull
