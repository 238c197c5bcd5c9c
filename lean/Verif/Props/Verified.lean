import Verif.Proofs.LVFunc
import Verif.Proofs.Scoped
import Verif.Props.CodegenLLVM
/-
C82: LLVM's verifier accepts the module of a program.
-/
namespace Skull
open Spec

/-- The property as stated: the module of an accepted program is what LLVM asks. -/
def C82_full : Prop :=
  ∀ (scfg : Cfg) (t : Tree) (a : ATree) (ss : SS) (fold debug) (name : List Char) (s : LState), Parsed t → semantic scfg t = .ok a ss →
    FoldTyped fold → codegenL ⟨ss.syms, fold, debug⟩ name a = some s → Verified s.funcs s.globals

/-- It holds for the programs without functions in functions in which no statement leaves a namespace, no `break` or `continue` comes after
another loop in the same loop, expressions that are used have values, `return` gives what the function returns, and no address is taken of a
constant of a function or compared. -/
theorem C82_partial {scfg : Cfg} {t : Tree} {a : ATree} {ss : SS} {fold debug} {name : List Char} {s : LState} (hp : Parsed t)
    (hs : semantic scfg t = .ok a ss) (hfold : FoldTyped fold) (h : codegenL ⟨ss.syms, fold, debug⟩ name a = some s) (hf : Flat false t)
    (hn : NamespacesStay t) (hj : JumpsOk false a) (hsd : soundT ss.syms {} a = true) : Verified s.funcs s.globals := by
  obtain ⟨hd, h0⟩ := semantic_defs hp hs
  exact LVer.codegenL_verified (cfg := ⟨ss.syms, fold, debug⟩) hfold h hd h0 (wt_assigns (semantic_wt hp hs).2) (semantic_ends hp hs hf hn) hj
    (semantic_wt hp hs).2 (semantic_scoped hp hs) hsd

/- ### Examples -/

/-- LLVM without a constant folder, and one that adds numbers. -/
example : FoldTyped (fun _ _ _ => none) := by intro op a b v h; cases h

example : FoldTyped (fun op a b => match op, a, b with | .add, .int x, .int y => some (.int (x + y)) | _, _, _ => none) := by
  intro op a b v h
  dsimp only at h
  split at h
  · cases h
    exact ⟨rfl, rfl, rfl, fun _ _ _ _ _ _ _ _ => rfl⟩
  · cases h

/-- A program with functions, loops, branches, globals and references. -/
def soundSource : String :=
  "f(a: Int, s: Str) Int {\nmut i := 0\nwhile i < a {\nif s is \"x\" {\nbreak\n}\nelse {\nx := i * 2\nf(x, s)\n}\ni = i + 1\n}\nreturn i ^ 2\n}\ny := f(2, \"ab\")\nmut w := &y\nif y is 4 {\nreturn 3\n}\n"

/-- The conditions can be computed, and the module is what LLVM asks, with and without `-g`. -/
theorem verified_src {src : String} (hacc : acceptsSrc src = true)
    (key : (match checked sampleCfg src with
      | .ok a s => (codegenL ⟨s.syms, fun _ _ _ => none, false⟩ ['m'] a).isSome && (codegenL ⟨s.syms, fun _ _ _ => none, true⟩ ['m'] a).isSome &&
        soundT s.syms {} a && jumpsTest false a
      | _ => false) = true) (hf : flatTest false (parsed src) = true) (hn : namespacesTest (parsed src) = true) (debug : Bool) :
    ∃ a ss s, semantic sampleCfg (parsed src) = .ok a ss ∧ codegenL ⟨ss.syms, fun _ _ _ => none, debug⟩ ['m'] a = some s ∧
      Verified s.funcs s.globals := by
  split at key
  · rename_i a ss hs
    simp only [Bool.and_eq_true] at key
    obtain ⟨⟨⟨k1, k2⟩, k3⟩, k4⟩ := key
    have hg : (codegenL ⟨ss.syms, fun _ _ _ => none, debug⟩ ['m'] a).isSome = true := by cases debug <;> assumption
    obtain ⟨s, hg⟩ := Option.isSome_iff_exists.1 hg
    exact ⟨a, ss, s, hs, hg, C82_partial (parsed_src hacc) hs (by intro op a b v h; cases h) hg (flatTest_ok hf) (namespacesTest_ok hn)
      (jumpsTest_ok k4) k3⟩
  · cases key

example : ∀ debug, ∃ a ss s, semantic sampleCfg (parsed soundSource) = .ok a ss ∧
    codegenL ⟨ss.syms, fun _ _ _ => none, debug⟩ ['m'] a = some s ∧ Verified s.funcs s.globals :=
  verified_src (by decide +kernel) (by decide +kernel) (by decide +kernel) (by decide +kernel)

/- ### Accepted programs whose modules LLVM refuses -/

/-- Whether some instruction of the function sets the register. -/
def setsReg (x : LFunc) (r : Nat) : Bool := x.blocks.any (·.any fun i => i.dst == some r)

/-- Instructions that LLVM refuses. -/
def badInstr (x : LFunc) : LInstr → Bool
  | .ret _ => decide (lty x.ret = .void)
  | .load _ ty p => decide (lty ty = .void) || (match p with | .int _ => true | .reg r => !setsReg x r | _ => false)
  | .bin _ .foeq _ (.global _) => true
  | .br none => true
  | _ => false

/-- Modules that LLVM refuses. -/
def badModule (M : List LFunc) : Bool :=
  M.any fun x => x.params.any (fun ty => decide (lty ty = .void)) ||
    x.blocks.any (fun code => code.any (badInstr x) || code.dropLast.any (·.isTerm))

theorem setsReg_defined {M : List LFunc} {f r : Nat} {τ : LTy} {x : LFunc} (hx : M[f]? = some x) (h : Defined M f r τ) : setsReg x r = true := by
  obtain ⟨b, code, i, h1, h2, h3⟩ := h
  unfold blockOf at h1
  rw [hx] at h1
  have h1 : x.blocks[b]? = some code := h1
  exact List.any_eq_true.2 ⟨code, List.mem_of_getElem? h1, List.any_eq_true.2 ⟨i, h2, by simp [LVer.result_dst h3]⟩⟩

theorem bad_refused {M G} (h : badModule M = true) : ¬ Verified M G := by
  intro hv
  obtain ⟨x, hx, h⟩ := List.any_eq_true.1 h
  rcases Bool.or_eq_true _ _ ▸ h with h | h
  · obtain ⟨ty, h1, h2⟩ := List.any_eq_true.1 h
    exact (hv.funcs x hx).1 ty h1 (of_decide_eq_true h2)
  · obtain ⟨code, h1, h⟩ := List.any_eq_true.1 h
    obtain ⟨f, hf⟩ := List.getElem?_of_mem hx
    obtain ⟨b, hb⟩ := List.getElem?_of_mem h1
    have hc : blockOf M f b = some code := by unfold blockOf; rw [hf]; exact hb
    rcases Bool.or_eq_true _ _ ▸ h with h | h
    · obtain ⟨i, h2, h3⟩ := List.any_eq_true.1 h
      have ht := hv.types f b code hc i h2
      cases i with
      | ret v =>
        obtain ⟨y, k1, k2, _⟩ := ht
        cases hf.symm.trans k1
        exact k2 (of_decide_eq_true h3)
      | load r ty p =>
        rcases Bool.or_eq_true _ _ ▸ h3 with h3 | h3
        · exact ht.1 (of_decide_eq_true h3)
        · cases p with
          | int n => exact absurd ht.2 (by simp [ValIs])
          | reg r =>
            have := setsReg_defined hf ht.2
            simp [this] at h3
          | _ => cases h3
      | bin r op a b =>
        obtain ⟨τ, k1, k2, k3⟩ := ht
        cases op <;> first | (cases h3; done) | skip
        cases b <;> first | (cases h3; done) | skip
        have := k3.2
        subst this
        cases k1
      | br t =>
        cases t with
        | none => obtain ⟨_, k1, _⟩ := ht; cases k1
        | some => cases h3
      | _ => cases h3
    · obtain ⟨i, h2, h3⟩ := List.any_eq_true.1 h
      obtain ⟨is, t, rfl, k1, _⟩ := hv.ends f b code hc
      rw [List.dropLast_concat] at h2
      rw [k1 i h2] at h3
      cases h3

/-- The program is accepted, LLVM refuses its module, and of the conditions of `C82_partial` these hold: about functions in functions,
namespaces, jumps, and the rest. -/
def LLVMRefuses (src : String) (flat stays jumps sound : Bool) : Prop :=
  Parsed (parsed src) ∧ ∃ a ss s, semantic sampleCfg (parsed src) = .ok a ss ∧ codegenL ⟨ss.syms, fun _ _ _ => none, false⟩ ['m'] a = some s ∧
    ¬ Verified s.funcs s.globals ∧ (flat = true → Flat false (parsed src)) ∧ (stays = true → NamespacesStay (parsed src)) ∧
    (jumps = true → JumpsOk false a) ∧ (sound = true → soundT ss.syms {} a = true)

theorem refused_src {src : String} {flat stays jumps sound : Bool} (hacc : acceptsSrc src = true)
    (key : (match checked sampleCfg src with
      | .ok a ss => (match codegenL ⟨ss.syms, fun _ _ _ => none, false⟩ ['m'] a with | some s => badModule s.funcs | none => false) &&
        (!flat || flatTest false (parsed src)) && (!stays || namespacesTest (parsed src)) && (!jumps || jumpsTest false a) &&
        (!sound || soundT ss.syms {} a)
      | _ => false) = true) : LLVMRefuses src flat stays jumps sound := by
  refine ⟨parsed_src hacc, ?_⟩
  split at key
  · rename_i a ss hs
    simp only [Bool.and_eq_true] at key
    obtain ⟨⟨⟨⟨h1, h2⟩, h3⟩, h4⟩, h5⟩ := key
    split at h1
    · rename_i s hg
      exact ⟨a, ss, s, hs, hg, bad_refused h1, fun e => flatTest_ok (by simpa [e] using h2), fun e => namespacesTest_ok (by simpa [e] using h3),
        fun e => jumpsTest_ok (by simpa [e] using h4), fun e => by simpa [e] using h5⟩
    · cases h1
  · cases key

/-- A value is returned, but not at the end of the function. -/
theorem C82_needs_returns : LLVMRefuses "f() {\nif true {\nreturn 1\n}\n}\n" true true true false :=
  refused_src (by decide +kernel) (by decide +kernel)

/-- A parameter of type Void. -/
theorem C82_needs_parameters : LLVMRefuses "f(x: Void) {\nnoop\n}\n" true true true false := refused_src (by decide +kernel) (by decide +kernel)

/-- A variable of type Void. -/
theorem C82_needs_values : LLVMRefuses "f(x: &Void) {\ny := *x\n}\n" true true true false := refused_src (by decide +kernel) (by decide +kernel)

/-- The address of a constant of a function: its value is taken for one. -/
theorem C82_needs_places : LLVMRefuses "f() {\nx := 1\ny := &x\nz := *y\n}\n" true true true false := refused_src (by decide +kernel) (by decide +kernel)

/-- Comparing with the address of a reference to a Float: the comparison of Floats is used for two pointers. -/
theorem C82_needs_comparisons : LLVMRefuses "mut x := 5.0\nmut y := &x\nmut z := &y\nb := z is &y\n" true true true false :=
  refused_src (by decide +kernel) (by decide +kernel)

/-- A function in a function that uses a variable of the function around. -/
theorem C82_needs_flat : LLVMRefuses "f() {\nmut x := 1\ng() {\ny := x + 1\n}\n}\n" false true true false :=
  refused_src (by decide +kernel) (by decide +kernel)

/-- `break` after another loop. -/
theorem C82_needs_jumps : LLVMRefuses breakAfterLoop true true false true := refused_src (by decide +kernel) (by decide +kernel)

/-- A return in a namespace. -/
theorem C82_needs_stays : LLVMRefuses returnInNamespace true false true true := refused_src (by decide +kernel) (by decide +kernel)

theorem C82_false : ¬ C82_full := by
  intro hf
  obtain ⟨hp, a, ss, s, hs, hg, hn, _⟩ := C82_needs_returns
  exact hn (hf sampleCfg _ a ss _ false _ s hp hs (by intro op a b v h; cases h) hg)

end Skull
