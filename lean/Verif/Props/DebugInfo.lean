import Verif.Proofs.DebugTree
import Verif.Proofs.Described
import Verif.Props.Verified
/-
C84: debug information is never the reason that LLVM refuses a module. C85: with `-g`, the locations of instructions are in the statements
that they were generated for.
-/
namespace Skull
open Spec

/- ### C84 -/

/-- Debug information does not change the instructions, and the generator does not fail because of it. -/
theorem C84_same {scfg : Cfg} {t : Tree} {a : ATree} {ss : SS} {fold} {name : List Char} (hp : Parsed t) (hs : semantic scfg t = .ok a ss)
    (hfold : FoldTyped fold) : (codegenD ⟨ss.syms, fold, true⟩ name a).map (·.l) = codegenL ⟨ss.syms, fold, true⟩ name a :=
  DInfo.codegenD_eq rfl (fun op x y v h => (hfold op x y v h).2.2.1) (semantic_defs hp hs).2 (semantic_defs hp hs).1 (semantic_tokened hp hs)
    (DInfo.semantic_ne hp hs)

/-- If the module is what LLVM asks, then its debug information is, too. -/
theorem C84 {scfg : Cfg} {t : Tree} {a : ATree} {ss : SS} {fold} {name : List Char} {s : DState} (hp : Parsed t)
    (hs : semantic scfg t = .ok a ss) (hfold : FoldTyped fold) (h : codegenD ⟨ss.syms, fold, true⟩ name a = some s)
    (hv : Verified s.l.funcs s.l.globals) : DebugVerified s.l.funcs s :=
  (DInfo.codegenD_ready (N := False) (cfg := ⟨ss.syms, fold, true⟩) rfl (fun op x y v h => (hfold op x y v h).2.2.1) (semantic_defs hp hs).2
    (semantic_defs hp hs).1 (semantic_tokened hp hs) (DInfo.semantic_ne hp hs) (fun h => h.elim) h).verified hv

/-- With C82: for which programs LLVM accepts both. -/
theorem C84_accepted {scfg : Cfg} {t : Tree} {a : ATree} {ss : SS} {fold} {name : List Char} {s : DState} (hp : Parsed t)
    (hs : semantic scfg t = .ok a ss) (hfold : FoldTyped fold) (h : codegenD ⟨ss.syms, fold, true⟩ name a = some s) (hf : Flat false t)
    (hn : NamespacesStay t) (hj : JumpsOk false a) (hsd : soundT ss.syms {} a = true) :
    Verified s.l.funcs s.l.globals ∧ DebugVerified s.l.funcs s := by
  have h' := C84_same (name := name) hp hs hfold
  rw [h] at h'
  have hv := C82_partial hp hs hfold h'.symm hf hn hj hsd
  exact ⟨hv, C84 hp hs hfold h hv⟩

/-- Every variable and parameter that code is generated for is described once, in order: variables at the line where they are defined,
parameters at the line of their function. -/
theorem C84_described {scfg : Cfg} {t : Tree} {a : ATree} {ss : SS} {fold} {name : List Char} {s : DState} (hp : Parsed t)
    (hs : semantic scfg t = .ok a ss) (h : codegenD ⟨ss.syms, fold, true⟩ name a = some s) : Described ss.syms a s :=
  DInfo.described (cfg := ⟨ss.syms, fold, true⟩) rfl (semantic_defs hp hs).2 h

/- ### C85 -/

/-- The property as stated: every location is in the statement that it was set for, and no instruction gets the locations of two. -/
def C85_full : Prop :=
  ∀ (scfg : Cfg) (t : Tree) (a : ATree) (ss : SS) (fold) (name : List Char) (s : DState), Parsed t → semantic scfg t = .ok a ss →
    FoldTyped fold → codegenD ⟨ss.syms, fold, true⟩ name a = some s → (∀ d ∈ s.locs, FromStatement d) ∧ OneStatement s.locs

/-- It holds but for the stores of definitions and assignments, which get the place where the variable was defined, and for programs in which
no condition is just the name of a variable. -/
theorem C85_partial {scfg : Cfg} {t : Tree} {a : ATree} {ss : SS} {fold} {name : List Char} {s : DState} (hp : Parsed t)
    (hs : semantic scfg t = .ok a ss) (hfold : FoldTyped fold) (h : codegenD ⟨ss.syms, fold, true⟩ name a = some s) :
    (∀ d ∈ s.locs, FromStatement d ∨ (FromVariable ss.syms d ∧ AtStore s.l.funcs d)) ∧ (NoNameConds a → OneStatement s.locs) := by
  have hr := DInfo.codegenD_ready (N := NoNameConds a) (cfg := ⟨ss.syms, fold, true⟩) rfl (fun op x y v h => (hfold op x y v h).2.2.1)
    (semantic_defs hp hs).2 (semantic_defs hp hs).1 (semantic_tokened hp hs) (DInfo.semantic_ne hp hs) id h
  exact ⟨hr.locs.src, hr.locs.once⟩

/- ### Examples -/

/-- What is tested of the debug information of a program. -/
def debugOf (src : String) (test : ATree → DState → Bool) : Bool :=
  match checked sampleCfg src with
  | .ok a ss => (match codegenD ⟨ss.syms, fun _ _ _ => none, true⟩ ['m'] a with | some s => test a s | none => false)
  | _ => false

theorem debugOf_ok {src : String} {test : ATree → DState → Bool} (h : debugOf src test = true) :
    ∃ a ss s, semantic sampleCfg (parsed src) = .ok a ss ∧ codegenD ⟨ss.syms, fun _ _ _ => none, true⟩ ['m'] a = some s ∧ test a s = true := by
  unfold debugOf at h
  split at h
  · rename_i a ss hs
    split at h
    · rename_i s hg
      exact ⟨a, ss, s, hs, hg, h⟩
    · cases h
  · cases h

def locatedSrc : String := "f(n: Int) Int {\nmut x := n\nx = x + 1\nreturn x\n}\nmut y := f(1)\nif y is 2 {\ny = f(y)\n}\n"

/-- Functions, a parameter, a global, a local variable, and a block: they have locations and descriptions. -/
example : acceptsSrc locatedSrc = true := by decide +kernel

example : debugOf locatedSrc (fun _ s =>
    s.locs.any (fun d => d.pos == ⟨6, 10⟩ && d.scope == .func 0) && s.locs.any (fun d => d.pos == ⟨8, 5⟩) &&
    s.locs.any (fun d => d.scope.fn == 1) && s.vars.length == 2 && s.globals.length == 1) = true := by decide +kernel

/-- The parameter is described at line 1, where its function is, the local variable at line 2, and the global at line 6. -/
example : debugOf locatedSrc (fun _ s => s.vars.map (·.line) == [1, 2] && s.globals.map (·.2) == [6]) = true := by decide +kernel

/-- The hypotheses of `C84_accepted` hold for it. -/
example : Parsed (parsed locatedSrc) ∧ Flat false (parsed locatedSrc) ∧ NamespacesStay (parsed locatedSrc) ∧
    (match checked sampleCfg locatedSrc with | .ok a ss => jumpsTest false a && soundT ss.syms {} a | _ => false) = true :=
  ⟨parsed_src (by decide +kernel), flatTest_ok (by decide +kernel), namespacesTest_ok (by decide +kernel), by decide +kernel⟩

/-- The location is not in the statement that it was set for. -/
def strayTest (d : DLoc) : Bool := (statementToks d.ann d.tok).all fun t => !(d.pos == t.pos)

theorem stray {d : DLoc} (h : strayTest d = true) : ¬ FromStatement d := by
  rintro ⟨t, ht, e⟩
  have := List.all_eq_true.1 h t ht
  simp [e] at this

/-- An assignment is at the place where the variable was defined. -/
theorem C85_assignment : ∃ a ss s, Parsed (parsed "mut x := 1\nx = 2\n") ∧ semantic sampleCfg (parsed "mut x := 1\nx = 2\n") = .ok a ss ∧
    codegenD ⟨ss.syms, fun _ _ _ => none, true⟩ ['m'] a = some s ∧ ∃ d ∈ s.locs, ¬ FromStatement d := by
  obtain ⟨a, ss, s, hs, hg, h⟩ := debugOf_ok (src := "mut x := 1\nx = 2\n") (test := fun _ s => s.locs.any strayTest) (by decide +kernel)
  obtain ⟨d, hd, h⟩ := List.any_eq_true.1 h
  exact ⟨a, ss, s, parsed_src (by decide +kernel), hs, hg, d, hd, stray h⟩

def movedSrc : String := "f() Bool {\nreturn true\n}\ng() {\nx := f()\nif x {\nnoop\n}\n}\n"

/-- The call in line 5 is at line 6: a condition that is the name of a constant gives the call that computed it its own location. -/
theorem C85_condition : ∃ a ss s, Parsed (parsed movedSrc) ∧ semantic sampleCfg (parsed movedSrc) = .ok a ss ∧
    codegenD ⟨ss.syms, fun _ _ _ => none, true⟩ ['m'] a = some s ∧ (∃ d ∈ s.locs, ∃ d' ∈ s.locs, d.instr = d'.instr ∧ d.pos.line = 5 ∧ d'.pos.line = 6) ∧
    ¬ OneStatement s.locs := by
  obtain ⟨a, ss, s, hs, hg, h⟩ := debugOf_ok (src := movedSrc)
    (test := fun _ s => s.locs.any fun d => s.locs.any fun d' =>
      d.instr == d'.instr && d.pos.line == 5 && d'.pos.line == 6 && !(d.tok == d'.tok)) (by decide +kernel)
  obtain ⟨d, hd, h⟩ := List.any_eq_true.1 h
  obtain ⟨d', hd', h⟩ := List.any_eq_true.1 h
  simp only [Bool.and_eq_true, beq_iff_eq, Bool.not_eq_true', beq_eq_false_iff_ne] at h
  obtain ⟨⟨⟨h1, h2⟩, h3⟩, h4⟩ := h
  exact ⟨a, ss, s, parsed_src (by decide +kernel), hs, hg, ⟨d, hd, d', hd', h1, h2, h3⟩, fun h => h4 (h d hd d' hd' h1).2⟩

theorem C85_false : ¬ C85_full := by
  intro hf
  obtain ⟨a, ss, s, hp, hs, hg, d, hd, h⟩ := C85_assignment
  exact h ((hf sampleCfg _ a ss _ _ s hp hs (by intro op a b v h; cases h) hg).1 d hd)

end Skull
