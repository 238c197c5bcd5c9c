import Verif.Proofs.CFlags
import Verif.Props.CProgram
/-
C69: what the C back end writes.
-/
namespace Skull
open Spec Spec.C

/- ### C69 -/

/-- What stands before the program: the headers, and the functions of the run time that some expression of the program needs. -/
def runTimeText (a : ATree) : List Char :=
  headersC ++ ['\n'] ++ (if a.someBin comparesStr then strcmpC ++ ['\n'] else []) ++ (if a.someBin powsInt then intPowC ++ ['\n'] else []) ++
    (if a.someBin powsFloat then floatPowC ++ ['\n'] else [])

/-- The file is what stands before the program, and a C program: C's grammar reads the text in exactly one way, and so read it is the
program statement for statement. -/
def IsFileOf (syms : List Symbol) (fmtA : Nat → List Char) (main : List Char) (a : ATree) (file : List Char) : Prop :=
  ∃ text toks items, file = runTimeText a ++ text ∧ lex text = some toks ∧ GUnit toks items ∧ (∀ items', GUnit toks items' → items' = items) ∧
    IsProgram syms fmtA main a items

/-- The property as stated: what is written for an accepted program is a C program, the one that says the same. -/
def C69_full : Prop :=
  ∀ (cfg : Cfg) (t : Tree) (a : ATree) (s : SS), Parsed t → semantic cfg t = .ok a s → ∀ (fmtA : Nat → List Char) (main : List Char) (r : Option (List Char) × CState),
    genModuleC ⟨s.syms, none, fmtA⟩ a = some r → IsFileOf s.syms fmtA main a (fileC ⟨s.syms, none, fmtA⟩ main r.1 r.2)

theorem file_text (H A B C G S m Q t R M : List Char) :
    H ++ A ++ B ++ C ++ G ++ [] ++ S ++ m ++ Q ++ t ++ R ++ [] ++ M = (H ++ A ++ B ++ C) ++ (G ++ (S ++ m ++ Q ++ t ++ R ++ M)) := by
  simp only [List.append_assoc, List.nil_append]

/-- What is written for an accepted program, if names are C identifiers and no keywords or types, constants have the text of C constants, and
the names for the linker stand for themselves in strings.  Missing from the full statement: the other programs, and debug information. -/
theorem C69_partial {cfg : Cfg} {t : Tree} {a : ATree} {s : SS} (hp : Parsed t) (h : semantic cfg t = .ok a s) {fmtA : Nat → List Char}
    {main : List Char} {r : Option (List Char) × CState} (hr : genModuleC ⟨s.syms, none, fmtA⟩ a = some r) (hf : FineTree s.syms fmtA a)
    (hm : PlainText main) : IsFileOf s.syms fmtA main a (fileC ⟨s.syms, none, fmtA⟩ main r.1 r.2) := by
  have hw := (semantic_wt hp h).2
  obtain ⟨toks, items, h1, h2, h3⟩ := file_reading hw hf hm hr
  refine ⟨_, toks, items, ?_, h1.lex, h2, fun _ h => h.uniq h2, h3⟩
  have e1 := marks_module note_str hw hr rfl
  have e2 := marks_module note_int hw hr rfl
  have e3 := marks_module note_float hw hr rfl
  unfold fileC runTimeText lineOne
  rw [e1, e2, e3]
  exact file_text _ _ _ _ _ _ _ _ _ _ _

/-- The file that a source gives. -/
def fileOf (src : String) : Option (List Char) :=
  match checked sampleCfg src with
  | .ok a s => (genModuleC ⟨s.syms, none, fun _ => ['0']⟩ a).map fun r => fileC ⟨s.syms, none, fun _ => ['0']⟩ "m".toList r.1 r.2
  | _ => none

/-- A string with a newline in it. -/
def newlineSrc : String := "x := \"\\n\"\n"

/-- The newline stands in the string as it is, and C has no such strings. -/
theorem C69_false : ¬ C69_full := by
  intro hf
  have hacc : acceptsSrc newlineSrc = true := by decide +kernel
  have key : (match checked sampleCfg newlineSrc with
      | .ok a s => match genModuleC ⟨s.syms, none, fun _ => ['0']⟩ a with
        | some r => (lex ((fileC ⟨s.syms, none, fun _ => ['0']⟩ "m".toList r.1 r.2).drop (runTimeText a).length)).isNone
        | none => false
      | _ => false) = true := by decide +kernel
  split at key
  · rename_i a s hs
    split at key
    · rename_i r hr
      obtain ⟨text, toks, items, h1, h2, _⟩ := hf sampleCfg _ a s (parsed_src hacc) hs (fun _ => ['0']) "m".toList r hr
      rw [h1, List.drop_left, h2] at key
      cases key
    · cases key
  · cases key

/- A test for the hypotheses, for the examples. -/

def nameB (s : List Char) : Bool :=
  match s with
  | c :: t => isIdStart c && t.all isIdChar && decide (s ∉ keywords)
  | [] => false

theorem nameB_ok {s : List Char} (h : nameB s = true) : IsName s := by
  unfold nameB at h
  split at h
  · rename_i c t
    simp only [Bool.and_eq_true, List.all_eq_true, decide_eq_true_eq] at h
    exact ⟨c, t, rfl, h.1.1, h.1.2, h.2⟩
  · cases h

def plainB (s : List Char) : Bool := s.all fun c => c != '"' && c != '\\' && c != '\n'

theorem plainB_ok {s : List Char} (h : plainB s = true) : PlainText s := by
  unfold plainB at h
  intro c hc
  have := List.all_eq_true.1 h c hc
  simp only [Bool.and_eq_true, bne_iff_ne, ne_eq] at this
  exact ⟨this.1.1, this.1.2, this.2⟩

def symB (sym : Symbol) : Bool :=
  nameB sym.name && decide (sym.name ∉ C.typeNames) && plainB sym.linkageName &&
    (match sym.kind with | .var v => plainB v.linkageName | _ => true)

def fineNameB (syms : List Symbol) (id : Nat) : Bool :=
  match syms[id]? with
  | some sym => symB sym
  | none => true

theorem fineNameB_ok {syms : List Symbol} {id : Nat} (h : fineNameB syms id = true) : FineName syms id := by
  unfold fineNameB at h
  intro sym hs
  rw [hs] at h
  simp only [symB, Bool.and_eq_true, decide_eq_true_eq] at h
  refine ⟨nameB_ok h.1.1.1, h.1.1.2, plainB_ok h.1.2, fun v hv => ?_⟩
  have := h.2
  rw [hv] at this
  exact plainB_ok this

def constB : Value → Bool
  | .int i => decide (- 2 ^ 63 < i ∧ i < 2 ^ 63)
  | .float bits => decide (bits = 0)
  | .str s => s.all fun c => decide (Nat.isValidChar c) && c != 34 && c != 92 && c != 10
  | _ => true

theorem constB_ok {fmtA : Nat → List Char} {v : Value} (h : constB v = true) : FineConst fmtA v := by
  cases v with
  | int i => exact of_decide_eq_true (p := - 2 ^ 63 < i ∧ i < 2 ^ 63) h
  | float b => exact .inl (by simpa [constB] using h)
  | str s =>
    intro c hc
    have := List.all_eq_true.1 h c hc
    simp only [Bool.and_eq_true, decide_eq_true_eq, bne_iff_ne, ne_eq] at this
    exact ⟨this.1.1.1, this.1.1.2, this.1.2, this.2⟩
  | _ => exact trivial

mutual
def exprB (syms : List Symbol) : AExpr → Bool
  | .ident _ id _ _ => fineNameB syms id
  | .const _ v => constB v
  | .call _ args id _ => fineNameB syms id && argsB syms args
  | .un _ r _ _ => exprB syms r
  | .bin _ l r _ _ => exprB syms l && exprB syms r
def argsB (syms : List Symbol) : AArgs → Bool
  | .nil => true
  | .cons _ e next => exprB syms e && argsB syms next
  | .unchecked _ => false
end

mutual
theorem exprB_ok {syms : List Symbol} {fmtA : Nat → List Char} : ∀ {e : AExpr}, exprB syms e = true → Fine syms fmtA e
  | .ident _ id _ _, h => by unfold exprB at h; unfold Fine; exact fun sym hs => (fineNameB_ok h sym hs).1
  | .const _ v, h => by unfold exprB at h; unfold Fine; exact constB_ok h
  | .call _ args id _, h => by
    unfold exprB at h
    simp only [Bool.and_eq_true] at h
    unfold Fine
    exact ⟨fun sym hs => (fineNameB_ok h.1 sym hs).1, argsB_ok h.2⟩
  | .un _ r _ _, h => by unfold exprB at h; unfold Fine; exact exprB_ok h
  | .bin _ l r _ _, h => by
    unfold exprB at h
    simp only [Bool.and_eq_true] at h
    unfold Fine
    exact ⟨exprB_ok h.1, exprB_ok h.2⟩
theorem argsB_ok {syms : List Symbol} {fmtA : Nat → List Char} : ∀ {a : AArgs}, argsB syms a = true → FineArgs syms fmtA a
  | .nil, _ => by unfold FineArgs; trivial
  | .cons _ e next, h => by
    unfold argsB at h
    simp only [Bool.and_eq_true] at h
    unfold FineArgs
    exact ⟨exprB_ok h.1, argsB_ok h.2⟩
  | .unchecked _, h => by cases h
end

def annB (syms : List Symbol) : Ann → Bool
  | .none => true
  | .varDef id e | .varAssign id e => fineNameB syms id && exprB syms e
  | .expr e => exprB syms e && (match e with | .call _ _ id _ => fineNameB syms id | _ => true)
  | .func id params => fineNameB syms id && params.all (fineNameB syms)
  | .ns id => fineNameB syms id

def treeB (syms : List Symbol) : ATree → Bool
  | .nil => true
  | .unchecked _ => true
  | .node ann _ _ child next => annB syms ann && treeB syms child && treeB syms next

theorem annB_ok {syms : List Symbol} {fmtA : Nat → List Char} {ann : Ann} (h : annB syms ann = true) : FineAnn syms fmtA ann := by
  cases ann with
  | none => exact trivial
  | varDef id e =>
    simp only [annB, Bool.and_eq_true] at h
    exact ⟨fineNameB_ok h.1, exprB_ok h.2⟩
  | varAssign id e =>
    simp only [annB, Bool.and_eq_true] at h
    exact ⟨fineNameB_ok h.1, exprB_ok h.2⟩
  | expr e =>
    simp only [annB, Bool.and_eq_true] at h
    refine ⟨exprB_ok h.1, ?_⟩
    rintro tok args id ty rfl
    exact fineNameB_ok h.2
  | func id params =>
    simp only [annB, Bool.and_eq_true, List.all_eq_true] at h
    exact ⟨fineNameB_ok h.1, fun p hp => fineNameB_ok (h.2 p hp)⟩
  | ns id => exact fineNameB_ok h

theorem treeB_ok {syms : List Symbol} {fmtA : Nat → List Char} : ∀ {a : ATree}, treeB syms a = true → FineTree syms fmtA a
  | .nil, _ => trivial
  | .unchecked _, _ => trivial
  | .node ann _ _ child next, h => by
    unfold treeB at h
    simp only [Bool.and_eq_true] at h
    exact ⟨annB_ok h.1.1, treeB_ok h.1.2, treeB_ok h.2⟩

/-- A program with a bit of everything. -/
def fileSrc : String :=
  "export n := 2\nf(x: Int) Int {\nif x < n {\nreturn x + 1\n}\nelse {\nreturn x ^ 2\n}\nreturn 0\n}\nmut y := f(n)\ny = 3\n"

/-- The theorem applies to it. -/
example : (match checked sampleCfg fileSrc with
    | .ok a s => treeB s.syms a && (genModuleC ⟨s.syms, none, fun _ => ['0']⟩ a).isSome
    | _ => false) = true := by decide +kernel

/-- This is its file. -/
example : fileOf fileSrc =
    some ("#include <stdint.h>\n#include <uchar.h>\n\nint64_t _int_pow(int64_t base, int64_t exp) {\n\tint64_t result = base;\n\tfor (int64_t i = 1; i < exp; i++) result *= base;\n\treturn result;\n}\n\n\nconst int64_t n __asm__(\"a.n\") = 2;\nstatic int64_t f(int64_t x) {\n\tif ((x < n)) {\n\t\treturn (x + 1);\n\t}\n\telse {\n\t\treturn _int_pow(x, 2);\n\t}\n\treturn 0;\n}\nstatic int64_t y;\n\nstatic int init(void) __asm__(\"m\");\nstatic int init(void) {\n\ty = f(n);\n\ty = 3;\n\treturn 0;\n}\nint main(void) { return init(); }\n".toList) := by decide +kernel

end Skull
