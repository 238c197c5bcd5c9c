import Verif.Proofs.CDebugRun
import Verif.Props.CFile
/-
C72: debug information in C files.
-/
namespace Skull
open Spec Spec.C CDebug

/- ### C72 -/

/-- Nothing is told. -/
def Untold (ms : List (Option Place)) : Prop := ∀ m ∈ ms, m = none

/-- The first file is the second one with directives.  Without them the files are the same, line for line; and they tell the place of every
statement about the line that the statement begins with, and nothing about other lines, but for the first ones of functions and of
`init` and `main`, which begin at their functions and at the first line. -/
def TellsPlaces (file : List Char) (a : ATree) (text text' : List Char) : Prop :=
  (placed none (linesOf text)).map (·.2) = linesOf text' ∧
    ∃ before between behind, Untold before ∧ Untold between ∧ Untold behind ∧
      (placed none (linesOf text)).map (·.1) =
        before ++ placesOutside file 1 a ++ between ++ [some (1, some file), none] ++ places file 1 a ++ behind ++ [some (1, some file), none]

/-- The property as stated. -/
def C72_full : Prop :=
  ∀ (cfg : Cfg) (t : Tree) (a : ATree) (s : SS), Parsed t → semantic cfg t = .ok a s → ∀ (fmtA : Nat → List Char) (main file : List Char)
    (r : Option (List Char) × CState), genModuleC ⟨s.syms, some file, fmtA⟩ a = some r → ∃ r', genModuleC ⟨s.syms, none, fmtA⟩ a = some r' ∧
      TellsPlaces file a (fileC ⟨s.syms, some file, fmtA⟩ main r.1 r.2) (fileC ⟨s.syms, none, fmtA⟩ main r'.1 r'.2)

theorem untold_nil : Untold [] := fun _ h => by cases h

theorem untold_app {a b} (ha : Untold a) (hb : Untold b) : Untold (a ++ b) := fun m hm => (List.mem_append.1 hm).elim (ha m) (hb m)

theorem untold_one : Untold [none] := fun m hm => by simpa using hm

theorem untold_cons {a} (ha : Untold a) : Untold (none :: a) := untold_app untold_one ha

/-- Texts that end with a newline, and what comes next. -/
def Part (t t' : List Char) (ms : List (Option Place)) : Prop := ∀ u u' ns, T u u' ns → T (t ++ u) (t' ++ u') (ms ++ ns)

theorem Part.nil : Part [] [] [] := fun _ _ _ h => h

theorem Part.app {a a' b b' m n} (ha : Part a a' m) (hb : Part b b' n) : Part (a ++ b) (a' ++ b') (m ++ n) := by
  intro u u' ns h
  have := ha _ _ _ (hb u u' ns h)
  simpa only [List.append_assoc] using this

theorem Part.text {t t' ms} (h : T t t' ms) : Part (t ++ ['\n']) (t' ++ ['\n']) ms := by
  intro u u' ns hu
  have := h.join hu
  simpa only [List.append_assoc, List.singleton_append] using this

/-- The same text in both, none of its lines a directive. -/
def quietLines (ls : List (List Char)) : Bool := ls.all fun l => (l.dropWhile isBlank).head? ≠ some '#' || (directive l).isNone

theorem quiet_deb : ∀ {ls : List (List Char)}, quietLines ls = true → Deb ls (ls.map fun l => (none, l))
  | [], _ => .nil
  | l :: ls, h => by
    simp only [quietLines, List.all_cons, Bool.and_eq_true, Bool.or_eq_true, decide_eq_true_eq, Option.isNone_iff_eq_none] at h
    refine .plain ?_ (quiet_deb (by simpa [quietLines] using h.2))
    rcases h.1 with h | h
    · exact calm_directive h
    · exact h

theorem quiet_T {t : List Char} (h : quietLines (linesOf t) = true) : ∃ ms, Untold ms ∧ T t t ms :=
  ⟨(linesOf t).map fun _ => none, fun m hm => by obtain ⟨_, _, h⟩ := List.mem_map.1 hm; exact h.symm,
    _, quiet_deb h, by rw [List.map_map]; exact (List.map_id _).symm, by rw [List.map_map]; rfl⟩

theorem quiet_part {t : List Char} (h : quietLines (linesOf t) = true) : ∃ ms, Untold ms ∧ Part (t ++ ['\n']) (t ++ ['\n']) ms := by
  obtain ⟨ms, h1, h2⟩ := quiet_T h
  exact ⟨ms, h1, .text h2⟩

/-- A text of the run time, which is written in both files or in none. -/
theorem optional_part {b : Bool} {t : List Char} (h : quietLines (linesOf t) = true) :
    ∃ ms, Untold ms ∧ Part (if b then t ++ ['\n'] else []) (if b then t ++ ['\n'] else []) ms := by
  cases b with
  | false => exact ⟨[], untold_nil, .nil⟩
  | true => exact quiet_part h

/-- Debug information in the file of an accepted program, if there are no newlines in strings, names, and the text of floats.  Missing from
the full statement: the other programs. -/
theorem C72_partial {cfg : Cfg} {t : Tree} {a : ATree} {s : SS} (hp : Parsed t) (h : semantic cfg t = .ok a s) {fmtA : Nat → List Char}
    {main file : List Char} {r : Option (List Char) × CState} (hr : genModuleC ⟨s.syms, some file, fmtA⟩ a = some r) (hn : OneLineNames s.syms)
    (ho : oneLineT a = true) (hf : ∀ b, OneLine (fmtA b)) (hfile : PlainText file) (hm : OneLine main) :
    ∃ r', genModuleC ⟨s.syms, none, fmtA⟩ a = some r' ∧
      TellsPlaces file a (fileC ⟨s.syms, some file, fmtA⟩ main r.1 r.2) (fileC ⟨s.syms, none, fmtA⟩ main r'.1 r'.2) := by
  obtain ⟨r', h1, h2, h3⟩ := twin_module hn hfile hf (semantic_wt hp h).2 ho hr
  refine ⟨r', h1, ?_⟩
  have main_T : ∃ before between behind, Untold before ∧ Untold between ∧ Untold behind ∧
      T (fileC ⟨s.syms, some file, fmtA⟩ main r.1 r.2) (fileC ⟨s.syms, none, fmtA⟩ main r'.1 r'.2)
        (before ++ placesOutside file 1 a ++ between ++ [some (1, some file), none] ++ places file 1 a ++ behind ++ [some (1, some file), none]) := by
    -- the parts of the file, from the start
    obtain ⟨b1, u1, p1⟩ := quiet_part (t := headersC) (by decide +kernel)
    obtain ⟨b2, u2, p2⟩ := optional_part (b := r'.2.calledStrcmp) (t := strcmpC) (by decide +kernel)
    obtain ⟨b3, u3, p3⟩ := optional_part (b := r'.2.calledIntPow) (t := intPowC) (by decide +kernel)
    obtain ⟨b4, u4, p4⟩ := optional_part (b := r'.2.calledFloatPow) (t := floatPowC) (by decide +kernel)
    have pg : ∃ c1 c2, Untold c1 ∧ Untold c2 ∧ Part (match r.2.globals with | some g => g ++ "\n\n".toList | none => [])
        (match r'.2.globals with | some g => g ++ "\n\n".toList | none => []) (c1 ++ placesOutside file 1 a ++ c2) := by
      rcases h2.globals with ⟨g1, g2, g3⟩ | ⟨g, g', ms, g1, g2, g3, g4⟩
      · rw [g1, g2, g3]
        exact ⟨[], [], untold_nil, untold_nil, .nil⟩
      · rw [g1, g2]
        have e : ∀ x : List Char, x ++ "\n\n".toList = (x ++ ['\n']) ++ ([] ++ ['\n']) := by
          intro x
          have : "\n\n".toList = ['\n', '\n'] := by decide
          rw [this]
          simp
        have hp := (Part.text g3).app (Part.text (T.line one_nil calm_nil))
        rcases g4 with rfl | rfl
        · exact ⟨[], [none], untold_nil, untold_one, by show Part (g ++ _) (g' ++ _) _; rw [e, e]; exact hp⟩
        · exact ⟨[none], [none], untold_one, untold_one, by show Part (g ++ _) (g' ++ _) _; rw [e, e]; exact hp⟩
    obtain ⟨c1, c2, v1, v2, p5⟩ := pg
    -- the head of `init`
    have one : ∀ {l : List Char}, OneLine l → Calm l → Part (lineOne (some file) ++ l ++ ['\n']) (lineOne none ++ l ++ ['\n']) [some (1, some file)] := by
      intro l o c
      have e : lineOne (some file) ++ l = dirText 1 file ++ '\n' :: l := by
        have e1 : decText 1 = ['1'] := by decide
        have e2 : "\"\n".toList = ['"', '\n'] := by decide
        have e3 : "#line 1 \"".toList = "#line ".toList ++ ['1'] ++ " \"".toList := by decide
        unfold lineOne dirText
        rw [e1, e2, e3]
        simp
      rw [e]
      exact Part.text ((F.line o c).told 1 hfile)
    have p6 := one (l := "static int init(void) __asm__(\"".toList ++ main ++ "\");".toList)
      (.app (.app (by unfold OneLine; decide) hm) (by unfold OneLine; decide)) (by rw [List.append_assoc]; exact calm_word (by decide))
    have p7 : Part ("static int init(void) {".toList ++ ['\n']) ("static int init(void) {".toList ++ ['\n']) [none] :=
      .text (.line (by unfold OneLine; decide) (by unfold Calm; decide))
    have p8 : ∃ c3, Untold c3 ∧ Part (r.1.getD [] ++ ['\n']) (r'.1.getD [] ++ ['\n']) (places file 1 a ++ c3) := by
      rcases h3 with ⟨g1, g2, g3⟩ | ⟨x, x', g1, g2, g3⟩
      · rw [g1, g2, g3]
        exact ⟨[none], untold_one, Part.text (T.line one_nil calm_nil)⟩
      · rw [g1, g2]
        exact ⟨[], untold_nil, by simpa using Part.text g3⟩
    obtain ⟨c3, v3, p8⟩ := p8
    have p9 : Part ("\treturn 0;".toList ++ ['\n']) ("\treturn 0;".toList ++ ['\n']) [none] :=
      .text (.line (by unfold OneLine; decide) (by unfold Calm; decide))
    have p10 : Part ("}".toList ++ ['\n']) ("}".toList ++ ['\n']) [none] :=
      .text (.line (by unfold OneLine; decide) (by unfold Calm; decide))
    have p11 := one (l := "int main(void) { return init(); }".toList) (by unfold OneLine; decide) (by unfold Calm; decide)
    have hall := ((p1.app (p2.app (p3.app p4))).app (p5.app (p6.app p7))).app ((p8.app (p9.app p10)).app p11) [] [] [none] (T.line one_nil calm_nil)
    refine ⟨b1 ++ (b2 ++ (b3 ++ b4)) ++ c1, c2, c3 ++ [none, none], untold_app (untold_app u1 (untold_app u2 (untold_app u3 u4))) v1, v2,
      untold_app v3 (untold_cons untold_one), ?_⟩
    have e1 : "\");\nstatic int init(void) {\n".toList = "\");".toList ++ (['\n'] ++ ("static int init(void) {".toList ++ ['\n'])) := by decide
    have e2 : "\n\treturn 0;\n}\n".toList = ['\n'] ++ ("\treturn 0;".toList ++ (['\n'] ++ ("}".toList ++ ['\n']))) := by decide
    have e3 : "int main(void) { return init(); }\n".toList = "int main(void) { return init(); }".toList ++ ['\n'] := by decide
    unfold fileC
    rw [h2.str, h2.int, h2.float, e1, e2, e3]
    simp only [List.append_assoc, List.append_nil, List.cons_append, List.nil_append] at hall ⊢
    exact hall
  obtain ⟨before, between, behind, u1, u2, u3, out, d1, d2, d3⟩ := main_T
  have hp := d1.placed
  exact ⟨by rw [hp, d2], before, between, behind, u1, u2, u3, by rw [hp, ← d3]⟩

/-- With the lines of directives left out, the file is the C program that says what the source says. -/
theorem C72_reads {cfg : Cfg} {t : Tree} {a : ATree} {s : SS} (hp : Parsed t) (h : semantic cfg t = .ok a s) {fmtA : Nat → List Char}
    {main file : List Char} {r : Option (List Char) × CState} (hr : genModuleC ⟨s.syms, some file, fmtA⟩ a = some r) (hn : OneLineNames s.syms)
    (ho : oneLineT a = true) (hf : ∀ b, OneLine (fmtA b)) (hfile : PlainText file) (hm : PlainText main) (hfine : FineTree s.syms fmtA a) :
    ∃ text, linesOf text = (placed none (linesOf (fileC ⟨s.syms, some file, fmtA⟩ main r.1 r.2))).map (·.2) ∧ IsFileOf s.syms fmtA main a text := by
  obtain ⟨r', h1, h2, _⟩ := C72_partial (main := main) hp h hr hn ho hf hfile (fun hc => (hm _ hc).2.2 rfl)
  exact ⟨_, h2.symm, C69_partial hp h h1 hfine hm⟩

/-- The files of a source, with debug information and without. -/
def debugFiles (src : String) : Option (ATree × List Symbol × List Char × List Char) :=
  match checked sampleCfg src with
  | .ok a s =>
    match genModuleC ⟨s.syms, some "a.sk".toList, fun _ => ['0']⟩ a, genModuleC ⟨s.syms, none, fun _ => ['0']⟩ a with
    | some r, some r' =>
      some (a, s.syms, fileC ⟨s.syms, some "a.sk".toList, fun _ => ['0']⟩ "m".toList r.1 r.2, fileC ⟨s.syms, none, fun _ => ['0']⟩ "m".toList r'.1 r'.2)
    | _, _ => none
  | _ => none

/-- A string that has a directive in it. -/
def directiveSrc : String := "x := \"\\n#line 7\"\n"

theorem C72_false : ¬ C72_full := by
  intro hf
  have hacc : acceptsSrc directiveSrc = true := by decide +kernel
  have key : (match checked sampleCfg directiveSrc with
      | .ok a s =>
        match genModuleC ⟨s.syms, some "a.sk".toList, fun _ => ['0']⟩ a, genModuleC ⟨s.syms, none, fun _ => ['0']⟩ a with
        | some r, some r' => decide ((placed none (linesOf (fileC ⟨s.syms, some "a.sk".toList, fun _ => ['0']⟩ "m".toList r.1 r.2))).map (·.2) ≠
            linesOf (fileC ⟨s.syms, none, fun _ => ['0']⟩ "m".toList r'.1 r'.2))
        | _, _ => false
      | _ => false) = true := by decide +kernel
  split at key
  · rename_i a s hs
    split at key
    · rename_i r r' hr hr'
      obtain ⟨r'', h1, h2, _⟩ := hf sampleCfg _ a s (parsed_src hacc) hs (fun _ => ['0']) "m".toList "a.sk".toList r hr
      rw [hr'] at h1
      cases h1
      exact of_decide_eq_true key h2
    · cases key
  · cases key

/- A test for the hypotheses, for the examples. -/

def oneLineNamesB (syms : List Symbol) : Bool :=
  syms.all fun sym => sym.name.all (fun c => c ≠ '\n' && c ≠ '#') && sym.linkageName.all (· ≠ '\n') &&
    (match sym.kind with | .var v => v.name.all (fun c => c ≠ '\n' && c ≠ '#') && v.linkageName.all (· ≠ '\n') | _ => true)

theorem oneLineNamesB_ok {syms : List Symbol} (h : oneLineNamesB syms = true) : OneLineNames syms := by
  intro sym hs
  have h := List.all_eq_true.1 h sym hs
  simp only [Bool.and_eq_true, List.all_eq_true, decide_eq_true_eq] at h
  refine ⟨fun hm => (h.1.1 _ hm).1 rfl, fun _ _ => ⟨fun hm => (h.1.1 _ hm).2 rfl, fun hm => (h.1.2 _ hm) rfl⟩, fun v hv => ?_⟩
  have h2 := h.2
  rw [hv] at h2
  simp only [Bool.and_eq_true, List.all_eq_true, decide_eq_true_eq] at h2
  exact ⟨fun hm => (h2.1 _ hm).1 rfl, fun hm => (h2.1 _ hm).2 rfl, fun hm => (h2.2 _ hm) rfl⟩

/-- A program with functions, blocks, and variables outside. -/
def debugSrc : String :=
  "x := 1\nexport f(n: Int) Int {\nif n > 0 {\nreturn n\n}\nreturn x\n}\ny := f(3)\nmut z := y\nwhile z > 0 {\n\n# z goes down\nz = z - 1\n}\n"

/-- The hypotheses hold for it. -/
example : (match debugFiles debugSrc with
    | some (a, syms, _, _) => oneLineNamesB syms && oneLineT a && plainB "a.sk".toList
    | none => false) = true := by decide +kernel

/-- The directives in its file. -/
example : (match debugFiles debugSrc with
    | some (_, _, text, _) => decide ((placed none (linesOf text)).filterMap (fun p => p.1.map fun q => (q.1, String.ofList (p.2.filter (· ≠ '\t')))) =
        [(2, "int64_t f(int64_t n) __asm__(\"a.f\");"), (3, "if ((n > 0)) {"), (4, "return n;"), (6, "return x;"),
         (1, "static int init(void) __asm__(\"m\");"), (8, "y = f(3);"), (9, "z = y;"), (10, "while ((z > 0)) {"), (13, "z = (z - 1);"),
         (1, "int main(void) { return init(); }")])
    | none => false) = true := by decide +kernel

end Skull
