import Verif.Proofs.SemHeapParam
import Verif.Proofs.SemAccepted
/-
C73, C74: the memory of the semantic check.
-/
namespace Skull

open Skull.Spec Skull.Heap Skull.SemHeap

/-- `t` is the syntax tree of a source text. -/
def OfSource (t : Tree) : Prop :=
  ∃ w src ts toks s, tokenize w src = some (.ok ts) ∧ classifyTokens ts = some toks ∧ parseAstTree toks = .ok (some t) s

/-- C73: whatever the source text is, from the start of the check to the end of the compiler no memory of the check is freed twice, or
looked at after it was freed.  (If the check itself has no undefined behaviour of another kind.) -/
theorem C73_memory_safe (cfg : Cfg) (t : Tree) (h : OfSource t) (hu : semantic cfg t ≠ .ub) :
    ∃ es, memoryLog cfg t = some es ∧ MemSafe es := by
  obtain ⟨w, src, ts, toks, s, h1, h2, h3⟩ := h
  have ho := semantic_heap cfg t (parsed_params h1 h2 h3)
  unfold memoryLog
  have key : ∀ h, Bad 0 h → ∃ es, (cleanUp h).map (h.evs ++ ·) = some es ∧ MemSafe es := by
    intro h hb
    obtain ⟨m, hr, hh⟩ := hb.held
    obtain ⟨es, he, hr'⟩ := cleanUp_ok hb hr hh
    exact ⟨_, by rw [he]; rfl, _, hr'⟩
  cases e1 : semanticH cfg t with
  | ok a h =>
    cases e2 : semantic cfg t with
    | ok b s => rw [e1, e2] at ho; exact key h ho.2.2.bad
    | fail s => rw [e1, e2] at ho; exact ho.elim
    | ub => exact absurd e2 hu
  | fail h =>
    cases e2 : semantic cfg t with
    | ok b s => rw [e1, e2] at ho; exact ho.elim
    | fail s => rw [e1, e2] at ho; exact key h ho
    | ub => exact absurd e2 hu
  | ub =>
    cases e2 : semantic cfg t with
    | ok b s => rw [e1, e2] at ho; exact ho.elim
    | fail s => rw [e1, e2] at ho; exact ho.elim
    | ub => exact absurd e2 hu

/-- The check that keeps the log does what the check does. -/
theorem C73_same_check (cfg : Cfg) (t : Tree) (h : OfSource t) :
    match semanticH cfg t, semantic cfg t with
    | .ok a h, .ok b s => a = b ∧ h.s = s
    | .fail _, .fail _ => True
    | .ub, .ub => True
    | _, _ => False := by
  obtain ⟨w, src, ts, toks, s, h1, h2, h3⟩ := h
  have ho := semantic_heap cfg t (parsed_params h1 h2 h3)
  revert ho
  unfold Outcome
  cases semanticH cfg t <;> cases semantic cfg t <;> simp
  intro h4 h5 _
  exact ⟨h4, h5⟩

/-- C73 for any syntax tree.  It does not hold: a parameter with the name of a type would be freed twice. -/
def C73_any_tree : Prop := ∀ (cfg : Cfg) (t : Tree), semantic cfg t ≠ .ub → ∃ es, memoryLog cfg t = some es ∧ MemSafe es

/-- The tree of `f(Int: Int) { noop }`, which the classifier would not let through. -/
def builtinParam : Tree :=
  let tok (str : String) (ty : TokType) : Token := { begin := some str.toList, len := str.length, ty := ty, line := 1, col := 1 }
  .node (.funcProto { name := tok "f" .identifier, params := [⟨tok "Int" .newIdentifier, [tok "Int" .identifier]⟩],
                      returnType := none, isExternal := false, isExport := false, numParams := 1 })
    [tok "f" .identifier] [] (.node .noop [tok "noop" .kwNoop] [] .nil .nil) .nil

/-- Whether a log is safe, and whether it leaves nothing of the blocks it names. -/
def safeB (es : List Event) : Bool := (memRun (fun _ => .fresh) es).isSome

def leftOver (es : List Event) : List Block :=
  match memRun (fun _ => .fresh) es with
  | some m => (es.filterMap fun | .alloc b => some b | _ => none).filter fun b => m b = .live
  | none => []

theorem safeB_iff (es : List Event) : MemSafe es ↔ safeB es = true := by
  unfold MemSafe safeB
  cases memRun (fun _ => .fresh) es <;> simp

theorem C73_any_tree_false : ¬ C73_any_tree := by
  intro h
  have h1 : (match semantic sampleCfg builtinParam with | .ub => false | _ => true) = true := by decide +kernel
  have h2 : (memoryLog sampleCfg builtinParam).map safeB = some false := by decide +kernel
  obtain ⟨es, h3, h4⟩ := h sampleCfg builtinParam (by intro e; rw [e] at h1; cases h1)
  rw [h3, Option.map_some, (safeB_iff es).1 h4] at h2
  cases h2

/-- C74: when a program is accepted nothing is freed before the clean-up (so the back ends, which run before it, only see memory that
is there), and the clean-up frees all there is. -/
theorem C74_accepted_clean_partial (cfg : Cfg) (t : Tree) (h : OfSource t) (a : ATree) (s : SS) (ha : semantic cfg t = .ok a s) :
    ∃ hs es, semanticH cfg t = .ok a hs ∧ hs.s = s ∧ FreesNothing hs.evs ∧ cleanUp hs = some es ∧
      memoryLog cfg t = some (hs.evs ++ es) ∧ MemClean (hs.evs ++ es) := by
  obtain ⟨w, src, ts, toks, s', h1, h2, h3⟩ := h
  have ho := semantic_heap cfg t (parsed_params h1 h2 h3)
  rw [ha] at ho
  unfold memoryLog
  cases e1 : semanticH cfg t with
  | ok b hs =>
    rw [e1] at ho
    obtain ⟨rfl, h5, ok⟩ := ho
    obtain ⟨es, he, hr⟩ := cleanUp_ok ok.bad ok.run (held_lifeOf _)
    refine ⟨hs, es, rfl, h5, ok_frees_nothing ok, he, by simp only [he]; rfl, _, hr, ?_⟩
    intro b
    show (if _ then _ else _) ≠ _
    split
    · simp
    · rename_i hn
      intro hl
      exact hn (owned_freed ok.base ok.covered ok.all hl)
  | fail hs => rw [e1] at ho; exact ho.elim
  | ub => rw [e1] at ho; exact ho.elim

/-- C74 for refused programs, too.  It does not hold. -/
def C74_full : Prop :=
  ∀ (cfg : Cfg) (t : Tree), OfSource t → semantic cfg t ≠ .ub → ∃ es, memoryLog cfg t = some es ∧ MemClean es

/-- The name an exported variable has for the linker is not freed if there is a function of its name. -/
def leakSrc : String := "f(a: Int) {\nnoop\n}\nexport f := 1\n"

theorem ofSource_parsed {src : String} (h : (match parseAstTree (lexed src) with | .ok (some _) _ => true | _ => false) = true)
    (hl : lexed src ≠ []) : OfSource (parsed src) := by
  unfold parsed
  split at h
  · rename_i t s ht
    rw [ht]
    show OfSource t
    unfold lexed at ht hl
    split at ht
    · rename_i ts hts
      rw [hts] at hl
      cases hc : classifyTokens ts with
      | none => exact absurd (show (classifyTokens ts).getD [] = [] by rw [hc]; rfl) hl
      | some toks =>
        rw [hc] at ht
        exact ⟨_, _, _, _, s, hts, hc, ht⟩
    · rename_i hx
      exfalso
      revert hl
      cases e : tokenize false src.toList with
      | none => simp
      | some r =>
        cases r with
        | ok ts => exact absurd e (hx ts)
        | _ => simp
  · cases h

theorem C74_false : ¬ C74_full := by
  intro h
  have h1 : (match semantic sampleCfg (parsed leakSrc) with | .ub => false | _ => true) = true := by decide +kernel
  have h2 : (memoryLog sampleCfg (parsed leakSrc)).map leftOver = some [.link 3] := by decide +kernel
  obtain ⟨es, h3, m, h4, h5⟩ := h sampleCfg (parsed leakSrc) (ofSource_parsed (by decide +kernel) (by decide +kernel))
    (by intro e; rw [e] at h1; cases h1)
  rw [h3, Option.map_some] at h2
  unfold leftOver at h2
  rw [h4] at h2
  have : (Block.link 3) ∈ (es.filterMap fun | .alloc b => some b | _ => none).filter fun b => m b = .live := by
    have h6 := Option.some.inj h2
    dsimp only at h6
    rw [h6]; exact List.mem_singleton.2 rfl
  have := (List.mem_filter.1 this).2
  exact h5 _ (of_decide_eq_true this)

/-- Another leak: the name of a namespace that is there already. -/
example : (memoryLog sampleCfg (parsed "namespace a {\nx := 1\n}\nnamespace a {\ny := 1\n}\n")).map leftOver = some [.name 3] := by decide +kernel

/-- Refused programs that leave nothing: a variable with the name of a function, a parameter that shadows, a name that is not there
in a block in a function. -/
example : ["f(a: Int) {\nnoop\n}\nf := 1\n", "x := 1\nf(a: Int, x: Int) {\nnoop\n}\n",
    "f(a: Int) {\nif a > 1 {\nb := c\n}\n}\n"].map (fun src => (refusals src, (memoryLog sampleCfg (parsed src)).map fun es => (safeB es, leftOver es))) =
    [(some [.errNoRedefineXAsY], some (true, [])), (some [.errShadowVar], some (true, [])), (some [.errVarNotFound], some (true, []))] := by
  decide +kernel

/-- An accepted program with all kinds of symbols. -/
def memorySrc : String :=
  "T := Int\nnamespace n {\nexport x := 1\nmut y: T = 2\n}\nexport f(a: Int, b: &Int) Int {\nif a > 1 {\nc := a\nreturn c\n}\nreturn n.x\n}\n" ++
  "external g(a: Str)\nmut z := 1\nwhile z < 10 {\nz = z + f(z, &z)\n}\ng(\"a\")\n"

example : acceptsSrc memorySrc = true ∧
    (memoryLog sampleCfg (parsed memorySrc)).map (fun es => (safeB es, leftOver es, es.countP fun | .alloc _ => true | _ => false)) =
      some (true, [], 58) := by decide +kernel

end Skull
