import Verif.Proofs.ParseHeapSource
import Verif.Props.Memory
import Verif.Props.Source
/-
C76, C77: the memory of the parser.
-/
namespace Skull

open Skull.Spec

/-! ## C76 Tokens and syntax tree are freed once, and not looked at afterwards -/

/-- C76: whatever the tokens are, from the start of the parser to the end of the compiler no token and no memory of the syntax tree
is freed twice, or looked at after it was freed.  (If the parser itself has no undefined behaviour of another kind: see C25.) -/
theorem C76_memory_safe (toks : List Token) (h : parseAstTree toks ≠ .ub) : ∃ es, PHeap.memoryLog toks = some es ∧ MemSafe es := by
  have h1 := PHeap.memoryLog_ok toks
  cases hp : parseAstTree toks with
  | ub => exact absurd hp h
  | fuel => exact absurd hp (parseAstTree_fuel toks)
  | ok t s =>
    rw [hp] at h1
    cases hm : PHeap.memoryLog toks with
    | none => rw [hm] at h1; exact h1.elim
    | some es =>
      rw [hm] at h1
      obtain ⟨n, lk, ⟨m, hr, _⟩, _⟩ := h1
      exact ⟨es, rfl, m, hr⟩

/-- For tokens that end in two newlines nothing else has to be asked for. -/
theorem C76_memory_safe_lines (toks : List Token) (a b : Token) (ha : a.ty = .newline) (hb : b.ty = .newline) :
    ∃ es, PHeap.memoryLog (toks ++ [a, b]) = some es ∧ MemSafe es := C76_memory_safe _ (parseAstTree_ub ha hb)

/-- The parser that keeps the log is the parser: it makes the same tree, and the same diagnostics. -/
theorem C76_same_parse (toks : List Token) :
    match PHeap.parseAstTreeH toks, parseAstTree toks with
    | .ok t h, .ok t' s => t.map PHeap.HTree.plain = t' ∧ h.ps = s
    | .ub, .ub => True
    | _, _ => False := by
  have h1 := PHeap.parseAstTreeH_ok toks
  have h2 := parseAstTree_fuel toks
  revert h1 h2
  generalize PHeap.parseAstTreeH toks = r
  generalize parseAstTree toks = p
  intro h1 h2
  cases h1 with
  | ok => exact ⟨rfl, rfl⟩
  | ub => trivial
  | fuel => exact absurd rfl h2

/-- Whatever was parsed, nothing of a tree that is handed on has been freed when the parser returns, and no token: the semantic check
and the back end, which run before the clean-up, only see memory that is there.  (`cnt` counts how often a block is in the tree.) -/
theorem C76_tree_there (toks : List Token) (t : PHeap.HTree) (h : PHeap.HS) (hp : PHeap.parseAstTreeH toks = .ok (some t) h) :
    ∃ m, memRun (fun _ => .fresh) h.evs = some m ∧ (∀ b ∈ PHeap.tokBlocks toks.length, m b = .live) ∧ ∀ b, t.cnt b ≠ 0 → m b = .live := by
  have h1 := PHeap.parseAstTreeH_ok toks
  rw [hp] at h1
  generalize parseAstTree toks = p at h1
  cases h1 with
  | ok hr =>
    obtain ⟨lk, ⟨m, hm, hl, _⟩, _⟩ := hr.own
    have key : ∀ b, t.cnt b + (lk b + PHeap.tokCnt toks.length b) ≠ 0 → m b = .live := by
      intro b hb
      have := hl b
      split at this
      · assumption
      · exact absurd this hb
    refine ⟨m, hm, ?_, fun b hb => key b (by omega)⟩
    intro b hb
    refine key b ?_
    have : ∀ n, b ∈ PHeap.tokBlocks n → PHeap.tokCnt n b ≠ 0 := by
      intro n
      induction n with
      | zero => intro h; cases h
      | succ n ih =>
        intro h
        rcases List.mem_cons.1 h with rfl | h
        · simp only [PHeap.tokCnt, PHeap.one_self]; omega
        · have := ih h
          simp only [PHeap.tokCnt]; omega
    have := this _ hb
    omega

/-! ## C77 All of it is freed -/

/-- What is wanted: when the parser accepts the tokens, all of their memory and of the syntax tree has been freed in the end. -/
def C77_full : Prop := ∀ toks t s, parseAstTree toks = .ok (some t) s → ∃ es, PHeap.memoryLog toks = some es ∧ MemClean es

/-- Nothing is lost if no block begins right after another one, and there are fewer than 65536 tokens.  (Missing: other tokens, for
which it is false, see below; and programs that are refused.) -/
theorem C77_accepted_clean_partial (toks : List Token) (t : Tree) (s : PS) (h : parseAstTree toks = .ok (some t) s)
    (hb : blockAfterBlock false toks = false) (hl : toks.length < 65536) : ∃ es, PHeap.memoryLog toks = some es ∧ MemClean es := by
  have h1 := PHeap.memoryLog_ok toks
  rw [h] at h1
  cases hm : PHeap.memoryLog toks with
  | none => rw [hm] at h1; exact h1.elim
  | some es =>
    rw [hm] at h1
    obtain ⟨n, lk, ⟨m, hr, hv, _⟩, h2, _⟩ := h1
    refine ⟨es, rfl, m, hr, fun b hlive => ?_⟩
    have := hv b
    rw [h2 rfl (PHeap.tidy_of hb hl) b, if_pos hlive] at this
    cases this

/-- When a block begins right after another one, memory is lost: the compiler accepts the program, and never frees the first
block. -/
theorem C77_blocks_leak (toks : List Token) (t : Tree) (s : PS) (h : parseAstTree toks = .ok (some t) s) (hn : NamespacesNamed toks)
    (hb : blockAfterBlock false toks = true) : ∃ es, PHeap.memoryLog toks = some es ∧ MemSafe es ∧ ¬ MemClean es := by
  have h1 := PHeap.memoryLog_ok toks
  rw [h] at h1
  cases hm : PHeap.memoryLog toks with
  | none => rw [hm] at h1; exact h1.elim
  | some es =>
    rw [hm] at h1
    obtain ⟨n, lk, ⟨m, hr, hv, _⟩, _, h2⟩ := h1
    obtain ⟨x, hx⟩ := h2 rfl hn hb
    refine ⟨es, rfl, ⟨m, hr⟩, ?_⟩
    rintro ⟨m', hr', hc⟩
    rw [hr] at hr'
    cases hr'
    have := hv x
    rw [if_neg (hc x)] at this
    exact hx this

/-- Every program of the grammar (see C75) of fewer than 65536 tokens: all memory is freed. -/
theorem C77_grammar_clean (p : Src.Prog) (hw : p.WF []) (hn : p.Newlines []) (hl : p.tokens.length < 65536) :
    ∃ es, PHeap.memoryLog p.tokens = some es ∧ MemClean es := by
  obtain ⟨t, ht, _⟩ := C75_partial p hw hn
  exact C77_accepted_clean_partial p.tokens t _ ht (PHeap.prog_noBlocks hw) hl

/-- Whether a log is safe, and how many blocks it leaves. -/
def parseLeft (es : List PHeap.Event) : Option Nat :=
  match memRun (fun _ => .fresh) es with
  | some m => some ((es.filterMap fun | .alloc b => some b | _ => none).filter fun b => m b = .live).length
  | none => none

theorem parseLeft_clean {es : List PHeap.Event} (h : MemClean es) : parseLeft es = some 0 := by
  obtain ⟨m, hm, hc⟩ := h
  unfold parseLeft
  rw [hm]
  simp [hc]

/-- Two blocks, one after the other. -/
def blocksSrc : String := "{ noop }\n{ noop }\n"

theorem C77_false : ¬ C77_full := by
  intro h
  have h1 : accepts (lexed blocksSrc) = true := by decide +kernel
  have h2 : (PHeap.memoryLog (lexed blocksSrc)).map parseLeft = some (some 1) := by decide +kernel
  obtain ⟨t, s, ht⟩ := accepts_some h1
  obtain ⟨es, he, hc⟩ := h _ t s ht
  rw [he, Option.map_some, parseLeft_clean hc] at h2
  cases h2

/-- For tokens that are refused it is false as well: the expressions before the error are lost. -/
theorem C77_refused_leak : accepts (lexed "1 + 2 +\n") = false ∧ (PHeap.memoryLog (lexed "1 + 2 +\n")).map parseLeft = some (some 2) ∧
    (PHeap.memoryLog (lexed "f(1 + )\n")).map parseLeft = some (some 3) ∧ (PHeap.memoryLog (lexed "-(\n")).map parseLeft = some (some 1) := by
  decide +kernel

/-- The condition on namespaces in `C77_blocks_leak` is needed: the `}` here is a name. -/
example : accepts (lexed "namespace } { noop }\n") = true ∧ blockAfterBlock false (lexed "namespace } { noop }\n") = true ∧
    (PHeap.memoryLog (lexed "namespace } { noop }\n")).map parseLeft = some (some 0) := by decide +kernel

/-- The conditions of C77 are met by programs with functions, calls, blocks and namespaces. -/
example : accepts (lexed memorySrc) = true ∧ blockAfterBlock false (lexed memorySrc) = false ∧ (lexed memorySrc).length < 65536 ∧
    (PHeap.memoryLog (lexed memorySrc)).map parseLeft = some (some 0) ∧
    (PHeap.memoryLog (lexed memorySrc)).map (fun es => (es.countP fun | .alloc (.mem _) => true | _ => false)) = some 66 := by decide +kernel

/-- The empty file, whose tokens are freed before its tree, and refused programs with nothing lost. -/
example : ["", "\n\n", "# comment\n", "{ }", "{ noop", "x :=\n", "external f(a: Int)\n", "f(a: Int, b: &Int,) Int {\nreturn a\n}\n"].map
    (fun src => (PHeap.memoryLog (lexed src)).map parseLeft) = List.replicate 8 (some (some 0)) := by decide +kernel

end Skull
