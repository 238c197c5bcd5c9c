import Verif.Proofs.SourceParse
import Verif.Props.Parser
/-
C75: every program that may be written is read, and as it was written.
-/
namespace Skull
open Spec Spec.Src

/-! ## C75 Every program of the grammar is parsed to the tree that was written -/

/-- The tree of the program; when nothing is written it is one empty node. -/
def TreeOfProg (p : Prog) (t : Tree) : Prop :=
  if p.some then p.Is [] t else t = .node .unknown p.tokens [] .nil .nil

/-- What is wanted: a program that may be written is accepted without a message, and the tree has its statements, blocks and
expressions. -/
def C75_full : Prop :=
  ∀ p : Prog, p.WF [] → ∃ t, parseAstTree p.tokens = .ok (some t) { toks := [] } ∧ TreeOfProg p t

private def one : Chain := .one (.plain (.leaf (tk .intConst)))

private theorem one_value : Value one := by simp [Value, one, Chain.WF, Chain.Full, Operand.WF, Operand.Full, Atom.WF, Atom.Full, isLiteral, tk]

/-- `x := 1 # comment` -/
private def commented : Prog := .line (.define [] (tk .identifier) (tk .operAutoEqual) one) (.line (.word (tk .comment)) .nil)

private theorem commented_wf : commented.WF [] := by
  refine ⟨⟨⟨_, _, .none⟩, rfl, rfl, one_value⟩, ?_, by simp [Line.WF, tk], by simp [LineEnds, Prog.tokens], trivial⟩
  intro t ht
  simp [Prog.tokens, Line.tokens] at ht
  subst ht
  simp [tk]

/-- It is false: a definition with a comment after it, as in `x := 1 # comment`, is refused. -/
theorem C75_false : ¬ C75_full := by
  intro h
  obtain ⟨t, ht, _⟩ := h commented commented_wf
  have h0 : accepts commented.tokens = false := by decide +kernel
  simp [accepts, ht] at h0

/-- Also refused are: a definition as the last statement of a block on the line of its closing brace, an external function with a
comment after it, and one at the end of a file without a newline.  Other statements may stand there. -/
theorem C75_false_more : parseDiags "x := 1 # comment\n" = some [.errExpectedNewline] ∧
    parseDiags "if true { x := 1 }\n" = some [.errExpectedNewline] ∧
    parseDiags "external f() # comment\n" = some [.errUnexpectedToken] ∧
    parseDiags "external f()" = some [.errExpectedNewline] ∧
    parseDiags "x = 1 # comment\nif true { x = 1 }\nf() # comment\n" = none := by decide +kernel

/-- Every program that may be written, with a newline after each definition and each external function, is accepted without a
message.  Its tree has the statements in order, each with the block written after it, and with the names, types, marks and parameters
that were written; expressions are read as C26-C28 say.  (Missing: programs that have something else after a definition or an
external function, for which it is false.) -/
theorem C75_partial (p : Prog) (hw : p.WF []) (hn : p.Newlines []) :
    ∃ t, parseAstTree p.tokens = .ok (some t) { toks := [] } ∧ TreeOfProg p t := SrcParse.prog_parse p hw hn

/-- There is only one way to read a program: programs with the same tokens have the same tree. -/
theorem C75_one_reading (p q : Prog) (hp : p.WF []) (hp' : p.Newlines []) (hq : q.WF []) (hq' : q.Newlines [])
    (h : p.tokens = q.tokens) : ∃ t, TreeOfProg p t ∧ TreeOfProg q t := by
  obtain ⟨t, h1, h2⟩ := C75_partial p hp hp'
  obtain ⟨t', h3, h4⟩ := C75_partial q hq hq'
  rw [h, h3] at h1
  simp at h1
  subst h1
  exact ⟨t', h2, h4⟩

/-- `f(a: Int) Int { return a }`, a newline, and `x := f(1)`. -/
private def sample : Prog :=
  .block (.func ⟨[], tk .identifier, tk .parenOpen, .last (tk .newIdentifier) [tk .identifier], tk .parenClose, some [tk .identifier]⟩)
    [] (tk .bracketOpen) (.line (.retVal (tk .kwReturn) (.one (.plain (.leaf (tk .identifier))))) .nil) (tk .bracketClose)
    (.newline (tk .newline) (.line (.define [] (tk .identifier) (tk .operAutoEqual)
      (.one (.plain (.call (tk .identifier) (tk .parenOpen) (.last one) (tk .parenClose))))) .nil))

/-- The conditions are met by a program with a function, a block, a call and a definition. -/
example : sample.WF [] ∧ sample.Newlines [] ∧ sample.some = true := by
  simp [sample, one, Prog.WF, Prog.Newlines, Prog.some, Prog.tokens, Line.WF, Line.Newline, Head.WF, Func.WF, Pars.WF, Pars.count, Value, Chain.WF,
    Chain.Full, Operand.WF, Operand.Full, Atom.WF, Atom.Full, Seq.WF, Seq.Full, LineEnds, isName, isLiteral, tk]
  exact ⟨⟨.name (by simp [isName]), .inl .none⟩, .inr (.inl .none)⟩

example : accepts sample.tokens = true := by decide +kernel
example : parseText "f(a: Int, b: &Int,) Int {\nreturn a\n}\n\nexport x := f(1, y)\nwhile x < 3\n{ x = x + 1 # next\n}" =
    some "[func f[return a]][def x f(1,y,)][while (x < 3)[assign (x + 1)][comment]]" := by decide +kernel
example : parseText "namespace n {\nx: Int = 1\n}\nif n.x is 1 { f() } elif true { noop } else { g() }" =
    some "[namespace[def x 1]][if (n.x is 1)[expr f()]][elif true[noop]][else[expr g()]]" := by decide +kernel

end Skull
