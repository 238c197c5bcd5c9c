import Verif.Proofs.SemAccepted
import Verif.Proofs.SemEnv
import Verif.Proofs.ParseCounted
/-
A program with a call of 65537 arguments.
-/
namespace Skull
open Spec

/-- Tokens written by hand. -/
def mkTok (ty : TokType) (text : String) : Token := { begin := some text.toList, len := text.length, ty := ty }

/-- The argument `1`. -/
def oneArg : Chain := .one (.plain (.leaf (mkTok .intConst "1")))

/-- That many arguments, a comma behind each. -/
def ones : Nat → Seq
  | 0 => .nil
  | n + 1 => .cons oneArg (mkTok .comma ",") (ones n)

/-- A call of `f` with that many arguments. -/
def manyCall (n : Nat) : Chain := .one (.plain (.call (mkTok .identifier "f") (mkTok .parenOpen "(") (ones n) (mkTok .parenClose ")")))

/-- The end of a line. -/
def nlTok : Token := mkTok .newline "\n"

/-- `external f(a: Int)` on a line, then other tokens. -/
def manyToks (rest : List Token) : List Token :=
  mkTok .kwExternal "external" :: mkTok .identifier "f" :: mkTok .parenOpen "(" :: mkTok .newIdentifier "a:" ::
    mkTok .identifier "Int" :: mkTok .parenClose ")" :: nlTok :: rest

/-- The function so declared. -/
def manyProto (rest : List Token) : FuncProto :=
  ⟨mkTok .identifier "f", none, true, false, [⟨mkTok .newIdentifier "a:", mkTok .identifier "Int" :: mkTok .parenClose ")" :: nlTok :: rest⟩], 1⟩

/-- The tree of the declaration and a call of `f`. -/
def manyTree (rest : List Token) (args : Args) (num : Nat) (te te' : List Token) : Tree :=
  .node (.funcProto (manyProto rest)) (manyToks rest) te .nil (.node (.expr (.call (mkTok .identifier "f") args num)) rest te' .nil .nil)

theorem ones_wf : ∀ n, (ones n).WF
  | 0 => trivial
  | n + 1 => ⟨by simp [oneArg, Chain.WF, Operand.WF, Atom.WF, mkTok, isLiteral], rfl, ones_wf n⟩
theorem ones_full : ∀ n, (ones n).Full
  | 0 => trivial
  | n + 1 => ⟨by simp [oneArg, Chain.Full, Operand.Full, Atom.Full], ones_full n⟩
theorem manyCall_wf (n) : (manyCall n).WF := ⟨rfl, rfl, ones_wf n, rfl⟩
theorem manyCall_full (n) : (manyCall n).Full := ones_full n

theorem many_parse_expr (n : Nat) (d : List PDiag) : parseExpr ⟨(manyCall n).tokens ++ [nlTok], false, d⟩ = .ok (some (buildChain (manyCall n))) ⟨[nlTok], false, d⟩ :=
  parseExpr_complete (manyCall_wf n) (manyCall_full n) rfl rfl (by simp [nlTok, mkTok]) (by simp [nlTok, mkTok, binLevel, unLevel])

theorem many_tokens (n : Nat) : ∃ r, (manyCall (n+1)).tokens ++ [nlTok] = mkTok .identifier "f" :: mkTok .parenOpen "(" :: mkTok .intConst "1" :: mkTok .comma "," :: r := by
  simp [manyCall, Chain.tokens, Operand.tokens, Atom.tokens, ones, Seq.tokens, oneArg]

theorem many_node1 (f : Nat) (rest : List Token) : parseNode (f+1) 0 { ps := ⟨manyToks rest, false, []⟩ } =
    .ok false { ps := ⟨nlTok :: rest, false, []⟩, done := [⟨.funcProto (manyProto rest), manyToks rest, mkTok .parenClose ")" :: nlTok :: rest, .nil⟩] } := by
  simp [parseNode, manyToks, mkTok, parseDefault, parseFunctionProto, tokenCmp2, finishProto, parseParams, isPotentialType, isExplicitType, isIdentLike, pushProto, nlTok, PCtx.push, manyProto]

theorem many_node2 (f n : Nat) (ns : List Node) : parseNode (f+1) 0 { ps := ⟨(manyCall (n+1)).tokens ++ [nlTok], false, []⟩, done := ns } =
    .ok false { ps := ⟨[nlTok], false, []⟩, done := ⟨.expr (buildChain (manyCall (n+1))), (manyCall (n+1)).tokens ++ [nlTok], [nlTok], .nil⟩ :: ns } := by
  have he := many_parse_expr (n+1) []
  obtain ⟨r, hr⟩ := many_tokens n
  have h1 : parseFunctionProto { ps := ⟨(manyCall (n+1)).tokens ++ [nlTok], false, []⟩, done := ns } = .ignore := by
    rw [hr]
    simp [parseFunctionProto, tokenCmp2, finishProto, parseParams, mkTok, isExplicitType]
  have h2 : parseVarDef { ps := ⟨(manyCall (n+1)).tokens ++ [nlTok], false, []⟩, done := ns } = .ignore := by
    rw [hr]
    simp [parseVarDef, tokenCmp2, mkTok, isExplicitType]
  have h3 : parseVarAssign { ps := ⟨(manyCall (n+1)).tokens ++ [nlTok], false, []⟩, done := ns } = .ignore := by
    rw [hr]
    simp [parseVarAssign, mkTok, isIdentLike]
  have h4 : parseNode (f+1) 0 { ps := ⟨(manyCall (n+1)).tokens ++ [nlTok], false, []⟩, done := ns } = parseDefault { ps := ⟨(manyCall (n+1)).tokens ++ [nlTok], false, []⟩, done := ns } := by
    rw [hr]; simp [parseNode, mkTok]
  rw [h4]
  simp only [parseDefault, h1, h2, h3, parseExprStmt, he]
  rfl

theorem many_parse (n : Nat) : parseAstTree (manyToks ((manyCall (n+1)).tokens ++ [nlTok])) =
    .ok (some (manyTree ((manyCall (n+1)).tokens ++ [nlTok]) (buildSeq (ones (n+1))) ((n+1) % 65536) (mkTok .parenClose ")" :: nlTok :: ((manyCall (n+1)).tokens ++ [nlTok])) [nlTok])) ⟨[], false, []⟩ := by
  obtain ⟨f, hf⟩ : ∃ f, treeFuel (manyToks ((manyCall (n+1)).tokens ++ [nlTok])) = f + 7 := ⟨treeFuel (manyToks ((manyCall (n+1)).tokens ++ [nlTok])) - 7, by simp [treeFuel, manyToks]; omega⟩
  have hb : buildChain (manyCall (n+1)) = .call (mkTok .identifier "f") (buildSeq (ones (n+1))) ((n+1) % 65536) := by
    have : ∀ n, seqCount (ones n) = n := by
      intro n; induction n with
      | zero => rfl
      | succ n ih => simp [ones, seqCount, ih]
    simp [manyCall, buildChain, buildOperand, buildAtom, this]
  unfold parseAstTree
  rw [hf]
  simp only [parseTree]
  have e1 : ∀ rest, ∃ r, manyToks rest = mkTok .kwExternal "external" :: r := fun _ => ⟨_, rfl⟩
  obtain ⟨r1, hr1⟩ := e1 ((manyCall (n+1)).tokens ++ [nlTok])
  obtain ⟨r, hr⟩ := many_tokens n
  rw [parseNodes]
  simp only [hr1]
  rw [← hr1, many_node1]
  simp only [Bool.or_false, Bool.false_eq_true, if_false]
  rw [parseNodes]
  simp only [parseNode, nlTok, mkTok]
  rw [show (⟨some "\n".toList, "\n".length, .newline, 0, 0⟩ : Token) = nlTok from rfl]
  simp only [Bool.or_false, Bool.false_eq_true, if_false]
  rw [parseNodes]
  simp only [hr]
  rw [← hr, many_node2]
  simp only [Bool.or_false, Bool.false_eq_true, if_false]
  rw [parseNodes]
  simp only [parseNode, nlTok, mkTok]
  simp only [Bool.or_false, Bool.false_eq_true, if_false]
  rw [parseNodes]
  simp [PCtx.tree, linkNodes, Tree.setHead, manyToks, manyTree, hb]

/-- The program, with one more argument than given. -/
def manyProgram (n : Nat) : Tree := manyTree ((manyCall (n+1)).tokens ++ [nlTok]) (buildSeq (ones (n+1))) ((n+1) % 65536)
  (mkTok .parenClose ")" :: nlTok :: ((manyCall (n+1)).tokens ++ [nlTok])) [nlTok]

theorem many_parsed (n : Nat) : Parsed (manyProgram n) := ⟨_, _, many_parse n⟩

/-- Whether a tree is accepted. -/
def acceptsTree (t : Tree) : Bool := match semantic sampleCfg t with | .ok .. => true | _ => false

theorem accepted_tree {t : Tree} (h : acceptsTree t = true) : Accepted sampleCfg t := by
  unfold acceptsTree at h
  split at h
  · exact ⟨_, _, by assumption⟩
  · cases h

theorem many_accepted : acceptsTree (manyProgram 65536) = true := by decide +kernel

theorem ParamsOk.len {W E ps τs E'} (h : ParamsOk W E ps τs E') : τs.length = ps.length := by
  induction h with
  | nil => rfl
  | cons _ _ _ _ _ _ ih => simp [ih]

/-- The declaration alone, whatever tokens follow. -/
theorem many_decl (rest : List Token) (te : List Token) (child next : Tree)
    (h : Accepted sampleCfg (.node (.funcProto (manyProto rest)) (manyToks rest) te .nil .nil)) :
    ∃ E' τ σ, StmtOk (sampleCfg.world False) .main .start [] (.funcProto (manyProto rest)) (manyToks rest) te .nil next E' ∧
      E'.decl ['f'] = some (.func [τ] σ) := by
  obtain ⟨a, s, h⟩ := h
  obtain ⟨E₂, h⟩ := semantic_sound (world_models sampleCfg False) h ⟨rfl, trivial, trivial⟩ (ext := false) False.elim
  cases h with
  | node _ h1 h2 =>
    cases h1 with
    | @func _ _ E₁ E₂ _ _ f σ τs _ _ _ _ h3 h4 h5 h6 h7 h8 h9 =>
      cases h8
      cases text_det h5 (show tokenToString (mkTok .identifier "f") = some ['f'] by decide)
      have hl := ParamsOk.len h7
      obtain ⟨τ, rfl⟩ : ∃ τ, τs = [τ] := List.length_eq_one_iff.1 hl
      refine ⟨_, τ, σ, .func h3 h4 h5 h6 h7 .nil h9, ?_⟩
      obtain ⟨h10, _⟩ := ParamsOk.grows h7 (Env.WF.start.add ['f'] (fun _ h => by cases h))
      have h11 := h10.same 1 (by simp [Env.add, Env.start])
      simp [Env.decl, Env.resolve, path, follow, Env.start, Env.add] at h11 ⊢
      exact h11

theorem many_decl_accepted : acceptsTree (.node (.funcProto (manyProto ((manyCall (65536 + 1)).tokens ++ [nlTok])))
    (manyToks ((manyCall (65536 + 1)).tokens ++ [nlTok])) (mkTok .parenClose ")" :: nlTok :: ((manyCall (65536 + 1)).tokens ++ [nlTok]))
    .nil .nil) = true := by decide +kernel

theorem ones_len : ∀ n, (argList (buildSeq (ones n))).length = n
  | 0 => rfl
  | n + 1 => by simp [ones, buildSeq, argList, ones_len n]

/-- The call is reached with `f` declared with one parameter, and has one argument more than given. -/
theorem many_at (n : Nat) (h : acceptsTree (.node (.funcProto (manyProto ((manyCall (n + 1)).tokens ++ [nlTok])))
      (manyToks ((manyCall (n + 1)).tokens ++ [nlTok])) (mkTok .parenClose ")" :: nlTok :: ((manyCall (n + 1)).tokens ++ [nlTok]))
      .nil .nil) = true) :
    ∃ E τ σ before stmt tok tokEnd args num, At (sampleCfg.world False) (manyProgram n) .main E before (.node stmt tok tokEnd .nil .nil) ∧
      stmt = .expr (.call (mkTok .identifier "f") args num) ∧ (argList args).length = n + 1 ∧ E.decl ['f'] = some (.func [τ] σ) := by
  obtain ⟨E', τ, σ, h1, h2⟩ := many_decl _ _ .nil (.node (.expr (.call (mkTok .identifier "f") (buildSeq (ones (n + 1)))
    ((n + 1) % 65536))) ((manyCall (n + 1)).tokens ++ [nlTok]) [nlTok] .nil .nil) (accepted_tree h)
  exact ⟨E', τ, σ, _, _, _, _, _, _, .next h1 .here, rfl, ones_len _, h2⟩

end Skull
