import Verif.Proofs.LProgram
import Verif.Proofs.LTidy
import Verif.Proofs.Ends
import Verif.Proofs.SemAccepted
import Verif.Props.Unused
/-
C55, C56: the control flow that the LLVM back end generates.
-/
namespace Skull
open Spec

/-- Code pieces of which only the jumps matter: there are none in the code of a condition or of a statement without blocks, and the code of
`return` and `unreachable` ends in the jump. -/
def jumpPieces (syms : List Symbol) : Pieces Unit where
  cond _ _ is _ _ := ∀ i ∈ is, i.isTerm = false
  stmt _ _ _ _ is _ := ∀ i ∈ is, i.isTerm = false
  stop _ _ ann stmt is _ := ∃ body t, is = body ++ [t] ∧ (∀ i ∈ body, i.isTerm = false) ∧
    match stmt, ann with
    | .unreachable, _ => t = .unreachable
    | _, .expr _ => ∃ v, t = .ret v
    | _, _ => t = .retVoid
  func _ _ f _ is _ := f ≠ 0 ∧ ∀ i ∈ is, i.isTerm = false
  isExternal id := ∃ sym f, syms[id]? = some sym ∧ sym.kind = .func f ∧ f.isExternal = true
  isVoid id := ∃ sym f, syms[id]? = some sym ∧ sym.kind = .func f ∧ f.returnType = .prim .void

/-- A layout stays one when less is asked of the pieces. -/
theorem Spec.Laid.map {κ κ' : Type} {P : Pieces κ} {Q : Pieces κ'} {M : List LFunc} (g : κ → κ')
    (hcond : ∀ k e is v k', P.cond k e is v k' → Q.cond (g k) e is v (g k'))
    (hstmt : ∀ f k ann st is k', P.stmt f k ann st is k' → Q.stmt f (g k) ann st is (g k'))
    (hstop : ∀ f k ann st is k', P.stop f k ann st is k' → Q.stop f (g k) ann st is (g k'))
    (hfunc : ∀ id ps f k is k', P.func id ps f k is k' → Q.func id ps f (g k) is (g k')) (hext : ∀ id, P.isExternal id → Q.isExternal id)
    (hnext : ∀ id ps f k is k', ¬ P.isExternal id → P.func id ps f k is k' → ¬ Q.isExternal id)
    (hvoid : ∀ id, Q.isVoid id → P.isVoid id) {f loop arm p k t e q k'} (h : Laid P M f loop arm p k t e q k') :
    Laid Q M f loop arm p (g k) t e q (g k') := by
  induction h with
  | nil => exact .nil
  | plain h1 h2 h3 _ ih => exact .plain h1 (hstmt _ _ _ _ _ _ h2) h3 ih
  | stop h1 h2 h3 => exact .stop h1 (hstop _ _ _ _ _ _ h2) h3
  | breaks h => exact .breaks h
  | continues h => exact .continues h
  | whiles h1 h2 h3 h4 _ h5 _ i1 i2 => exact .whiles h1 h2 (hcond _ _ _ _ _ h3) h4 i1 h5 i2
  | ifs h1 _ h2 _ i1 i2 => exact .ifs h1 i1 h2 i2
  | elifs h1 h2 h3 _ h4 _ i1 i2 => exact .elifs h1 (hcond _ _ _ _ _ h2) h3 i1 h4 i2
  | elses h2 h3 _ h4 _ i1 i2 => exact .elses (hcond _ _ _ _ _ h2) h3 i1 h4 i2
  | comment _ ih => exact .comment ih
  | endIf h1 h2 h3 _ ih => exact .endIf h1 (hcond _ _ _ _ _ h2) h3 ih
  | external h1 h2 _ ih => exact .external h1 (hext _ h2) ih
  | func h1 h2 h3 h5 _ h4 _ i1 i2 => exact .func h1 (hnext _ _ _ _ _ _ h2 h3) (hfunc _ _ _ _ _ _ h3) h5 i1 (fun he hv => h4 he (hvoid _ hv)) i2
  | ns _ _ i1 i2 => exact .ns i1 i2

theorem func_some {cfg : LCfg} {id : Nat} {sym : Symbol} {f : Func} (h : cfg.func id = some (sym, f)) :
    cfg.syms[id]? = some sym ∧ sym.kind = .func f := by
  unfold LCfg.func at h
  split at h
  · rename_i sym' h1
    split at h
    · rename_i f' h2
      cases h
      exact ⟨h1, h2⟩
    · cases h
  · cases h

/- ### C55 -/

/-- The property as stated: the code of an accepted program is laid out; in particular the code of a `break` is a jump to the block behind
the innermost loop around it, and the code of a `continue` is one to the block with its condition. -/
def C55_full : Prop :=
  ∀ (scfg : Cfg) (t : Tree) (a : ATree) (ss : SS) (fold debug) (name : List Char) (s : LState), Parsed t → semantic scfg t = .ok a ss →
    codegenL ⟨ss.syms, fold, debug⟩ name a = some s → LaidProgram (jumpPieces ss.syms) s.funcs () a

/-- It holds for the programs in which no loop comes before a `break` or `continue` in the same loop. -/
theorem C55_partial {scfg : Cfg} {t : Tree} {a : ATree} {ss : SS} {fold debug} {name : List Char} {s : LState} (hp : Parsed t)
    (hs : semantic scfg t = .ok a ss) (h : codegenL ⟨ss.syms, fold, debug⟩ name a = some s) (hj : JumpsOk false a) :
    LaidProgram (jumpPieces ss.syms) s.funcs () a := by
  obtain ⟨e, q, k, h1, h2⟩ := accepted_laid hp hs (cfg := ⟨ss.syms, fold, debug⟩) rfl h hj
  refine ⟨e, q, (), h1.map (fun _ => ()) ?_ ?_ ?_ ?_ ?_ ?_ ?_, h2⟩
  · rintro k e is v k' ⟨x, n, h, _⟩
    exact h.straight.noTerm
  · intro f k ann st is k' h
    exact h.straight.1.noTerm
  · intro f k ann st is k' h
    cases h with
    | retVoid => exact ⟨[], _, rfl, by simp, by simp⟩
    | ret h => exact ⟨_, _, rfl, h.straight.noTerm, by simp⟩
    | unreachable => exact ⟨[], _, rfl, by simp, by simp⟩
  · rintro id ps f k is k' ⟨_, _, _, _, _, _, h, _, _, _, h'⟩
    exact ⟨h, h'.straight.1.noTerm⟩
  · rintro id ⟨sym, fn, _, _, h, h', _⟩
    obtain ⟨h1, h2⟩ := func_some h
    exact ⟨sym, fn, h1, h2, h'⟩
  · rintro id ps f k is k' _ ⟨sym, fn, _, h, h', _⟩ ⟨sym', fn', h3, h4, h5⟩
    obtain ⟨h1, h2⟩ := func_some h
    cases h1.symm.trans h3
    cases h2.symm.trans h4
    rw [h'] at h5
    cases h5
  · rintro id ⟨sym, fn, h1, h2, h3⟩
    refine ⟨sym, fn, ?_, h3⟩
    unfold LCfg.func
    simp only [h1, h2]

/-- The blocks of the main function of a program. -/
def blocksOf (src : String) : Option (List (List LInstr)) :=
  match checked sampleCfg src with
  | .ok a s => (codegenL ⟨s.syms, fun _ _ _ => none, false⟩ ['m'] a).bind fun st => (st.funcs[0]?).map (·.blocks)
  | _ => none

example : blocksOf "mut x := 0\nwhile x < 9 {\nif x is 5 {\nbreak\n}\nelif x is 3 {\ncontinue\n}\nx = x + 1\n}\n" = some [
    [.br (some 1)],
    [.load 0 (.prim .int) (.global 0), .bin 1 .islt (.reg 0) (.int 9), .condBr (.reg 1) 2 3],
    [.load 2 (.prim .int) (.global 0), .bin 3 .ieq (.reg 2) (.int 5), .condBr (.reg 3) 5 6],
    [.ret (.int 0)],
    [.load 6 (.prim .int) (.global 0), .bin 7 .add (.reg 6) (.int 1), .store (.reg 7) (.global 0), .br (some 1)],
    [.br (some 3)],
    [.load 4 (.prim .int) (.global 0), .bin 5 .ieq (.reg 4) (.int 3), .condBr (.reg 5) 7 4],
    [.br (some 1)]] := by decide +kernel

/-- A program can be checked to meet the condition. -/
def jumpsTest : Bool → ATree → Bool
  | ok, .node _ stmt _ child next =>
    match stmt with
    | .breaks | .continues => ok && jumpsTest ok child && jumpsTest (ok && !hasLoop child) next
    | .whiles _ => jumpsTest true child && jumpsTest false next
    | .funcProto _ => jumpsTest false child && jumpsTest (ok && !hasLoop child) next
    | _ => jumpsTest ok child && jumpsTest (ok && !hasLoop child) next
  | _, _ => true

theorem jumpsTest_ok : ∀ {t : ATree} {ok : Bool}, jumpsTest ok t = true → JumpsOk ok t
  | .nil, _, _ => by unfold JumpsOk; trivial
  | .unchecked _, _, _ => by unfold JumpsOk; trivial
  | .node ann stmt tok child next, ok, h => by
    unfold jumpsTest at h
    unfold JumpsOk
    cases stmt <;> simp only [Bool.and_eq_true] at h <;>
      first
      | exact ⟨by simp, jumpsTest_ok h.1, jumpsTest_ok h.2⟩
      | exact ⟨fun _ => h.1.1, jumpsTest_ok h.1.2, jumpsTest_ok h.2⟩

/-- Loops in loops, with the jumps before the inner loop. -/
example : (match checked sampleCfg "mut x := 0\nwhile x < 9 {\nif x is 5 {\nbreak\n}\nwhile x < 3 {\nx = x + 1\ncontinue\n}\n}\n" with
    | .ok a s => jumpsTest false a && (codegenL ⟨s.syms, fun _ _ _ => none, false⟩ ['m'] a).isSome
    | _ => false) = true := by decide +kernel

/-- A loop before a `break`. -/
def breakAfterLoop : String := "while true {\nwhile true {\nbreak\n}\nbreak\n}\n"

theorem blockOf_map {M : List LFunc} {L : List (List (List LInstr))} (b : Nat) (h : M.map (·.blocks) = L) : blockOf M 0 b = (L[0]?).bind (·[b]?) := by
  subst h
  unfold blockOf
  cases M <;> rfl

theorem codeAt_start {M : List LFunc} {f b : Nat} {is : List LInstr} (h : CodeAt M f (start b) is) :
    ∃ rest, blockOf M f b = some (is ++ rest) := by
  obtain ⟨pre, rest, h1, h2⟩ := h
  cases pre with
  | nil => exact ⟨rest, h1⟩
  | cons => cases h2

theorem cond_first {is rest : List LInstr} {v w : LVal} {b c b' c' : Nat} (h : ∀ i ∈ is, i.isTerm = false)
    (he : [.condBr w b' c'] = is ++ (.condBr v b c :: rest)) : b' = b ∧ c' = c := by
  cases is with
  | nil => simp at he; exact he.1.2
  | cons i is => simp at he

theorem C55_false : ¬ C55_full := by
  intro hf
  have hacc : acceptsSrc breakAfterLoop = true := by decide +kernel
  have key : (match checked sampleCfg breakAfterLoop with
      | .ok a s => match a, codegenL ⟨s.syms, fun _ _ _ => none, false⟩ ['m'] a with
        | .node _ (.whiles _) _ (.node _ (.whiles _) _ _ (.node _ .breaks _ _ _)) _, some st => decide ((st.funcs.map (·.blocks)) =
          [[[.br (some 1)], [.condBr (.bool true) 2 3], [.br (some 4)], [.ret (.int 0)], [.condBr (.bool true) 5 6], [.br (some 6)],
            [.br none]]])
        | _, _ => false
      | _ => false) = true := by decide +kernel
  split at key
  · rename_i a s hs
    split at key
    · rename_i ann c tok ann' c' tok' child' ann'' tok'' child'' next'' next st hst
      simp only [decide_eq_true_eq] at key
      obtain ⟨e, q, k, h, _⟩ := hf sampleCfg _ _ s _ _ _ _ (parsed_src hacc) hs hst
      have hb : ∀ b, blockOf st.funcs 0 b = _ := fun b => blockOf_map b key
      cases h with
      | plain h => cases h
      | stop h => simp at h
      | whiles _ h1 hc1 h2 h _ _ =>
        cases h with
        | plain h => cases h
        | stop h => simp at h
        | whiles _ h3 hc3 h4 _ _ h =>
          cases h with
          | plain h => cases h
          | stop h => simp at h
          | breaks h5 =>
            obtain ⟨r1, g1⟩ := codeAt_start h1
            rw [hb] at g1
            simp at g1
            obtain ⟨rfl, _⟩ := g1
            obtain ⟨r2, g2⟩ := codeAt_start h2
            rw [hb] at g2
            obtain ⟨rfl, rfl⟩ := cond_first hc1 (by simpa using g2)
            obtain ⟨r3, g3⟩ := codeAt_start h3
            rw [hb] at g3
            simp at g3
            obtain ⟨rfl, _⟩ := g3
            obtain ⟨r4, g4⟩ := codeAt_start h4
            rw [hb] at g4
            obtain ⟨rfl, rfl⟩ := cond_first hc3 (by simpa using g4)
            obtain ⟨r5, g5⟩ := codeAt_start h5
            rw [hb] at g5
            simp at g5
    · cases key
  · cases key

/- ### C56 -/

/-- The property as stated: every block of the generated code has one jump, at its end. -/
def C56_full : Prop :=
  ∀ (scfg : Cfg) (t : Tree) (a : ATree) (ss : SS) (fold debug) (name : List Char) (s : LState), Parsed t → semantic scfg t = .ok a ss →
    codegenL ⟨ss.syms, fold, debug⟩ name a = some s → WellEnded s.funcs

/-- It holds for the programs without functions in functions in which no statement leaves a namespace. -/
theorem C56_partial {scfg : Cfg} {t : Tree} {a : ATree} {ss : SS} {fold debug} {name : List Char} {s : LState} (hp : Parsed t)
    (hs : semantic scfg t = .ok a ss) (h : codegenL ⟨ss.syms, fold, debug⟩ name a = some s) (hf : Flat false t) (hn : NamespacesStay t) :
    WellEnded s.funcs := by
  obtain ⟨hd, h0⟩ := semantic_defs hp hs
  exact codegenL_ended h hd h0 (wt_assigns (cfg := ⟨ss.syms, fold, debug⟩) (semantic_wt hp hs).2) (semantic_ends hp hs hf hn)

/-- A program can be checked to have no functions in functions. -/
def flatTest (inFunc : Bool) : Tree → Bool
  | .nil => true
  | .node stmt _ _ child next =>
    (match stmt with
      | .funcProto _ => !inFunc && flatTest true child
      | .expr _ => true
      | _ => flatTest inFunc child) && flatTest inFunc next

theorem flatTest_ok : ∀ {t : Tree} {f : Bool}, flatTest f t = true → Flat f t
  | .nil, _, _ => trivial
  | .node stmt tok tokEnd child next, f, h => by
    unfold flatTest at h
    unfold Flat
    cases stmt <;> simp only [Bool.and_eq_true, Bool.not_eq_true'] at h <;>
      first
      | exact ⟨trivial, flatTest_ok h.2⟩
      | exact ⟨flatTest_ok h.1, flatTest_ok h.2⟩
      | exact ⟨⟨h.1.1, flatTest_ok h.1.2⟩, flatTest_ok h.2⟩

/-- A program can be checked to have no statement that leaves a block. -/
def staysTest : Tree → Bool
  | .nil => true
  | .node stmt _ _ _ next => (match stmt with | .ret _ | .unreachable | .breaks | .continues => false | _ => true) && staysTest next

theorem staysTest_ok : ∀ {t : Tree}, staysTest t = true → Stays t
  | .nil, _ => trivial
  | .node stmt tok tokEnd child next, h => by
    unfold staysTest at h
    rw [Bool.and_eq_true] at h
    refine ⟨?_, staysTest_ok h.2⟩
    cases stmt <;> first | trivial | (cases h.1)

def namespacesTest : Tree → Bool
  | .nil => true
  | .node stmt _ _ child next =>
    (match stmt with | .namespaces => staysTest child | _ => true) && (namespacesTest child && namespacesTest next)

theorem namespacesTest_ok : ∀ {t : Tree}, namespacesTest t = true → NamespacesStay t
  | .nil, _ => trivial
  | .node stmt tok tokEnd child next, h => by
    unfold namespacesTest at h
    simp only [Bool.and_eq_true] at h
    refine ⟨?_, namespacesTest_ok h.2.1, namespacesTest_ok h.2.2⟩
    rintro rfl
    exact staysTest_ok h.1

/-- Functions with returns in branches, and a namespace. -/
example : (match checked sampleCfg "namespace n {\ny := 1\nf(a: Int) Int {\nif a is 1 {\nreturn 2\n}\nreturn 3\n}\n}\ng() {\nx := n.f(1)\n}\nif n.y is 2 {\nreturn 3\n}\n" with
    | .ok a s => (codegenL ⟨s.syms, fun _ _ _ => none, false⟩ ['m'] a).isSome
    | _ => false) = true := by decide +kernel

example : (fun t => flatTest false t && namespacesTest t)
    (parsed "namespace n {\ny := 1\nf(a: Int) Int {\nif a is 1 {\nreturn 2\n}\nreturn 3\n}\n}\ng() {\nx := n.f(1)\n}\nif n.y is 2 {\nreturn 3\n}\n") = true := by
  decide +kernel

/-- A return in a namespace, outside functions. -/
def returnInNamespace : String := "namespace n {\nreturn 1\n}\n"

theorem C56_false : ¬ C56_full := by
  intro hf
  have hacc : acceptsSrc returnInNamespace = true := by decide +kernel
  have key : (match checked sampleCfg returnInNamespace with
      | .ok a s => match codegenL ⟨s.syms, fun _ _ _ => none, false⟩ ['m'] a with
        | some st => decide (blockOf st.funcs 0 0 = some [.ret (.int 1), .ret (.int 0)])
        | _ => false
      | _ => false) = true := by decide +kernel
  split at key
  · rename_i a s hs
    split at key
    · rename_i st hst
      simp only [decide_eq_true_eq] at key
      obtain ⟨is, t, h1, h2, _⟩ := hf sampleCfg _ _ s _ _ _ _ (parsed_src hacc) hs hst _ _ _ key
      cases is with
      | nil => cases h1
      | cons i is =>
        have := h2 i (by simp)
        rw [← (List.cons.inj h1).1] at this
        cases this
    · cases key
  · cases key

end Skull
