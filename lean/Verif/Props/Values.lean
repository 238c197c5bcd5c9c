import Verif.Proofs.CValue
import Verif.Proofs.LValue
import Verif.Props.CText
import Verif.Props.Run
/-
C54: the values of expressions, in both back ends.
-/
namespace Skull
open Spec Spec.C

/- ### C54 -/

/-- The C text of the expression has one reading, and with variables that have the values that `ρ` says its value stands for `v`. -/
def CGives (F : Floats) (syms : List Symbol) (fmtA : Nat → List Char) (ρ : Nat → Option Val) (e : AExpr) (v : Val) : Prop :=
  ∀ dbg st, ∃ text st', genExprC ⟨syms, dbg, fmtA⟩ e st = some (text, st') ∧ ∃ toks c, lex text = some toks ∧ G 1 toks c ∧
    (∀ k c', G k toks c' → c' = c) ∧
    ∀ E : CEnv, E.floats = F → Agree syms ρ E e → FloatTexts fmtA E e → ∃ x, value E c = some x ∧ C.Stands v x

/-- The LLVM code of the expression is put where the builder is, and with variables that have the values that `ρ` says it computes `v`
and does not change the memory. -/
def LGives (F : Floats) (cfg : LCfg) (ρ : Nat → Option Val) (e : AExpr) (v : Val) : Prop :=
  ∀ s x s', genExprL cfg e s = some (x, s') → ∃ is,
    s'.funcs = s.funcs.modify s.curFn (fun f => { f with blocks := f.blocks.modify s.curBlock (· ++ is) }) ∧
    ∀ (ω : Type) (ps : List MVal) (regs : Regs) (m : Mem ω), Holds cfg s.refs s.isGlobal s.spilled s.nextReg ρ (Spec.AExpr.idents e) ps regs m →
      ∃ regs', steps F ps is regs m = some (regs', m) ∧ operand regs' ps x.val = some (.val v)

/-- Both back ends compute the documented value of integer and boolean expressions, under a condition. -/
def BothGive (P : List Symbol → (Nat → List Char) → Floats → (Nat → Option Val) → AExpr → Prop) : Prop :=
  ∀ (scfg : Cfg) (t : Tree) (a : ATree) (ss : SS) (F : Floats) (fold) (debug : Bool) (fmtA : Nat → List Char) (ρ : Nat → Option Val) (e : AExpr) (v : Val),
    Parsed t → semantic scfg t = .ok a ss → FoldSound F fold → e ∈ a.exprs → e.type = .prim .int ∨ e.type = .prim .bool →
    P ss.syms fmtA F ρ e → valueE (docArith F) ρ e = some v → CGives F ss.syms fmtA ρ e v ∧ LGives F ⟨ss.syms, fold, debug⟩ ρ e v

/-- The property as stated. -/
def C54_full : Prop := BothGive fun _ _ _ _ _ => True

/-- The operations are ones that the LLVM code can do. -/
def safeL (F : Floats) (ρ : Nat → Option Val) (e : AExpr) : Prop := valueE (safeArith F) ρ e ≠ none

theorem safe_doc {F : Floats} {ρ : Nat → Option Val} : ∀ {e : AExpr} {v : Val}, valueE (safeArith F) ρ e = some v →
    valueE (docArith F) ρ e = some v
  | .ident .., _, h => h
  | .const .., _, h => h
  | .call .., _, h => h
  | .un o r _ _, v, h => by
    simp only [valueE] at h ⊢
    split at h
    · rename_i x hx
      rw [safe_doc hx]
      have h : (if safeUn F o x then docUn F o r.type x else none) = some v := h
      split at h
      · exact h
      · cases h
    · cases h
  | .bin o l r _ _, v, h => by
    simp only [valueE] at h ⊢
    split at h
    · rename_i x y hx hy
      rw [safe_doc hx, safe_doc hy]
      have h : (if safeBin o x y then docBin F o r.type x y else none) = some v := h
      split at h
      · exact h
      · cases h
    · cases h

/-- It holds for the expressions whose C text can be read (see `C50`), without calls, and with operations that both can do. -/
theorem C54_partial : BothGive fun syms fmtA F ρ e => Fine syms fmtA e ∧ safeC F ρ e = true ∧ safeL F ρ e := by
  rintro scfg t a ss F fold debug fmtA ρ e v hp hs hf he - ⟨hfine, hC, hL⟩ hv
  have hw := exprs_wt (semantic_wt hp hs).2 he
  constructor
  · intro dbg st
    obtain ⟨text, st', h1, toks, c, h2, h3, h4, h5⟩ := C50_partial (dbg := dbg) hp hs he hfine st
    refine ⟨text, st', h1, toks, c, h2, h3, h4, ?_⟩
    rintro E rfl ha hF
    obtain ⟨x, h6, h7⟩ := reads_value h5 hw ha hF hC hv
    exact ⟨x, h6, h7.1⟩
  · intro s x s' h
    obtain ⟨is, n, h1, rfl⟩ := genExprL_code e h
    refine ⟨is, rfl, fun ω ps regs m hh => ?_⟩
    obtain ⟨w, hw'⟩ := Option.ne_none_iff_exists'.1 hL
    have := safe_doc hw'
    rw [hv] at this
    cases this
    obtain ⟨regs', h2, h3, _⟩ := code_value (R := s.env) hf h1 hw hh hw'
    exact ⟨regs', h2, h3⟩

/- #### Examples, and why the conditions are needed -/

/-- A fine expression of integers and booleans, without variables. -/
def fineTest : AExpr → Bool
  | .const _ (.int i) => - 2 ^ 63 < i && i < 2 ^ 63
  | .const _ (.bool _) => true
  | .un _ r _ _ => fineTest r
  | .bin _ l r _ _ => fineTest l && fineTest r
  | _ => false

theorem fineTest_ok {syms : List Symbol} {fmtA : Nat → List Char} : ∀ {e : AExpr}, fineTest e = true → Fine syms fmtA e
  | .ident .., h => by simp [fineTest] at h
  | .const _ v, h => by
    cases v <;> first | (simp [fineTest] at h; done) | skip
    · simp only [fineTest, Bool.and_eq_true, decide_eq_true_eq] at h
      simp only [Fine, FineConst]
      exact h
    · simp only [Fine, FineConst]
  | .call .., h => by simp [fineTest] at h
  | .un _ r _ _, h => by
    simp only [fineTest] at h
    simp only [Fine]
    exact fineTest_ok h
  | .bin _ l r _ _, h => by
    simp only [fineTest, Bool.and_eq_true] at h
    simp only [Fine]
    exact ⟨fineTest_ok h.1, fineTest_ok h.2⟩

/-- A module with an empty function, in which the builder is. -/
def emptyModule : LState := { curFn := 0, curBlock := 0, funcs := [⟨['f'], [], .prim .int, true, [[]]⟩] }

/-- The first expression of a program, with the symbols of the program. -/
def firstExpr (src : String) : Option (AExpr × List Symbol) :=
  match checked sampleCfg src with
  | .ok a ss => a.exprs[0]?.map fun e => (e, ss.syms)
  | _ => none

/-- Whether the expression has the documented value `v`, and is fine, safe in C and safe in LLVM. -/
def conditions (e : AExpr) (v : Val) (fine safec safel : Bool) : Bool :=
  decide (e.type = .prim .int) && decide (valueE (docArith noFloats) (fun _ => none) e = some v) && (!fine || fineTest e) &&
    (!safec || safeC noFloats (fun _ => none) e) && (!safel || (valueE (safeArith noFloats) (fun _ => none) e).isSome)

/-- What the LLVM code of the first expression computes. -/
def valueL (src : String) : Option MVal :=
  match firstExpr src with
  | some (e, syms) =>
    match genExprL ⟨syms, fun _ _ _ => none, false⟩ e emptyModule with
    | some (x, s') =>
      match s'.funcs with
      | [⟨_, _, _, _, [is]⟩] =>
        match steps (ω := Unit) noFloats [] is (fun _ => none) ⟨fun _ => none, fun _ => none, 0, ()⟩ with
        | some (regs, _) => operand regs [] x.val
        | none => none
      | _ => none
    | none => none
  | none => none

/-- The tokens of the C text of the first expression. -/
def tokensC (src : String) : Option (List Tok) :=
  match firstExpr src with
  | some (e, syms) =>
    match genExprC ⟨syms, none, fun _ => []⟩ e {} with
    | some (text, _) => lex text
    | none => none
  | none => none

/-- The C value of these tokens, without variables. -/
def noVars : CEnv := ⟨fun _ => none, noFloats, fun _ => none⟩

theorem not_both {P : List Symbol → (Nat → List Char) → Floats → (Nat → Option Val) → AExpr → Prop} {src : String} {v : Val}
    {fine safec safel : Bool} {toks : List Tok} {c : Exp} {r : Option MVal} (hacc : acceptsSrc src = true)
    (hcond : (match firstExpr src with
      | some (e, syms) => conditions e v fine safec safel && decide (Spec.AExpr.idents e = []) && e.values.all (fun v => !v matches .float _) &&
          (genExprL ⟨syms, fun _ _ _ => none, false⟩ e emptyModule).isSome
      | none => false) = true)
    (hP : ∀ syms e, (fine = true → fineTest e = true) → (safec = true → safeC noFloats (fun _ => none) e = true) →
      (safel = true → safeL noFloats (fun _ => none) e) → P syms (fun _ => []) noFloats (fun _ => none) e)
    (ht : tokensC src = some toks) (hc : G 1 toks c) (hr : valueL src = r)
    (hbad : (∀ x, value noVars c = some x → ¬ C.Stands v x) ∨ r ≠ some (.val v)) : ¬ BothGive P := by
  intro h
  unfold tokensC at ht
  unfold valueL at hr
  generalize hfe : firstExpr src = fe at hcond ht hr
  match fe with
  | none => cases hcond
  | some (e, syms) =>
    dsimp only at hcond ht hr
    unfold firstExpr at hfe
    split at hfe
    rotate_left
    · cases hfe
    rename_i a ss hs
    cases he : a.exprs[0]? with
    | none => rw [he] at hfe; cases hfe
    | some e' =>
      rw [he] at hfe
      cases hfe
      simp only [conditions, Bool.and_eq_true, decide_eq_true_eq, Bool.or_eq_true, Bool.not_eq_true'] at hcond
      obtain ⟨⟨⟨⟨⟨⟨⟨c1, c2⟩, c3⟩, c4⟩, c5⟩, c6⟩, c7⟩, c8⟩ := hcond
      have hp : P ss.syms (fun _ => []) noFloats (fun _ => none) e := by
        apply hP
        · rintro rfl; exact c3.resolve_left (by decide)
        · rintro rfl; exact c4.resolve_left (by decide)
        · rintro rfl
          have := c5.resolve_left (by decide)
          intro hn
          rw [hn] at this
          cases this
      obtain ⟨h1, h2⟩ := h sampleCfg _ a ss noFloats (fun _ _ _ => none) false (fun _ => []) (fun _ => none) e v (parsed_src hacc) hs fold_none
        (List.mem_of_getElem? he) (.inl c1) hp c2
      rcases hbad with hbad | hbad
      · obtain ⟨text, st', g1, toks', c', g2, g3, g4, g5⟩ := h1 none {}
        rw [g1] at ht
        dsimp only at ht
        rw [g2] at ht
        cases ht
        cases g4 _ _ hc
        obtain ⟨x, g6, g7⟩ := g5 noVars rfl (by intro id hid; rw [c6] at hid; cases hid) (by
          intro bits hb
          have := List.all_eq_true.1 c7 _ hb
          cases this)
        exact hbad x g6 g7
      · apply hbad
        cases hg : genExprL ⟨ss.syms, fun _ _ _ => none, false⟩ e emptyModule with
        | none => rw [hg] at c8; cases c8
        | some xs =>
          obtain ⟨x, s'⟩ := xs
          rw [hg] at hr
          dsimp only at hr
          obtain ⟨is, g1, g2⟩ := h2 _ _ _ hg
          obtain ⟨regs', g3, g4⟩ := g2 Unit [] (fun _ => none) ⟨fun _ => none, fun _ => none, 0, ()⟩ (by
            intro id hid; rw [c6] at hid; cases hid)
          have g5 : s'.funcs = [⟨['f'], [], .prim .int, true, [is]⟩] := by rw [g1]; rfl
          rw [g5] at hr
          dsimp only at hr
          rw [g3] at hr
          exact hr.symm.trans g4

theorem G.num1 {s : List Char} (k : Nat) (h : k ≤ 13) : G k [.num s] (.num s) := G.down .num k h

/-- `(a op b)` -/
theorem G.pair {p : List Char} {k : Nat} {tl tr : List Tok} {l r : Exp} (hp : binPrec p = some k) (hk : k ≤ 10) (hl : G k tl l)
    (hr : G (k + 1) tr r) : G 1 (.p ['('] :: ((tl ++ .p p :: tr) ++ [.p [')']])) (.paren (.bin p l r)) :=
  G.down (.paren (G.down (.bin hp hl hr) 0 (by omega))) 1 (by omega)

/-- Division that has a rest: LLVM's `exact` flag makes its value undefined. -/
def divSrc : String := "x := 7 / 2\n"

/-- Without the condition on the LLVM code the property is false: `7 / 2` has no value there. -/
theorem C54_needs_safeL : ¬ BothGive fun syms fmtA F ρ e => Fine syms fmtA e ∧ safeC F ρ e = true :=
  not_both (src := divSrc) (v := .int 3) (fine := true) (safec := true) (safel := false) (r := none) (by decide +kernel) (by decide +kernel)
    (fun _ _ h1 h2 _ => ⟨fineTest_ok (h1 rfl), h2 rfl⟩) (toks := [.p ['('], .num ['7'], .p ['/'], .num ['2'], .p [')']]) (by decide +kernel)
    (G.pair (p := ['/']) (k := 10) (by decide) (by decide) (G.num1 _ (by decide)) (G.num1 _ (by decide))) (by decide +kernel) (.inr (by decide))

/-- The constants are of type `int` in C, and their sum is too large for it. -/
def wideSrc : String := "x := 2147483647 + 1\n"

/-- Without the condition on the C text the property is false: `2147483647 + 1` is undefined. -/
theorem C54_needs_safeC : ¬ BothGive fun syms fmtA F ρ e => Fine syms fmtA e ∧ safeL F ρ e :=
  not_both (src := wideSrc) (v := .int 2147483648) (fine := true) (safec := false) (safel := true) (r := some (.val (.int 2147483648)))
    (by decide +kernel) (by decide +kernel)
    (fun _ _ h1 _ h3 => ⟨fineTest_ok (h1 rfl), h3 rfl⟩) (toks := [.p ['('], .num "2147483647".toList, .p ['+'], .num ['1'], .p [')']]) (by decide +kernel)
    (G.pair (p := ['+']) (k := 9) (by decide) (by decide) (G.num1 _ (by decide)) (G.num1 _ (by decide))) (by decide +kernel)
    (.inl fun x hx => by
      rw [show value noVars (.paren (.bin ['+'] (.num "2147483647".toList) (.num ['1']))) = none by decide +kernel] at hx
      cases hx)

theorem C54_false : ¬ C54_full :=
  not_both (src := divSrc) (v := .int 3) (fine := true) (safec := true) (safel := false) (r := none) (by decide +kernel) (by decide +kernel)
    (fun _ _ _ _ _ => trivial) (toks := [.p ['('], .num ['7'], .p ['/'], .num ['2'], .p [')']]) (by decide +kernel)
    (G.pair (p := ['/']) (k := 10) (by decide) (by decide) (G.num1 _ (by decide)) (G.num1 _ (by decide))) (by decide +kernel) (.inr (by decide))

/-- The two back ends do not shift negative numbers alike: `- 8 >> 1` is -4 in C, and a large number in LLVM, which is the documented one. -/
def shiftSrc : String := "x := - 8 >> 1\n"

theorem C54_shift_differs : ∃ c x, (∃ toks, tokensC shiftSrc = some toks ∧ G 1 toks c) ∧ value noVars c = some (.int .int (-4)) ∧
    valueL shiftSrc = some (.val (.int x)) ∧ x = 2 ^ 63 - 4 :=
  ⟨.paren (.bin ['>', '>'] (.un ['-'] (.paren (.num ['8']))) (.num ['1'])), _,
    ⟨_, by decide +kernel, G.pair (p := ['>', '>']) (k := 8) (tl := [.p ['-'], .p ['('], .num ['8'], .p [')']]) (tr := [.num ['1']]) (by decide) (by decide)
      (G.down (.un (by decide) (G.down (.paren (t := [.num ['8']]) (G.num1 0 (by decide))) 11 (by decide))) 8 (by decide)) (G.num1 _ (by decide))⟩,
    by decide +kernel, by decide +kernel, rfl⟩

/-- An expression with several operators. -/
def sumSrc : String := "x := 3 + 4 * 5 mod 6 << 2 ^ 3 - 7\n"

/-- The conditions of `C54_partial` hold for it. -/
example : (match firstExpr sumSrc with | some (e, _) => conditions e (.int 10) true true true | none => false) = true := by decide +kernel

example : textsOf sumSrc = some ["((3 + ((4 * 5) % 6)) << (_int_pow(2, 3) - 7))"] ∧ valueL sumSrc = some (.val (.int 10)) := by decide +kernel

end Skull
