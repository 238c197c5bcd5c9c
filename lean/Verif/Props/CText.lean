import Verif.Proofs.CText
import Verif.Proofs.CString
import Verif.Proofs.CheckedTree
import Verif.Proofs.LiteralStr
import Verif.Proofs.SemAccepted
import Verif.Props.Unused
/-
C50, C51: the C text of expressions.
-/
namespace Skull
open Spec Spec.C

/- ### C50 -/

/-- The text has exactly one reading by C's rules, and that is the expression. -/
def OneReading (syms : List Symbol) (fmtA : Nat → List Char) (e : AExpr) (text : List Char) : Prop :=
  ∃ toks c, lex text = some toks ∧ G 1 toks c ∧ (∀ k c', G k toks c' → c' = c) ∧ Reads syms fmtA e c

/-- The property as stated. -/
def C50_full : Prop :=
  ∀ (cfg : Cfg) (t : Tree) (a : ATree) (s : SS) (fmtA : Nat → List Char), Parsed t → semantic cfg t = .ok a s →
    (∀ bits, IsNum (fmtA bits) ∨ ∃ t, fmtA bits = '-' :: t ∧ IsNum t) →
    ∀ e ∈ a.exprs, ∀ dbg st, ∃ text st', genExprC ⟨s.syms, dbg, fmtA⟩ e st = some (text, st') ∧ OneReading s.syms fmtA e text

theorem WtNode.value {syms : List Symbol} {loop : Bool} {before : List Stmt} {ann : Ann} {stmt : Stmt} {child next : ATree} {e : AExpr}
    (h : WtNode syms loop before ann stmt child next) (he : ann.value = some e) : WtE syms e := by
  cases h <;> simp only [Ann.value, Option.some.injEq, reduceCtorEq] at he <;> (subst he; assumption)

theorem exprs_wt {syms : List Symbol} {e : AExpr} : ∀ {a : ATree} {loop : Bool} {before : List Stmt}, WtTree syms loop before a →
    e ∈ a.exprs → WtE syms e
  | .nil, _, _, _, he => by cases he
  | .unchecked _, _, _, _, he => by cases he
  | .node ann stmt tok child next, loop, before, hw, he => by
    cases hw with
    | node h1 h2 h3 =>
      unfold ATree.exprs at he
      simp only [List.mem_append, Option.mem_toList] at he
      rcases he with (he | he) | he
      · exact WtNode.value h1 he
      · exact exprs_wt h2 he
      · exact exprs_wt h3 he

/-- It holds for the expressions with names that are C identifiers, integers above the least one, floats that are neither infinite nor
NaN, strings of plain characters, and calls with as many arguments as parameters. -/
theorem C50_partial {cfg : Cfg} {t : Tree} {a : ATree} {s : SS} {dbg : Option (List Char)} {fmtA : Nat → List Char} (hp : Parsed t)
    (h : semantic cfg t = .ok a s) {e : AExpr} (he : e ∈ a.exprs) (hf : Fine s.syms fmtA e) (st : CState) :
    ∃ text st', genExprC ⟨s.syms, dbg, fmtA⟩ e st = some (text, st') ∧ OneReading s.syms fmtA e text := by
  obtain ⟨text, st', h1, _, ts, x, h2, h3, h4⟩ := reading_expr (exprs_wt (semantic_wt hp h).2 he) hf st
  exact ⟨text, st', h1, ts, x, h2.lex, h3.down 1 (by decide), fun k c' h' => h'.uniq h3, h4⟩

/-- The C texts of the expressions of a program. -/
def textsOf (src : String) : Option (List String) :=
  match checked sampleCfg src with
  | .ok a s => a.exprs.mapM fun e => (genExprC ⟨s.syms, none, fun _ => []⟩ e {}).map fun x => String.ofList x.1
  | _ => none

example : textsOf "x := 7\ny := 1 < x + 2 * x ^ x\nz := \"a\" is \"b\"\nf(p: Int, q: Bool) Int {\nreturn p\n}\nw := f(- x, not y)\n" =
    some ["7", "(1 < _int_pow(((x + 2) * x), x))", "_strcmp(\"a\", \"b\")", "p", "f(-(x), !y)"] := by decide +kernel

/-- No token is a keyword. -/
def NoKeyword (t : List Tok) : Prop := ∀ w, Tok.id w ∈ t → w ∉ keywords

theorem G.noKeyword {k : Nat} {t : List Tok} {e : Exp} (h : G k t e) : NoKeyword t := by
  induction h using G.rec (motive_2 := fun t _ _ => NoKeyword t) (motive_3 := fun t _ _ => NoKeyword t) with
  | up _ _ ih => exact ih
  | bin _ _ _ i1 i2 => intro w hw; simp at hw; exact hw.elim (i1 w) (i2 w)
  | un _ _ ih => intro w hw; simp at hw; exact ih w hw
  | call _ _ i1 i2 => intro w hw; simp at hw; exact hw.elim (i1 w) (i2 w)
  | id h => intro w hw; simp at hw; exact hw ▸ h
  | num => intro w hw; simp at hw
  | str => intro w hw; simp at hw
  | paren _ ih => intro w hw; simp at hw; exact ih w hw
  | none => intro w hw; simp at hw
  | some _ ih => exact ih
  | one _ ih => exact ih
  | cons _ _ i1 i2 => intro w hw; simp at hw; exact hw.elim (i1 w) (i2 w)

/-- A variable with the name of a C type. -/
def keywordName : String := "int := 1\nx := int + 1\n"

theorem C50_false : ¬ C50_full := by
  intro hf
  have hacc : acceptsSrc keywordName = true := by decide +kernel
  have key : (match checked sampleCfg keywordName with
      | .ok a s => match a.exprs[1]? with
        | some e => match genExprC ⟨s.syms, none, fun _ => ['0']⟩ e {} with
          | some (text, _) => match lex text with
            | some toks => decide (Tok.id "int".toList ∈ toks)
            | none => false
          | none => false
        | none => false
      | _ => false) = true := by decide +kernel
  split at key
  · rename_i a s hs
    split at key
    · rename_i e he
      obtain ⟨text, st', h1, toks, c, h2, h3, _⟩ := hf sampleCfg _ a s (fun _ => ['0']) (parsed_src hacc) hs
        (fun _ => .inl ⟨'0', [], rfl, rfl, rfl⟩) e (List.mem_of_getElem? he) none {}
      rw [h1] at key
      simp only [h2, decide_eq_true_eq] at key
      exact G.noKeyword h3 _ key (by decide)
    · cases key
  · cases key

/- ### C51 -/

/-- The text is a C string with these characters. -/
def IsCString (text : List Char) (s : List Nat) : Prop := ∃ t, lex text = some [.str t] ∧ C.Denotes t s

/-- The property as stated. -/
def C51_full : Prop :=
  ∀ (cfg : Cfg) (t : Tree) (a : ATree) (s : SS), Parsed t → semantic cfg t = .ok a s → ∀ e ∈ a.exprs, ∀ str, .str str ∈ e.values →
    ∀ dbg fmtA, IsCString (genConstC ⟨s.syms, dbg, fmtA⟩ (.str str)) str

theorem strRest_eq : ∀ (n : Nat) {s t r : List Char}, s.length ≤ n → strRest s = some (t, r) → s = t ++ '"' :: r
  | _, [], t, r, _, h => by simp [strRest] at h
  | n + 1, c :: s, t, r, hn, h => by
    unfold strRest at h
    split at h
    · rename_i hc
      cases h
      rw [hc]
      rfl
    · split at h
      · cases h
      · split at h
        · rename_i hc
          split at h
          · cases h
          · rename_i d s _
            split at h
            · cases h
            · rw [Option.map_eq_some_iff] at h
              obtain ⟨⟨a, b⟩, h, h'⟩ := h
              cases h'
              rw [strRest_eq n (by simp at hn; omega) h, hc]
              rfl
        · rw [Option.map_eq_some_iff] at h
          obtain ⟨⟨a, b⟩, h, h'⟩ := h
          cases h'
          rw [strRest_eq n (by simpa using hn) h]
          rfl

theorem lexN_nil : ∀ {n : Nat} {s : List Char}, lexN n s = some [] → ∀ c ∈ s, isSpace c = true
  | _, [], _ => fun c h => by cases h
  | 0, _ :: _, h => by simp [lexN] at h
  | n + 1, c :: s, h => by
    unfold lexN at h
    split at h
    · rename_i hc
      intro d hd
      rcases List.mem_cons.1 hd with rfl | hd
      · exact hc
      · exact lexN_nil h d hd
    · repeat' split at h
      all_goals first | (cases h; done) | (rw [Option.map_eq_some_iff] at h; obtain ⟨_, _, h⟩ := h; cases h)

theorem denotes_len {t : List Char} {s : List Nat} (h : C.Denotes t s) : s.length ≤ t.length := by
  induction h with
  | nil => exact Nat.le_refl _
  | cons h _ ih =>
    rcases strChar_len h with ⟨c, rfl, _⟩ | h
    · simp only [List.length_cons]; omega
    · simp only [List.length_cons]; omega

theorem denotes_same {t : List Char} {s : List Nat} (h : C.Denotes t s) (hl : s.length = t.length) : ∀ c ∈ t, c ≠ '"' ∧ c ≠ '\n' ∧ c ≠ '\\' := by
  induction h with
  | nil => exact fun c h => by cases h
  | cons h h' ih =>
    have hl' := denotes_len h'
    rcases strChar_len h with ⟨c, rfl, rfl, h1⟩ | h
    · intro d hd
      rcases List.mem_cons.1 hd with rfl | hd
      · exact h1
      · exact ih (by simpa using hl) d hd
    · simp only [List.length_cons] at hl; omega

/-- The text of a string is a C string with these characters exactly if there is no quote, no
backslash and no newline among them. -/
theorem C51_partial {syms : List Symbol} {dbg : Option (List Char)} {fmtA : Nat → List Char} {s : List Nat} (hs : ∀ c ∈ s, c.isValidChar) :
    IsCString (genConstC ⟨syms, dbg, fmtA⟩ (.str s)) s ↔ ∀ c ∈ s, c ≠ 34 ∧ c ≠ 92 ∧ c ≠ 10 := by
  constructor
  · rintro ⟨t, h1, h2⟩
    have h1 : lexN (s.length + 1 + 1) ('"' :: (s.map Char.ofNat ++ ['"'])) = some [.str t] := by
      have e : genConstC ⟨syms, dbg, fmtA⟩ (.str s) = '"' :: (s.map Char.ofNat ++ ['"']) := rfl
      rw [e] at h1
      unfold lex at h1
      simpa using h1
    unfold lexN at h1
    rw [if_neg (by decide), if_neg (by decide), if_neg (by decide), if_pos rfl] at h1
    split at h1
    · rename_i t' r hr
      rw [Option.map_eq_some_iff] at h1
      obtain ⟨ts, h3, h4⟩ := h1
      cases h4
      have h5 := strRest_eq _ (Nat.le_refl _) hr
      have h6 := lexN_nil h3
      have h7 : r = [] := by
        rcases r.eq_nil_or_concat with h | ⟨r', x, rfl⟩
        · exact h
        · exfalso
          have : (s.map Char.ofNat ++ ['"']).getLast? = some x := by rw [h5, List.concat_eq_append, ← List.cons_append, ← List.append_assoc, List.getLast?_concat]
          simp at this
          subst this
          have := h6 '"' (by simp)
          revert this; decide
      subst h7
      have h8 : t = s.map Char.ofNat := by
        have := congrArg List.dropLast h5
        simpa using this.symm
      subst h8
      intro c hc
      obtain ⟨k1, k2, k3⟩ := denotes_same h2 (by simp) (Char.ofNat c) (List.mem_map_of_mem hc)
      refine ⟨?_, ?_, ?_⟩
      · rintro rfl; exact k1 rfl
      · rintro rfl; exact k3 rfl
      · rintro rfl; exact k2 rfl
    · cases h1
  · intro h
    obtain ⟨_, ts, x, h2, h3, h4⟩ := reading_const (dbg := dbg) (syms := syms) (fmtA := fmtA) (tok := default) (v := .str s) fun c hc => ⟨hs c hc, h c hc⟩
    obtain ⟨h5, h6⟩ := C.denotes_plain s fun c hc => ⟨hs c hc, h c hc⟩
    exact ⟨s.map Char.ofNat, (Lx.str h6).lex, h5⟩

mutual
theorem values_wt {syms : List Symbol} {v : Value} : ∀ {e : AExpr}, WtE syms e → v ∈ e.values → ∃ t, ConstOk t v
  | .ident .., _, hv => by simp [AExpr.values] at hv
  | .const t w, h, hv => by
    simp [AExpr.values] at hv
    subst hv
    cases h with
    | const h => exact ⟨t, h⟩
  | .call _ args _ _, h, hv => by
    unfold AExpr.values at hv
    cases h with
    | call _ _ _ h => exact values_args h hv
  | .un _ r _ _, h, hv => by
    unfold AExpr.values at hv
    cases h with
    | un _ h => exact values_wt h hv
    | ref h => simp [AExpr.values] at hv
    | deref h => simp [AExpr.values] at hv
  | .bin _ l r _ _, h, hv => by
    unfold AExpr.values at hv
    cases h with
    | bin h1 h2 => exact (List.mem_append.1 hv).elim (values_wt h1) (values_wt h2)
theorem values_args {syms : List Symbol} {v : Value} : ∀ {args : AArgs} {tys : List Ty}, WtA syms tys args → v ∈ args.values → ∃ t, ConstOk t v
  | .nil, _, _, hv => by simp [AArgs.values] at hv
  | .unchecked _, _, _, hv => by simp [AArgs.values] at hv
  | .cons _ e next, _, h, hv => by
    unfold AArgs.values at hv
    cases h with
    | cons h1 _ h2 => exact (List.mem_append.1 hv).elim (values_wt h1) (values_args h2)
end

theorem scalar_valid {c : Nat} (h : isScalar c = true) : c.isValidChar := by
  rcases (isScalar_iff c).1 h with h | ⟨h1, h2⟩
  · exact .inl (by omega)
  · exact .inr ⟨by omega, by omega⟩

/-- In an accepted program: the text of each string is a C string with the same characters exactly if there is no quote, no backslash
and no newline among them. -/
theorem C51_program_partial {cfg : Cfg} {t : Tree} {a : ATree} {s : SS} (hp : Parsed t) (h : semantic cfg t = .ok a s) {e : AExpr}
    (he : e ∈ a.exprs) {str : List Nat} (hs : .str str ∈ e.values) (dbg : Option (List Char)) (fmtA : Nat → List Char) :
    IsCString (genConstC ⟨s.syms, dbg, fmtA⟩ (.str str)) str ↔ ∀ c ∈ str, c ≠ 34 ∧ c ≠ 92 ∧ c ≠ 10 := by
  obtain ⟨t, ht⟩ := values_wt (exprs_wt (semantic_wt hp h).2 he) hs
  exact C51_partial fun c hc => scalar_valid (ht c hc).1

/-- A string with a backslash. -/
def backslashSrc : String := "x := \"a\\\\n\"\n"

theorem C51_false : ¬ C51_full := by
  intro hf
  have hacc : acceptsSrc backslashSrc = true := by decide +kernel
  have key : (match checked sampleCfg backslashSrc with
      | .ok a _ => match a.exprs[0]? with
        | some e => decide (Value.str [97, 92, 110] ∈ e.values)
        | none => false
      | _ => false) = true := by decide +kernel
  split at key
  · rename_i a s hs
    split at key
    · rename_i e he
      have hm := List.mem_of_getElem? he
      have hv := of_decide_eq_true key
      have h1 := hf sampleCfg _ a s (parsed_src hacc) hs e hm _ hv none fun _ => []
      have h2 := (C51_program_partial (parsed_src hacc) hs hm hv none fun _ => []).1 h1 92 (by simp)
      exact h2.2.1 rfl
    · cases key
  · cases key

example : textsOf "x := \"plain text\"\n" = some ["\"plain text\""] := by decide +kernel

/-- The C compiler reads another string: the backslash and the letter are a newline. -/
example : textsOf backslashSrc = some ["\"a\\n\""] := by decide +kernel

end Skull
