import Verif.Proofs.ReformText
import Verif.Props.Driver
import Verif.Spec.Render
/-
C88: spaces and places make no difference to what is compiled.
-/
namespace Skull
open Spec

/-- Full statement of C88: without `-g`, two files whose tokens have the same kinds and the same texts, one by one, are compiled alike:
the same exit code, diagnostics, files, output and commands, in the same order. -/
def C88_full : Prop := ∀ (sys : Sys) (b : BuildData) (f : List Char) (contents contents' : List UInt8) (src src' : List Char)
  (toks toks' : List Token), mbstoc32s contents = some src → mbstoc32s contents' = some src' →
  TokensOf b.werror src toks → TokensOf b.werror src' toks' → bomDiags src = bomDiags src' → b.debug = false →
  Paired SameText toks toks' → runPipeline sys b f contents = runPipeline sys b f contents'

/-- The same for tokens that mean the same: the texts of literals are compared by their values. -/
theorem C88_meaning (sys : Sys) (b : BuildData) (f : List Char) (contents contents' : List UInt8) (src src' : List Char)
    (toks toks' : List Token) (h1 : mbstoc32s contents = some src) (h1' : mbstoc32s contents' = some src')
    (h2 : TokensOf b.werror src toks) (h2' : TokensOf b.werror src' toks') (hb : bomDiags src = bomDiags src') (hd : b.debug = false)
    (h : Paired SameMeaning toks toks') : runPipeline sys b f contents = runPipeline sys b f contents' :=
  Reform.run_eq h1 h1' h2 h2' hb hd h

/-- What holds: C88 if no integer with a base prefix is followed by some character and an underscore, in both texts (see C11). -/
theorem C88_partial (sys : Sys) (b : BuildData) (f : List Char) (contents contents' : List UInt8) (src src' : List Char)
    (toks toks' : List Token) (h1 : mbstoc32s contents = some src) (h1' : mbstoc32s contents' = some src')
    (h2 : TokensOf b.werror src toks) (h2' : TokensOf b.werror src' toks') (hb : bomDiags src = bomDiags src') (hd : b.debug = false)
    (h : Paired SameText toks toks') (hu : ∀ t ∈ toks, ClearOfUnderscore t) (hu' : ∀ t ∈ toks', ClearOfUnderscore t) :
    runPipeline sys b f contents = runPipeline sys b f contents' :=
  C88_meaning sys b f contents contents' src src' toks toks' h1 h1' h2 h2' hb hd
    (Reform.paired_meaning h2 h2' h (fun _ h => h) (fun _ h => h) hu hu')

/-- The same for whole runs: replacing the source by another one with the same tokens changes neither the exit code nor anything that a
run does. -/
theorem C88_run_partial (sys : Sys) (read' : List Char → Option (List UInt8)) (args : List (List Char)) (b : BuildData)
    (hb : cliMain sys.colorEnv args = .run b) (hd : b.debug = false) (file file' bytes bytes' : List UInt8) (src src' : List Char)
    (toks toks' : List Token) (hr : sys.read (b.filename.getD []) = some file) (hr' : read' (b.filename.getD []) = some file')
    (hf : fileToString file = some bytes) (hf' : fileToString file' = some bytes') (h1 : mbstoc32s (cString bytes) = some src)
    (h1' : mbstoc32s (cString bytes') = some src') (h2 : TokensOf b.werror src toks) (h2' : TokensOf b.werror src' toks')
    (hbom : bomDiags src = bomDiags src') (h : Paired SameText toks toks') (hu : ∀ t ∈ toks, ClearOfUnderscore t)
    (hu' : ∀ t ∈ toks', ClearOfUnderscore t) : skull sys args = skull { sys with read := read' } args := by
  have e : runPipeline sys b (b.filename.getD []) (cString bytes) = runPipeline sys b (b.filename.getD []) (cString bytes') :=
    C88_partial sys b _ _ _ _ _ _ _ h1 h1' h2 h2' hbom hd h hu hu'
  have e' : runPipeline { sys with read := read' } b (b.filename.getD []) (cString bytes') = runPipeline sys b (b.filename.getD []) (cString bytes') := rfl
  simp only [skull, hb, compileFile, hr, hr', hf, hf']
  rw [e, e']

/-! ### Examples -/

/-- The tokens of a text are related to those of another. -/
def allPaired (r : Token → Token → Bool) : List Token → List Token → Bool
  | [], [] => true
  | t :: ts, t' :: ts' => r t t' && allPaired r ts ts'
  | _, _ => false

theorem paired_of {R : Token → Token → Prop} {r : Token → Token → Bool} (hr : ∀ a b, r a b = true → R a b) :
    ∀ l l', allPaired r l l' = true → Paired R l l'
  | [], [], _ => .nil
  | a :: l, b :: l', h => by
    simp only [allPaired, Bool.and_eq_true] at h
    exact .cons (hr a b h.1) (paired_of hr l l' h.2)
  | [], _ :: _, h => by cases h
  | _ :: _, [], h => by cases h

def sameText (t t' : Token) : Bool := decide (t.ty = t'.ty) && decide (tokenToString t = tokenToString t')

theorem sameText_of (a b : Token) (h : sameText a b = true) : SameText a b := by
  simp only [sameText, Bool.and_eq_true, decide_eq_true_eq] at h
  exact h

def clearOf (t : Token) : Bool :=
  match t.begin with
  | none => true
  | some b => decide ((b.drop t.len)[1]? ≠ some '_')

theorem clearOf_of {t : Token} (h : clearOf t = true) : ClearOfUnderscore t := by
  intro _ b hb
  rw [clearOf, hb] at h
  exact .inl (of_decide_eq_true h)

/-- The tokens of a text, as a value. -/
def tokensOf (w : Bool) (src : String) : Option (List Token) :=
  match tokenize w src.toList with
  | some (.ok ts) => classifyTokens ts
  | _ => none

theorem tokensOf_ok {w : Bool} {src : String} {toks : List Token} (h : tokensOf w src = some toks) : TokensOf w src.toList toks := by
  unfold tokensOf at h
  split at h
  · rename_i ts ht
    exact ⟨ts, ht, h⟩
  · cases h

theorem tokensOf_get {w : Bool} {src : String} (h : (tokensOf w src).isSome = true) : TokensOf w src.toList ((tokensOf w src).getD []) := by
  cases e : tokensOf w src with
  | none => rw [e] at h; cases h
  | some toks => exact tokensOf_ok e

/-- Two texts with the same tokens. -/
def sameTokens (a b : String) : Bool :=
  (tokensOf false a).isSome && (tokensOf false b).isSome && allPaired sameText ((tokensOf false a).getD []) ((tokensOf false b).getD []) &&
    decide (mbstoc32s (asciiBytes a) = some a.toList) && decide (mbstoc32s (asciiBytes b) = some b.toList) &&
    decide (bomDiags a.toList = bomDiags b.toList)

/-- All integers of both texts are clear of underscores. -/
def clearTexts (a b : String) : Bool := ((tokensOf false a).getD []).all clearOf && ((tokensOf false b).getD []).all clearOf

theorem alike {a b : String} (h : sameTokens a b = true) (hc : clearTexts a b = true) (sys : Sys) (bd : BuildData) (hw : bd.werror = false)
    (hd : bd.debug = false) (f : List Char) : runPipeline sys bd f (asciiBytes a) = runPipeline sys bd f (asciiBytes b) := by
  simp only [sameTokens, Bool.and_eq_true, decide_eq_true_eq] at h
  simp only [clearTexts, Bool.and_eq_true, List.all_eq_true] at hc
  obtain ⟨⟨⟨⟨⟨h1, h2⟩, h3⟩, h4⟩, h5⟩, h6⟩ := h
  exact C88_partial sys bd f _ _ _ _ _ _ h4 h5 (by rw [hw]; exact tokensOf_get h1) (by rw [hw]; exact tokensOf_get h2) h6 hd (paired_of sameText_of _ _ h3)
    (fun t ht => clearOf_of (hc.1 t ht)) (fun t ht => clearOf_of (hc.2 t ht))

def tight : String := "f(x: Int) {\ny := x + 1\nz := y\n}\nif true {\nf(0x1F)\n}\n"
def wide : String := "f( x:   Int )   {\n  y :=   x   +  1 \n\tz  := y\n}\nif   true   {\n\tf(  0x1F )\n }\n"

example (sys : Sys) (b : BuildData) (hw : b.werror = false) (hd : b.debug = false) (f : List Char) :
    runPipeline sys b f (asciiBytes tight) = runPipeline sys b f (asciiBytes wide) :=
  alike (by decide +kernel) (by decide +kernel) sys b hw hd f

/- It is a program that is compiled. -/
example : ranWith (world tight) ["a.sk", "--c-backend"] 0 (fun acts => acts.any (isWrite ".a.sk.c".toList)) = true := by decide +kernel

example : skull (world tight) (argv ["a.sk", "--c-backend"]) = skull { world tight with read := (world wide).read } (argv ["a.sk", "--c-backend"]) := by
  have h : sameTokens tight wide = true := by decide +kernel
  have hc : clearTexts tight wide = true := by decide +kernel
  simp only [sameTokens, Bool.and_eq_true, decide_eq_true_eq] at h
  simp only [clearTexts, Bool.and_eq_true, List.all_eq_true] at hc
  obtain ⟨⟨⟨⟨⟨h1, h2⟩, h3⟩, h4⟩, h5⟩, h6⟩ := h
  exact C88_run_partial (world tight) (world wide).read (argv ["a.sk", "--c-backend"]) { filename := some "a.sk".toList, cBackend := true } (by decide +kernel) rfl
    (asciiBytes tight) (asciiBytes wide) (asciiBytes tight) (asciiBytes wide) _ _ _ _ (by decide +kernel) (by decide +kernel) (by decide +kernel)
    (by decide +kernel) ((by decide +kernel : mbstoc32s (cString (asciiBytes tight)) = some tight.toList))
    ((by decide +kernel : mbstoc32s (cString (asciiBytes wide)) = some wide.toList)) (tokensOf_get h1) (tokensOf_get h2) h6 (paired_of sameText_of _ _ h3)
    (fun t ht => clearOf_of (hc.1 t ht)) (fun t ht => clearOf_of (hc.2 t ht))

/- One that is refused. -/
example (sys : Sys) (b : BuildData) (hw : b.werror = false) (hd : b.debug = false) (f : List Char) :
    runPipeline sys b f (asciiBytes "x := y\n") = runPipeline sys b f (asciiBytes "  x :=  y\n") :=
  alike (by decide +kernel) (by decide +kernel) sys b hw hd f

def near : String := "x := 0x1\n_# hi\n"
def apart : String := "x := 0x1 \n_# hi\n"

/-- C88 is false in full: a space behind `0x1` moves an underscore on the next line out of reach of `eval_integer`, which reads past the
end of the number, and steps over the end of its copy if the last character of that is an underscore (C11). -/
theorem C88_false : ¬ C88_full := by
  intro h
  have hs : sameTokens near apart = true := by decide +kernel
  simp only [sameTokens, Bool.and_eq_true, decide_eq_true_eq] at hs
  obtain ⟨⟨⟨⟨⟨h1, h2⟩, h3⟩, h4⟩, h5⟩, h6⟩ := hs
  have := h (world near) { cBackend := true } "a.sk".toList _ _ _ _ _ _ h4 h5 (tokensOf_get h1) (tokensOf_get h2) h6 rfl (paired_of sameText_of _ _ h3)
  have e1 : (runPipeline (world near) { cBackend := true } "a.sk".toList (asciiBytes near)).isNone = true := by decide +kernel
  have e2 : (runPipeline (world near) { cBackend := true } "a.sk".toList (asciiBytes apart)).isNone = false := by decide +kernel
  rw [this, e2] at e1
  cases e1

end Skull
