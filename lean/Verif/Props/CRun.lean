import Verif.Proofs.CSimMain
import Verif.Proofs.Defs
import Verif.Props.CFile
import Verif.Props.Run
/-
C70: what the code of the C back end does is what the program does.
-/
namespace Skull
open Spec Spec.C

/- ### C70 -/

/-- The file is what stands before the program, and a C program: C's grammar reads the text in exactly one way; C takes it; and if enough
steps are allowed it comes to its end, with this result. -/
def CEnds {ω : Type} (F : Floats) (dbl : List Char → Option Nat) (ext : List Char → List Val → ω → Option (Val × ω)) (a : ATree) (file : List Char) (w : ω)
    (r : Int × ω) : Prop :=
  ∃ text toks items, file = runTimeText a ++ text ∧ lex text = some toks ∧ GUnit toks items ∧ (∀ items', GUnit toks items' → items' = items) ∧
    ∃ m, ∀ n, m ≤ n → runC ⟨F, dbl, ext, items⟩ n w = some r

/-- Translation to C keeps the meaning of programs, with this arithmetic, for the checked trees and results with property `P`, if C reads the texts of
floating point constants as what they were written for, and external functions give values of their types. -/
def KeepsMeaningC (A : Floats → Arith) (P : Floats → List Symbol → (Nat → List Char) → List Char → ATree → Int → Prop) : Prop :=
  ∀ (ω : Type) (F : Floats) (dbl : List Char → Option Nat) (ext : List Char → List Val → ω → Option (Val × ω)) (cfg : Cfg) (t : Tree) (a : ATree) (s : SS)
    (fmtA : Nat → List Char) (main : List Char) (r : Option (List Char) × CState) (n : Nat) (w : ω) (i : Int) (w' : ω),
    Parsed t → semantic cfg t = .ok a s → genModuleC ⟨s.syms, none, fmtA⟩ a = some r →
    (∀ e ∈ a.exprs, FloatTexts fmtA ⟨fun _ => none, F, dbl⟩ e) → ExtTyped s.syms ext → P F s.syms fmtA main a i →
    runProgram ⟨A F, ext, s.syms, a⟩ n w = some (i, w') → CEnds F dbl ext a (fileC ⟨s.syms, none, fmtA⟩ main r.1 r.2) w (i, w')

/-- The property as stated: with the documented arithmetic, for all programs. -/
def C70_full : Prop := KeepsMeaningC docArith fun _ _ _ _ _ _ => True

/-- It holds for the arithmetic that C can do, for programs that fit, if their text can be written in C and the result is an `int`. -/
theorem C70_partial : KeepsMeaningC cArith fun F syms fmtA main a i =>
    FineTree syms fmtA a ∧ PlainText main ∧ C.fits F syms a = true ∧ isInt32 i = true := by
  intro ω F dbl ext cfg t a s fmtA main r n w i w' hp h hr htx hx ⟨hf, hm, hfit, h32⟩ hrun
  obtain ⟨text, toks, items, h1, h2, h3, h4, ss, its, h5, h6⟩ := C69_partial hp h hr hf hm
  exact ⟨text, toks, items, h1, h2, h3, h4,
    CSim.run_simulated (c := ⟨cArith F, ext, s.syms, a⟩) (d := ⟨F, dbl, ext, items⟩) (fmtA := fmtA) (main := main) rfl rfl rfl hx h5 h6 hfit (semantic_wt hp h).2
      (semantic_defs hp h).1 htx hrun h32⟩

/-- What the C program gives does not depend on the number of steps. -/
theorem C70_result {ω : Type} {c : CRunCtx ω} {n n' : Nat} {w : ω} {r r' : Int × ω} (h : runC c n w = some r) (h' : runC c n' w = some r') : r = r' := by
  rcases Nat.le_total n n' with hn | hn
  · rw [runC_mono h hn] at h'; cases h'; rfl
  · rw [runC_mono h' hn] at h; cases h; rfl

/- #### Reading C programs, for the examples -/

theorem G.down {k j t e} (h : G j t e) (hk : k ≤ j) (hj : j ≤ 13) : G k t e := by
  induction hk with
  | refl => exact h
  | step _ ih => exact ih (.up (by omega) h) (by omega)

mutual
/-- The tokens of an expression. -/
def toksE : Exp → List Tok
  | .id s => [.id s]
  | .num s => [.num s]
  | .str s => [.str s]
  | .paren e => .p ['('] :: (toksE e ++ [.p [')']])
  | .call f args => toksE f ++ .p ['('] :: (toksA args ++ [.p [')']])
  | .un p e => .p p :: toksE e
  | .bin p l r => toksE l ++ .p p :: toksE r
def toksA : Exps → List Tok
  | .nil => []
  | .cons e .nil => toksE e
  | .cons e next => toksE e ++ .p [','] :: toksA next
end

mutual
/-- C reads the tokens as the expression, at this level. -/
def readsE (k : Nat) : Exp → Bool
  | .id s => decide (k ≤ 13) && decide (s ∉ keywords)
  | .num _ | .str _ => decide (k ≤ 13)
  | .paren e => decide (k ≤ 13) && readsE 0 e
  | .call f args => decide (k ≤ 12) && readsE 12 f && readsA args
  | .un p e => decide (k ≤ 11) && isPrefix p && readsE 11 e
  | .bin p l r => match binPrec p with | some j => decide (k ≤ j) && decide (j ≤ 13) && readsE j l && readsE (j + 1) r | none => false
def readsA : Exps → Bool
  | .nil => true
  | .cons e next => readsE 1 e && readsA next
end

mutual
theorem readsE_ok : ∀ {e : Exp} {k}, readsE k e = true → G k (toksE e) e
  | .id s, k, h => by
    simp only [readsE, Bool.and_eq_true, decide_eq_true_eq] at h
    exact G.down (.id h.2) h.1 (Nat.le_refl _)
  | .num s, k, h => by
    simp only [readsE, decide_eq_true_eq] at h
    exact G.down .num h (Nat.le_refl _)
  | .str s, k, h => by
    simp only [readsE, decide_eq_true_eq] at h
    exact G.down .str h (Nat.le_refl _)
  | .paren e, k, h => by
    simp only [readsE, Bool.and_eq_true, decide_eq_true_eq] at h
    exact G.down (.paren (readsE_ok h.2)) h.1 (Nat.le_refl _)
  | .call f args, k, h => by
    simp only [readsE, Bool.and_eq_true, decide_eq_true_eq] at h
    refine G.down (.call (readsE_ok h.1.2) ?_) h.1.1 (by omega)
    rcases readsA_ok h.2 with rfl | h
    · exact .none
    · exact .some h
  | .un p e, k, h => by
    simp only [readsE, Bool.and_eq_true, decide_eq_true_eq] at h
    exact G.down (.un h.1.2 (readsE_ok h.2)) h.1.1 (by omega)
  | .bin p l r, k, h => by
    simp only [readsE] at h
    split at h
    · rename_i j hj
      simp only [Bool.and_eq_true, decide_eq_true_eq] at h
      exact G.down (.bin hj (readsE_ok h.1.2) (readsE_ok h.2)) h.1.1.1 h.1.1.2
    · cases h
theorem readsA_ok : ∀ {args : Exps}, readsA args = true → args = .nil ∨ GList (toksA args) args
  | .nil, _ => .inl rfl
  | .cons e .nil, h => by
    simp only [readsA, Bool.and_eq_true] at h
    unfold toksA
    exact .inr (.one (readsE_ok h.1))
  | .cons e (.cons e' next), h => by
    rw [readsA, Bool.and_eq_true] at h
    rw [toksA]
    · rcases readsA_ok h.2 with h' | h'
      · cases h'
      · exact .inr (.cons (readsE_ok h.1) h')
    · intro h; cases h
end

def toksT : CType → List Tok
  | .base s => [.id s]
  | .ptr t => toksT t ++ [.p ['*']]

def readsT : CType → Bool
  | .base s => decide (s ∈ C.typeNames)
  | .ptr t => readsT t

theorem readsT_ok : ∀ {t : CType}, readsT t = true → GType (toksT t) t
  | .base s, h => .base (by simpa [readsT] using h)
  | .ptr t, h => .ptr (readsT_ok h)

def identB (x : List Char) : Bool := decide (x ∉ keywords) && decide (x ∉ C.typeNames)

theorem identB_ok {x} (h : identB x = true) : IsIdent x := by simpa [identB, IsIdent] using h

def toksSimple : Simple → List Tok
  | .decl c ty x e => opt c "const" ++ toksT ty ++ .id x :: pn "=" :: (toksE e ++ [pn ";"])
  | .assign x e => .id x :: pn "=" :: (toksE e ++ [pn ";"])
  | .expr e => toksE e ++ [pn ";"]
  | .skip => [pn "(", kw "void", pn ")", .num ['0'], pn ";"]
  | .ret none => [kw "return", pn ";"]
  | .ret (some e) => kw "return" :: (toksE e ++ [pn ";"])
  | .breaks => [kw "break", pn ";"]
  | .continues => [kw "continue", pn ";"]

def readsSimple : Simple → Bool
  | .decl _ ty x e => readsT ty && identB x && readsE 1 e
  | .assign x e => identB x && readsE 1 e
  | .expr e => readsE 0 e && C.typeNames.all fun s => (toksE e).head? ≠ some (.id s)
  | .ret (some e) => readsE 0 e
  | _ => true

theorem readsSimple_ok {s} (h : readsSimple s = true) : GSimple (toksSimple s) s := by
  cases s with
  | decl c ty x e =>
    simp only [readsSimple, Bool.and_eq_true] at h
    exact .decl (readsT_ok h.1.1) (identB_ok h.1.2) (readsE_ok h.2)
  | assign x e =>
    simp only [readsSimple, Bool.and_eq_true] at h
    exact .assign (identB_ok h.1) (readsE_ok h.2)
  | expr e =>
    simp only [readsSimple, Bool.and_eq_true, List.all_eq_true, decide_eq_true_eq] at h
    exact .expr (readsE_ok h.1) h.2
  | skip => exact .skip
  | ret e =>
    cases e with
    | none => exact .ret
    | some e => exact .retValue (readsE_ok h)
  | breaks => exact .breaks
  | continues => exact .continues

/-- The tokens of statements; every `else` that is not empty is written as `else { … }`. -/
def toksS : Stms → List Tok
  | .nil => []
  | .simple s next => toksSimple s ++ toksS next
  | .ifs e b .nil next => kw "if" :: pn "(" :: (toksE e ++ pn ")" :: pn "{" :: (toksS b ++ pn "}" :: toksS next))
  | .ifs e b els next =>
    kw "if" :: pn "(" :: (toksE e ++ pn ")" :: pn "{" :: (toksS b ++ pn "}" :: ((kw "else" :: pn "{" :: (toksS els ++ [pn "}"])) ++ toksS next)))
  | .whiles e b next => kw "while" :: pn "(" :: (toksE e ++ pn ")" :: pn "{" :: (toksS b ++ pn "}" :: toksS next))
  | .block b next => pn "{" :: (toksS b ++ pn "}" :: toksS next)

def readsS : Stms → Bool
  | .nil => true
  | .simple s next => readsSimple s && readsS next
  | .ifs e b els next => readsE 0 e && readsS b && readsS els && readsS next
  | .whiles e b next => readsE 0 e && readsS b && readsS next
  | .block b next => readsS b && readsS next

theorem readsS_ok : ∀ {s : Stms}, readsS s = true → GS (toksS s) s
  | .nil, _ => .nil
  | .simple s next, h => by
    simp only [readsS, Bool.and_eq_true] at h
    exact .simple (readsSimple_ok h.1) (readsS_ok h.2)
  | .ifs e b .nil next, h => by
    simp only [readsS, Bool.and_eq_true] at h
    exact .ifs (te := []) (readsE_ok h.1.1.1) (readsS_ok h.1.1.2) .none (readsS_ok h.2)
  | .ifs e b (.simple s n) next, h => by
    rw [readsS] at h
    simp only [Bool.and_eq_true] at h
    exact .ifs (readsE_ok h.1.1.1) (readsS_ok h.1.1.2) (.els (readsS_ok h.1.2)) (readsS_ok h.2)
  | .ifs e b (.ifs e' b' els' n) next, h => by
    rw [readsS] at h
    simp only [Bool.and_eq_true] at h
    exact .ifs (readsE_ok h.1.1.1) (readsS_ok h.1.1.2) (.els (readsS_ok h.1.2)) (readsS_ok h.2)
  | .ifs e b (.whiles e' b' n) next, h => by
    rw [readsS] at h
    simp only [Bool.and_eq_true] at h
    exact .ifs (readsE_ok h.1.1.1) (readsS_ok h.1.1.2) (.els (readsS_ok h.1.2)) (readsS_ok h.2)
  | .ifs e b (.block b' n) next, h => by
    rw [readsS] at h
    simp only [Bool.and_eq_true] at h
    exact .ifs (readsE_ok h.1.1.1) (readsS_ok h.1.1.2) (.els (readsS_ok h.1.2)) (readsS_ok h.2)
  | .whiles e b next, h => by
    simp only [readsS, Bool.and_eq_true] at h
    exact .whiles (readsE_ok h.1.1) (readsS_ok h.1.2) (readsS_ok h.2)
  | .block b next, h => by
    simp only [readsS, Bool.and_eq_true] at h
    exact .block (readsS_ok h.1) (readsS_ok h.2)

def toksParams : List (CType × List Char) → List Tok
  | [] => []
  | [(ty, x)] => toksT ty ++ [.id x]
  | (ty, x) :: ps => toksT ty ++ .id x :: pn "," :: toksParams ps

def readsParams (ps : List (CType × List Char)) : Bool := ps.all fun p => readsT p.1 && identB p.2

theorem readsParams_ok : ∀ {p : CType × List Char} {ps}, readsParams (p :: ps) = true → GParamList (toksParams (p :: ps)) (p :: ps)
  | (ty, x), [], h => by
    simp only [readsParams, List.all_cons, Bool.and_eq_true] at h
    exact .one (readsT_ok h.1.1) (identB_ok h.1.2)
  | (ty, x), q :: ps, h => by
    rw [readsParams, List.all_cons, Bool.and_eq_true, Bool.and_eq_true] at h
    exact .cons (readsT_ok h.1.1) (identB_ok h.1.2) (readsParams_ok h.2)

def toksP (ps : List (CType × List Char)) : List Tok := if ps.isEmpty then [kw "void"] else toksParams ps

theorem toksP_ok {ps} (h : readsParams ps = true) : GParams (toksP ps) ps := by
  cases ps with
  | nil => exact .none
  | cons p ps => exact .some (readsParams_ok h)

def toksL : Option (List Char) → List Tok
  | none => []
  | some s => [.id "__asm__".toList, pn "(", .str s, pn ")"]

theorem toksL_ok {l} : GLink (toksL l) l := by cases l; exact .none; exact .some

def toksN : Option Exp → List Tok
  | none => []
  | some e => pn "=" :: toksE e

theorem toksN_ok {e} (h : e.all (readsE 1) = true) : GInit (toksN e) e := by
  cases e with
  | none => exact .none
  | some e => exact .some (readsE_ok h)

/-- The tokens of a program. -/
def toksU : List C.Item → List Tok
  | [] => []
  | .object st c ty x link init :: next => opt st "static" ++ opt c "const" ++ toksT ty ++ .id x :: (toksL link ++ toksN init ++ pn ";" :: toksU next)
  | .proto st ty f ps link :: next => opt st "static" ++ toksT ty ++ .id f :: pn "(" :: (toksP ps ++ pn ")" :: (toksL link ++ pn ";" :: toksU next))
  | .func st ty f ps b :: next => opt st "static" ++ toksT ty ++ .id f :: pn "(" :: (toksP ps ++ pn ")" :: pn "{" :: (toksS b ++ pn "}" :: toksU next))

def readsU : List C.Item → Bool
  | [] => true
  | .object _ _ ty x _ init :: next => readsT ty && identB x && init.all (readsE 1) && readsU next
  | .proto _ ty f ps _ :: next => readsT ty && identB f && readsParams ps && readsU next
  | .func _ ty f ps b :: next => readsT ty && identB f && readsParams ps && readsS b && readsU next

theorem readsU_ok : ∀ {items : List C.Item}, readsU items = true → GUnit (toksU items) items
  | [], _ => .nil
  | .object .. :: _, h => by
    simp only [readsU, Bool.and_eq_true] at h
    exact .object (readsT_ok h.1.1.1) (identB_ok h.1.1.2) toksL_ok (toksN_ok h.1.2) (readsU_ok h.2)
  | .proto .. :: _, h => by
    simp only [readsU, Bool.and_eq_true] at h
    exact .proto (readsT_ok h.1.1.1) (identB_ok h.1.1.2) (toksP_ok h.1.2) toksL_ok (readsU_ok h.2)
  | .func .. :: _, h => by
    simp only [readsU, Bool.and_eq_true] at h
    exact .func (readsT_ok h.1.1.1.1) (identB_ok h.1.1.1.2) (toksP_ok h.1.1.2) (readsS_ok h.1.2) (readsU_ok h.2)

/-- The source gives this result, and this C program. -/
def bothC (A : Floats → Arith) (src : String) (n : Nat) (r : Int × List (List Char × List Val)) (items : List C.Item) : Bool :=
  match checked sampleCfg src with
  | .ok a s =>
    match genModuleC ⟨s.syms, none, fun _ => ['0']⟩ a with
    | some m =>
      decide (runProgram ⟨A noFloats, noting, s.syms, a⟩ n [] = some r) &&
        decide ((fileC ⟨s.syms, none, fun _ => ['0']⟩ "m".toList m.1 m.2).take (runTimeText a).length = runTimeText a) &&
        decide (lex ((fileC ⟨s.syms, none, fun _ => ['0']⟩ "m".toList m.1 m.2).drop (runTimeText a).length) = some (toksU items)) && readsU items
    | none => false
  | _ => false

/-- No floating point constants, and external functions return nothing. -/
def plainProgram (syms : List Symbol) (a : ATree) : Bool :=
  a.exprs.all (fun e => e.values.all fun v => match v with | .float _ => false | _ => true) &&
    syms.all fun sym => match sym.kind with | .func f => !f.isExternal || decide (f.returnType = .prim .void) | _ => true

theorem plain_texts {syms a fmtA E} (h : plainProgram syms a = true) : ∀ e ∈ a.exprs, FloatTexts fmtA E e := by
  intro e he bits hb
  unfold plainProgram at h
  rw [Bool.and_eq_true, List.all_eq_true] at h
  exact absurd (List.all_eq_true.1 (h.1 e he) _ hb) (by simp)

theorem plain_typed {syms a} (h : plainProgram syms a = true) : ExtTyped syms noting := by
  intro id sym f hs hk hx vs w v w' hv
  unfold plainProgram at h
  rw [Bool.and_eq_true, List.all_eq_true, List.all_eq_true] at h
  have := h.2 sym (List.mem_of_getElem? hs)
  rw [hk] at this
  simp only [hx, Bool.not_true, Bool.false_or, decide_eq_true_eq] at this
  unfold noting at hv
  cases hv
  rw [this]
  exact trivial

/- #### An example -/

private def v (s : String) : Exp := .id s.toList
private def k (s : String) : Exp := .num s.toList
private def b (op : String) (l r : Exp) : Exp := .paren (.bin op.toList l r)
private def long : CType := .base "int64_t".toList

/-- What the back end puts last. -/
def rest (ss : Stms) : List C.Item :=
  [.proto true (.base "int".toList) "init".toList [] (some "m".toList), .func true (.base "int".toList) "init".toList [] ss,
   .func false (.base "int".toList) "main".toList [] (.simple (.ret (some (.call (v "init") .nil))) .nil)]

/-- Recursion, loops, external functions, variables in and outside functions and blocks. -/
def sampleC : String :=
  "external show(n: Int, s: Str)\nk := 3\nfac(n: Int) Int {\nif n < 2 {\nreturn 1\n}\nreturn n * fac(n - 1)\n}\n" ++
  "gap(n: Int) Int {\nd := n - k\nif d < 0 {\ne := - d\nreturn e\n}\nelse {\nreturn d\n}\nreturn 0\n}\n" ++
  "mut sum := 0\nmut i := 0\nwhile true {\nif i is 4 {\nbreak\n}\ni = i + 1\nif i is 2 {\ncontinue\n}\nt := fac(i)\nshow(t, \"x\")\nsum = sum + t\n}\n" ++
  "g := gap(i)\nreturn sum - g\n"

/-- Its C program. -/
def sampleItems : List C.Item :=
  [.proto false (.base "void".toList) "show".toList [(long, ['n']), (.ptr (.base "char".toList), ['s'])] none,
   .object true true long ['k'] none (some (k "3")),
   .func true long "fac".toList [(long, ['n'])]
    (.ifs (b "<" (v "n") (k "2")) (.simple (.ret (some (k "1"))) .nil) .nil
      (.simple (.ret (some (b "*" (v "n") (.call (v "fac") (.cons (b "-" (v "n") (k "1")) .nil))))) .nil)),
   .object true false long ['d'] none none,
   .func true long "gap".toList [(long, ['n'])]
    (.simple (.assign ['d'] (b "-" (v "n") (v "k")))
      (.ifs (b "<" (v "d") (k "0")) (.simple (.decl true long ['e'] (.un ['-'] (.paren (v "d")))) (.simple (.ret (some (v "e"))) .nil))
        (.simple (.ret (some (v "d"))) .nil) (.simple (.ret (some (k "0"))) .nil))),
   .object true false long "sum".toList none (some (k "0")), .object true false long ['i'] none (some (k "0")),
   .object true false long ['g'] none none] ++
  rest (.whiles (k "1")
      (.ifs (b "==" (v "i") (k "4")) (.simple .breaks .nil) .nil
        (.simple (.assign ['i'] (b "+" (v "i") (k "1")))
          (.ifs (b "==" (v "i") (k "2")) (.simple .continues .nil) .nil
            (.simple (.decl true long ['t'] (.call (v "fac") (.cons (v "i") .nil)))
              (.simple (.expr (.call (v "show") (.cons (v "t") (.cons (.str ['x']) .nil))))
                (.simple (.assign "sum".toList (b "+" (v "sum") (v "t"))) .nil))))))
      (.simple (.assign ['g'] (.call (v "gap") (.cons (v "i") .nil)))
        (.simple (.ret (some (b "-" (v "sum") (v "g")))) (.simple (.ret (some (k "0"))) .nil))))

/-- What it gives. -/
def sampleResultC : Int × List (List Char × List Val) :=
  (30, [("show".toList, [.int 1, .str ['x'.toNat]]), ("show".toList, [.int 6, .str ['x'.toNat]]), ("show".toList, [.int 24, .str ['x'.toNat]])])

example : bothC cArith sampleC 400 sampleResultC sampleItems = true := by decide +kernel
example : runC ⟨noFloats, fun _ => none, noting, sampleItems⟩ 400 [] = some sampleResultC := by decide +kernel

/-- The conditions of `C70_partial`, to be checked. -/
def conditionsC (fit : Bool) (src : String) : Bool :=
  match checked sampleCfg src with
  | .ok a s => treeB s.syms a && (!fit || C.fits noFloats s.syms a) && plainProgram s.syms a
  | _ => false

theorem conditionsC_ok {fit src} (h : conditionsC fit src = true) {a s} (hs : checked sampleCfg src = .ok a s) :
    FineTree s.syms (fun _ => ['0']) a ∧ (fit = true → C.fits noFloats s.syms a = true) ∧ plainProgram s.syms a = true := by
  unfold conditionsC at h
  rw [hs] at h
  simp only [Bool.and_eq_true, Bool.or_eq_true, Bool.not_eq_true'] at h
  refine ⟨treeB_ok h.1.1, fun hf => h.1.2.resolve_left (by simp [hf]), h.2⟩

/-- They hold for this program. -/
example : conditionsC true sampleC = true := by decide +kernel

/- #### The conditions are needed -/

/-- A program whose C form gives something else, or nothing. -/
theorem not_keptC {A P src n i} {items : List C.Item} {fit : Bool} (hacc : acceptsSrc src = true) (h : bothC A src n (i, []) items = true)
    (hc : conditionsC fit src = true)
    (hne : ∃ m, ∀ m', m ≤ m' → runC ⟨noFloats, fun _ => none, noting, items⟩ m' [] ≠ some (i, []))
    (hP : ∀ a s, checked sampleCfg src = .ok a s → P noFloats s.syms (fun _ => ['0']) "m".toList a i) : ¬ KeepsMeaningC A P := by
  intro hk
  unfold bothC at h
  split at h
  · rename_i a s hs
    split at h
    · rename_i m hm
      simp only [Bool.and_eq_true, decide_eq_true_eq] at h
      obtain ⟨⟨⟨h1, h2⟩, h3⟩, h4⟩ := h
      obtain ⟨_, _, hpl⟩ := conditionsC_ok hc hs
      obtain ⟨text, toks, items', g1, g2, g3, g4, M, g5⟩ := hk _ noFloats (fun _ => none) noting sampleCfg _ a s (fun _ => ['0']) "m".toList m n [] i []
        (parsed_src hacc) hs hm (plain_texts hpl) (plain_typed hpl) (hP a s hs) h1
      rw [g1, List.drop_left, g2] at h3
      cases h3
      have := g4 _ (readsU_ok h4)
      subst this
      obtain ⟨m', hne⟩ := hne
      exact hne (max m' M) (Nat.le_max_left ..) (g5 _ (Nat.le_max_right ..))
    · cases h
  · cases h

theorem else_result {ω : Type} {c : CRunCtx ω} {n w r r'} (h : runC c n w = some r') (hne : r' ≠ r) : ∃ m, ∀ m', m ≤ m' → runC c m' w ≠ some r :=
  ⟨n, fun m' hm h' => hne (by rw [runC_mono h hm] at h'; cases h'; rfl)⟩

/-- A function that counts from 0, every time it is called. -/
def counter : String := "count() Int {\nmut x := 0\nx = x + 1\nreturn x\n}\nmut a := count()\na = count()\nreturn a\n"

def counterItems : List C.Item :=
  [.object true false long ['x'] none (some (k "0")),
   .func true long "count".toList [] (.simple (.assign ['x'] (b "+" (v "x") (k "1"))) (.simple (.ret (some (v "x"))) .nil)),
   .object true false long ['a'] none none] ++
  rest (.simple (.assign ['a'] (.call (v "count") .nil)) (.simple (.assign ['a'] (.call (v "count") .nil))
    (.simple (.ret (some (v "a"))) (.simple (.ret (some (k "0"))) .nil))))

/-- Programs have to fit: variables of functions are set to literals only once. -/
theorem C70_needs_fits : ¬ KeepsMeaningC cArith fun _ syms fmtA main a i => FineTree syms fmtA a ∧ PlainText main ∧ isInt32 i = true := by
  have hc : conditionsC false counter = true := by decide +kernel
  refine not_keptC (src := counter) (n := 60) (i := 1) (items := counterItems) (by decide +kernel) (by decide +kernel) hc
    (else_result (n := 60) (r' := (2, [])) (by decide +kernel) (by decide)) ?_
  intro a s hs
  exact ⟨(conditionsC_ok hc hs).1, plainB_ok (by decide), by decide⟩

/-- A variable of a function that calls itself. -/
def recursive : String := "f(n: Int) Int {\nr := n + 0\nif n > 0 {\nm := f(n - 1)\nreturn r\n}\nreturn r\n}\nreturn f(2)\n"

def recursiveItems : List C.Item :=
  [.object true false long ['r'] none none,
   .func true long ['f'] [(long, ['n'])] (.simple (.assign ['r'] (b "+" (v "n") (k "0")))
    (.ifs (b ">" (v "n") (k "0")) (.simple (.decl true long ['m'] (.call (v "f") (.cons (b "-" (v "n") (k "1")) .nil))) (.simple (.ret (some (v "r"))) .nil)) .nil
      (.simple (.ret (some (v "r"))) .nil)))] ++
  rest (.simple (.ret (some (.call (v "f") (.cons (k "2") .nil)))) (.simple (.ret (some (k "0"))) .nil))

/-- The calls of a function share its variables. -/
theorem C70_shared : ¬ KeepsMeaningC cArith fun _ syms fmtA main a i => FineTree syms fmtA a ∧ PlainText main ∧ isInt32 i = true := by
  have hc : conditionsC false recursive = true := by decide +kernel
  refine not_keptC (src := recursive) (n := 60) (i := 2) (items := recursiveItems) (by decide +kernel) (by decide +kernel) hc
    (else_result (n := 60) (r' := (0, [])) (by decide +kernel) (by decide)) ?_
  intro a s hs
  exact ⟨(conditionsC_ok hc hs).1, plainB_ok (by decide), by decide⟩

/-- The arithmetic is needed: `5 ^ 0` is 5. -/
theorem C70_needs_arith : ¬ KeepsMeaningC docArith fun F syms fmtA main a i =>
    FineTree syms fmtA a ∧ PlainText main ∧ C.fits F syms a = true ∧ isInt32 i = true := by
  have hc : conditionsC true "return 5 ^ 0\n" = true := by decide +kernel
  refine not_keptC (src := "return 5 ^ 0\n") (n := 60) (i := 1)
    (items := rest (.simple (.ret (some (.call (v "_int_pow") (.cons (k "5") (.cons (k "0") .nil))))) (.simple (.ret (some (k "0"))) .nil)))
    (by decide +kernel) (by decide +kernel) hc (else_result (n := 60) (r' := (5, [])) (by decide +kernel) (by decide)) ?_
  intro a s hs
  exact ⟨(conditionsC_ok hc hs).1, plainB_ok (by decide), (conditionsC_ok hc hs).2.1 rfl, by decide⟩

/-- `return 4294967296`, in C. -/
def bigItems : List C.Item := rest (.simple (.ret (some (k "4294967296L"))) (.simple (.ret (some (k "0"))) .nil))

theorem big_none (n : Nat) : runC ⟨noFloats, fun _ => none, noting, bigItems⟩ (n + 7) [] = none := by
  have h1 : valid (ω := List (List Char × List Val)) ⟨noFloats, fun _ => none, noting, bigItems⟩ = true := by decide +kernel
  have h2 : bigItems.findSome? (funcOf "main".toList) = some (.base "int".toList, [], .simple (.ret (some (.call (.id "init".toList) .nil))) .nil) := rfl
  have h3 : bigItems.findSome? (funcOf "init".toList) =
    some (.base "int".toList, [], .simple (.ret (some (.num "4294967296L".toList))) (.simple (.ret (some (.num ['0']))) .nil)) := rfl
  have h4 : numVal (fun _ => none) "4294967296L".toList = some (.int .long 4294967296) := by decide +kernel
  have h5 : convert (.base "int".toList) (.int .long 4294967296) = none := by decide +kernel
  have hni : ("init".toList ∈ runTimeNames) = False := by decide
  unfold runC
  simp only [h1, if_true, callX, h2, bindArgs, execX, evalX, getAuto, List.find?_nil, Option.isSome_none, apartAll, hni, if_false, Bool.false_eq_true, evalXs,
    h3, h4, COut.result, h5, Option.map_none]

/-- The result has to be an `int`: C does not tell what else becomes of it. -/
theorem C70_needs_int : ¬ KeepsMeaningC cArith fun F syms fmtA main a _ => FineTree syms fmtA a ∧ PlainText main ∧ C.fits F syms a = true := by
  have hc : conditionsC true "return 4294967296\n" = true := by decide +kernel
  refine not_keptC (src := "return 4294967296\n") (n := 60) (i := 4294967296) (items := bigItems) (by decide +kernel) (by decide +kernel) hc
    ⟨7, fun m' hm h => ?_⟩ ?_
  · obtain ⟨j, rfl⟩ := Nat.exists_eq_add_of_le' hm
    rw [big_none] at h
    cases h
  · intro a s hs
    exact ⟨(conditionsC_ok hc hs).1, plainB_ok (by decide), (conditionsC_ok hc hs).2.1 rfl⟩

theorem C70_false : ¬ C70_full := by
  intro h
  refine C70_needs_arith fun ω F dbl ext cfg t a s fmtA main r n w i w' h1 h2 h3 h4 h5 _ h6 => ?_
  exact h ω F dbl ext cfg t a s fmtA main r n w i w' h1 h2 h3 h4 h5 trivial h6

end Skull
