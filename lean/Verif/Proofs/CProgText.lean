import Verif.Spec.CProgReads
import Verif.Proofs.CProgGrammar
import Verif.Proofs.CTotal
/-
The C text of a checked program has one reading, which is the program.
-/
namespace Skull
open Spec Spec.C

namespace Spec.C

/- ### Tokens -/

/-- The text is these tokens, whatever follows it. -/
def LxA (s : List Char) (ts : List Tok) : Prop := ∀ rest ts', Lexes rest ts' → Lexes (s ++ rest) (ts ++ ts')

theorem LxA.nil : LxA [] [] := fun _ _ h => h

theorem LxA.append {a b ta tb} (ha : LxA a ta) (hb : LxA b tb) : LxA (a ++ b) (ta ++ tb) := by
  intro rest ts' h
  have := ha _ _ (hb _ _ h)
  simpa using this

theorem LxA.lex {s ts} (h : LxA s ts) : C.lex s = some ts := by
  have := (h [] [] .nil).lex
  simpa using this

theorem Lexes.blank {c : Char} {s ts} (hc : isSpace c = true) (h : Lexes s ts) : Lexes (c :: s) ts := by
  obtain ⟨n, h⟩ := h
  exact ⟨n + 1, by unfold lexN; rw [if_pos hc]; exact h⟩

/-- Blanks. -/
theorem LxA.blanks : ∀ {s : List Char}, (∀ c ∈ s, isSpace c = true) → LxA s []
  | [], _ => .nil
  | c :: s, h => fun rest ts' hl => Lexes.blank (h c List.mem_cons_self) (LxA.blanks (fun d hd => h d (List.mem_cons_of_mem _ hd)) rest ts' hl)

theorem LxA.nl {s ts} (h : LxA s ts) : LxA ('\n' :: s) ts := fun rest ts' hl => Lexes.blank (by decide) (h rest ts' hl)

/-- One of the punctuators that do not begin longer ones. -/
theorem LxA.punct {c : Char} (h : c = ';' ∨ c = '(' ∨ c = ')' ∨ c = '{' ∨ c = '}' ∨ c = ',') : LxA [c] [.p [c]] := by
  intro rest ts' hl
  rcases h with rfl | rfl | rfl | rfl | rfl | rfl <;>
    exact .punct (by decide) (by decide) (by decide) (by decide) (by simp) rfl hl

theorem Lexes.eq {s ts} (h : Lexes s ts) : Lexes ('=' :: ' ' :: s) (.p ['='] :: ts) :=
  .punct (by decide) (by decide) (by decide) (by decide) (by simp) rfl h.space

/-- A text before a character that ends it. -/
theorem Lx.then {s ts} (h : Lx s ts) {c : Char} {t tt} (hc : c = ' ' ∨ c = ')' ∨ c = ',' ∨ c = '(' ∨ c = ';' ∨ c = '*')
    (ht : LxA (c :: t) tt) : LxA (s ++ c :: t) (ts ++ tt) := by
  intro rest ts' hl
  have := h (c :: t ++ rest) _ hc (ht rest ts' hl)
  simpa using this

theorem LxA.space {s ts} (h : LxA s ts) : LxA (' ' :: s) ts := fun rest ts' hl => (h rest ts' hl).space

theorem LxA.eq {s ts} (h : LxA s ts) : LxA (" = ".toList ++ s) (pn "=" :: ts) := fun rest ts' hl => (Lexes.eq (h rest ts' hl)).space

theorem LxA.cons {c : Char} {s ts} (h : c = ';' ∨ c = '(' ∨ c = ')' ∨ c = '{' ∨ c = '}' ∨ c = ',') (hs : LxA s ts) :
    LxA (c :: s) (.p [c] :: ts) := (LxA.punct h).append hs

theorem LxA.semi : LxA ";".toList [pn ";"] := .punct (.inl rfl)

/-- A word. -/
theorem lx_word {w : List Char} (h : (match w with | c :: t => isIdStart c && t.all isIdChar | [] => false) = true) : Lx w [.id w] := by
  cases w with
  | nil => cases h
  | cons c t =>
    simp only [Bool.and_eq_true, List.all_eq_true] at h
    exact .name h.1 h.2

theorem LxA.word {w : String} {s ts} (h : (match w.toList with | c :: t => isIdStart c && t.all isIdChar | [] => false) = true) (hs : LxA s ts) :
    LxA (w.toList ++ ' ' :: s) (kw w :: ts) := (lx_word h).then (.inl rfl) hs.space

/-- The text of a type, before a blank. -/
theorem lx_type : ∀ ty : Ty, ∃ tt, GType tt (cType ty) ∧ ∀ rest ts', (rest.head? = some ' ' ∨ rest.head? = some '*') → Lexes rest ts' →
    Lexes (typeC ty ++ rest) (tt ++ ts')
  | .ref inner => by
    obtain ⟨tt, h1, h2⟩ := lx_type inner
    refine ⟨tt ++ [.p ['*']], .ptr h1, fun rest ts' hr hl => ?_⟩
    unfold typeC
    have := h2 ('*' :: rest) (.p ['*'] :: ts') (.inr rfl) (by
      cases rest with
      | nil => simp at hr
      | cons c r =>
        refine Lexes.star ?_ hl
        rcases hr with hr | hr <;> (simp at hr; rw [hr]; decide))
    simpa using this
  | .prim p => by
    have base : ∀ w : String, w.toList ∈ typeNames → typeC (.prim p) = w.toList → cType (.prim p) = .base w.toList →
        (match w.toList with | c :: t => isIdStart c && t.all isIdChar | [] => false) = true →
        ∃ tt, GType tt (cType (.prim p)) ∧ ∀ rest ts', (rest.head? = some ' ' ∨ rest.head? = some '*') → Lexes rest ts' →
          Lexes (typeC (.prim p) ++ rest) (tt ++ ts') := by
      intro w h1 h2 h3 h4
      rw [h2, h3]
      refine ⟨[.id w.toList], .base h1, fun rest ts' hr hl => lx_word h4 rest ts' ?_ hl⟩
      cases rest with
      | nil => trivial
      | cons c r =>
        rcases hr with hr | hr <;> (simp at hr; subst hr)
        · exact bd_space _
        · exact bd_star _
    cases p with
    | int => exact base "int64_t" (by decide) rfl rfl (by decide)
    | float => exact base "double" (by decide) rfl rfl (by decide)
    | rune => exact base "char32_t" (by decide) rfl rfl (by decide)
    | bool => exact base "bool" (by decide) rfl rfl (by decide)
    | void => exact base "void" (by decide) rfl rfl (by decide)
    | str =>
      have h4 : Lx "char".toList [.id "char".toList] := lx_word (by decide)
      have key : ∀ w : List Char, w ∈ typeNames → Lx w [.id w] → ∃ tt, GType tt (.ptr (.base w)) ∧
          ∀ rest ts', (rest.head? = some ' ' ∨ rest.head? = some '*') → Lexes rest ts' → Lexes (w ++ ['*'] ++ rest) (tt ++ ts') := by
        intro w hw h4
        refine ⟨[.id w] ++ [.p ['*']], .ptr (.base hw), fun rest ts' hr hl => ?_⟩
        have := h4 ('*' :: rest) (.p ['*'] :: ts') (bd_star _) (by
          cases rest with
          | nil => simp at hr
          | cons c r =>
            refine Lexes.star ?_ hl
            rcases hr with hr | hr <;> (simp at hr; rw [hr]; decide))
        simpa using this
      exact key _ (by decide) h4

theorem lxa_type (ty : Ty) : ∃ tt, GType tt (cType ty) ∧ ∀ {s ts}, LxA s ts → LxA (typeC ty ++ ' ' :: s) (tt ++ ts) := by
  obtain ⟨tt, h1, h2⟩ := lx_type ty
  refine ⟨tt, h1, fun {s ts} h rest ts' hl => ?_⟩
  have := h2 (' ' :: s ++ rest) _ (.inl rfl) (h rest ts' hl).space
  simpa using this

/-- `__asm__("name")` -/
theorem lx_asm {link : List Char} (h : PlainText link) {s ts} (hs : LxA s ts) :
    LxA (asmName link ++ s) (.id "__asm__".toList :: pn "(" :: .str link :: pn ")" :: ts) := by
  have h1 : LxA (')' :: s) (pn ")" :: ts) := .cons (by simp) hs
  have h2 := (Lx.str h).then (c := ')') (by simp) h1
  have h3 : LxA ('(' :: ('"' :: link ++ ['"'] ++ ')' :: s)) (pn "(" :: ([.str link] ++ pn ")" :: ts)) := .cons (by simp) h2
  have h4 := ((lx_word (w := "__asm__".toList) (by decide)).then (c := '(') (by simp) h3).space
  have e : asmName link ++ s = ' ' :: ("__asm__".toList ++ '(' :: ('"' :: link ++ ['"'] ++ ')' :: s)) := by
    unfold asmName
    have e1 : " __asm__(\"".toList = ' ' :: ("__asm__".toList ++ ['(', '"']) := by decide
    have e2 : "\")".toList = ['"', ')'] := by decide
    rw [e1, e2]
    generalize "__asm__".toList = w
    simp
  rw [e]
  exact h4

/- ### Grammar -/

theorem GUnit.append {t i t' i'} (h : GUnit t i) (h' : GUnit t' i') : GUnit (t ++ t') (i ++ i') := by
  induction h with
  | nil => exact h'
  | object h1 h2 h3 h4 _ ih => simpa using GUnit.object h1 h2 h3 h4 ih
  | proto h1 h2 h3 h4 _ ih => simpa using GUnit.proto h1 h2 h3 h4 ih
  | func h1 h2 h3 h4 _ ih => simpa using GUnit.func h1 h2 h3 h4 ih

theorem GS.append {t' s'} (h' : GS t' s') {t s} (h : GS t s) : GS (t ++ t') (s.append s') := by
  induction h using GS.rec (motive_2 := fun _ _ _ => True) with
  | nil => exact h'
  | simple h1 _ ih => simpa [Stms.append] using GS.simple h1 ih
  | ifs h1 h2 h3 _ _ _ ih => simpa [Stms.append] using GS.ifs h1 h2 h3 ih
  | whiles h1 h2 _ _ ih => simpa [Stms.append] using GS.whiles h1 h2 ih
  | block h1 _ _ ih => simpa [Stms.append] using GS.block h1 ih
  | _ => trivial

end Spec.C

/- ### Steps -/

/-- Whatever the step gives is as `P` says. -/
def Yields (m : CGen α) (s : CState) (P : α → CState → Prop) : Prop := ∀ a s', m s = some (a, s') → P a s'

namespace Yields

theorem bind {m : CGen α} {f : α → CGen β} {s : CState} {P : α → CState → Prop} {Q : β → CState → Prop} (hm : Yields m s P)
    (hf : ∀ a s', P a s' → Yields (f a) s' Q) : Yields (m >>= f) s Q := by
  intro b s'' h
  have h : CGen.bind m f s = some (b, s'') := h
  unfold CGen.bind at h
  split at h
  · rename_i a s' hm'
    exact hf a s' (hm a s' hm') b s'' h
  · cases h

theorem pure {a : α} {s : CState} {P : α → CState → Prop} (h : P a s) : Yields (Pure.pure a : CGen α) s P := by
  intro b s' hb
  cases hb
  exact h

theorem ub {s : CState} {P : α → CState → Prop} : Yields (CGen.ub : CGen α) s P := fun _ _ h => by cases h

theorem mono {m : CGen α} {s : CState} {P Q : α → CState → Prop} (h : Yields m s P) (hq : ∀ a s', P a s' → Q a s') : Yields m s Q :=
  fun a s' h' => hq a s' (h a s' h')

theorem modify {f : CState → CState} {s : CState} {P : Unit → CState → Prop} (h : P () (f s)) : Yields (CGen.modify f) s P := by
  intro b s' hb
  cases hb
  exact h

theorem get {s : CState} {P : CState → CState → Prop} (h : P s s) : Yields (fun s => some (s, s) : CGen CState) s P := by
  intro b s' hb
  cases hb
  exact h

theorem option {o : Option α} {a : α} (ho : o = some a) {s : CState} {P : α → CState → Prop} (h : P a s) : Yields (CGen.ofOption o) s P := by
  subst ho
  exact .pure h

theorem notNull {o : Option (List Char)} {s : CState} {P : List Char → CState → Prop} (h : P (o.getD []) s) : Yields (Skull.notNull o) s P := by
  cases o with
  | none => exact .ub
  | some t => exact .pure h

end Yields

section
variable {syms : List Symbol} {fmtA : Nat → List Char}

/-- A text for the place where it stands, and what has been added to the globals since `s`; `K` is about their tokens. -/
def Piece (s : CState) (r : Option (List Char)) (s' : CState) (K : List Tok → List Tok → Prop) : Prop :=
  s'.indent = s.indent ∧ ∃ ts gt gts, LxA (r.getD []) ts ∧ s'.globals.getD [] = s.globals.getD [] ++ gt ∧ LxA gt gts ∧ K ts gts

theorem Piece.mono {s r s'} {K K' : List Tok → List Tok → Prop} (h : Piece s r s' K) (hk : ∀ a b, K a b → K' a b) : Piece s r s' K' := by
  obtain ⟨h1, ts, gt, gts, h2, h3, h4, h5⟩ := h
  exact ⟨h1, ts, gt, gts, h2, h3, h4, hk _ _ h5⟩

theorem yields_expr {e : AExpr} (hw : WtE syms e) (hf : Fine syms fmtA e) (s : CState) :
    Yields (genExprC ⟨syms, none, fmtA⟩ e) s (fun t s' => Noted s s' ∧ Reading syms fmtA e t) := by
  intro t s' h
  obtain ⟨t1, s1, h1, h2⟩ := reading_expr (dbg := none) hw hf s
  obtain ⟨t2, s2, h3, h4⟩ := expr_total (dbg := none) (fmtA := fmtA) hw s
  rw [h] at h1 h3
  cases h1
  cases h3
  exact ⟨h4, h2⟩

/-- The text of an expression, before a character that ends it. -/
theorem Spec.C.Reading.then {e : AExpr} {t : List Char} (h : Reading syms fmtA e t) : ∃ ts c, G 11 ts c ∧ Reads syms fmtA e c ∧
    ∀ {x : Char} {u tu}, (x = ' ' ∨ x = ')' ∨ x = ',' ∨ x = '(' ∨ x = ';' ∨ x = '*') → LxA (x :: u) tu → LxA (t ++ x :: u) (ts ++ tu) := by
  obtain ⟨_, ts, c, h1, h2, h3⟩ := h
  exact ⟨ts, c, h2, h3, fun hx hu => h1.then hx hu⟩

theorem Spec.C.Reading.semi {e : AExpr} {t : List Char} (h : Reading syms fmtA e t) : ∃ ts c, G 11 ts c ∧ Reads syms fmtA e c ∧
    LxA (t ++ ";".toList) (ts ++ [pn ";"]) := by
  obtain ⟨ts, c, h1, h2, h3⟩ := h.then
  exact ⟨ts, c, h1, h2, h3 (x := ';') (u := []) (.inr (.inr (.inr (.inr (.inl rfl))))) .semi⟩


/-- The tokens are those of the statements and of their items. -/
def OkC (syms : List Symbol) (fmtA : Nat → List Char) (d : Nat) (t : ATree) (ts gts : List Tok) : Prop :=
  ∃ ss its, GS ts ss ∧ GUnit gts its ∧ CForm syms fmtA d t ss its

/-- The same behind an `if`. -/
def OkElseC (syms : List Symbol) (fmtA : Nat → List Char) (d : Nat) (t : ATree) (ts gts : List Tok) : Prop :=
  ∃ te tn els ss its, ts = te ++ tn ∧ GElse te els ∧ GS tn ss ∧ GUnit gts its ∧ CFormElse syms fmtA d t els ss its

/-- The one or the other. -/
def BothC (syms : List Symbol) (fmtA : Nat → List Char) (before : List Stmt) (d : Nat) (t : ATree) (ts gts : List Tok) : Prop :=
  (¬ AfterIf before → OkC syms fmtA d t ts gts) ∧ (AfterIf before → OkElseC syms fmtA d t ts gts)

theorem OkC.both {before d t ts gts} (h : OkC syms fmtA d t ts gts) : BothC syms fmtA before d t ts gts := by
  refine ⟨fun _ => h, fun _ => ?_⟩
  obtain ⟨ss, its, h1, h2, h3⟩ := h
  exact ⟨[], ts, _, ss, its, rfl, .none, h1, h2, .none h3⟩

/-- What the tokens of a statement are good for. -/
def GoodC (syms : List Symbol) (fmtA : Nat → List Char) (before : List Stmt) (d : Nat) (ann : Ann) (stmt : Stmt) (tok : List Token)
    (child next : ATree) (ts gts : List Tok) : Prop :=
  ∀ tn gn, BothC syms fmtA (stmt :: before) d next tn gn → BothC syms fmtA before d (.node ann stmt tok child next) (ts ++ tn) (gts ++ gn)

theorem GoodC.plain {before d ann stmt tok child next ts gts} (hn : ¬ AfterIf (stmt :: before))
    (h : ∀ tn gn, OkC syms fmtA d next tn gn → OkC syms fmtA d (.node ann stmt tok child next) (ts ++ tn) (gts ++ gn)) :
    GoodC syms fmtA before d ann stmt tok child next ts gts := fun tn gn hb => (h tn gn (hb.1 hn)).both

/-- A statement that is not written. -/
theorem GoodC.mute {before d ann stmt tok child next} (hn : ¬ AfterIf (stmt :: before))
    (h : ∀ ss its, CForm syms fmtA d next ss its → CForm syms fmtA d (.node ann stmt tok child next) ss its) :
    GoodC syms fmtA before d ann stmt tok child next [] [] := by
  refine .plain hn ?_
  rintro tn gn ⟨ss, its, h1, h2, h3⟩
  exact ⟨ss, its, h1, h2, h _ _ h3⟩

/-- A statement without statements in it. -/
theorem GoodC.simple {before d ann stmt tok child next ts st} (hn : ¬ AfterIf (stmt :: before)) (hg : GSimple ts st)
    (h : ∀ ss its, CForm syms fmtA d next ss its → CForm syms fmtA d (.node ann stmt tok child next) (.simple st ss) its) :
    GoodC syms fmtA before d ann stmt tok child next ts [] := by
  refine .plain hn ?_
  rintro tn gn ⟨ss, its, h1, h2, h3⟩
  exact ⟨.simple st ss, its, .simple hg h1, h2, h _ _ h3⟩

theorem Piece.text {s : CState} {t : List Char} {s' : CState} {ts : List Tok} {K : List Tok → List Tok → Prop} (hn : Noted s s') (ht : LxA t ts) (hk : K ts []) :
    Piece s (some t) s' K := ⟨hn.2.1, ts, [], [], ht, by rw [hn.1]; simp, .nil, hk⟩

theorem Piece.none' {s : CState} {K : List Tok → List Tok → Prop} (hk : K [] []) : Piece s none s K := ⟨rfl, [], [], [], .nil, by simp, .nil, hk⟩

theorem not_afterIf {before : List Stmt} {stmt : Stmt} (h1 : stmt ≠ .comment) (h2 : ∀ e, stmt ≠ .ifs e) (h3 : ∀ e, stmt ≠ .elifs e) :
    ¬ AfterIf (stmt :: before) := by
  cases stmt <;> simp_all [AfterIf]

theorem isIdent {syms : List Symbol} {id : Nat} {sym : Symbol} (hf : FineName syms id) (h1 : syms[id]? = some sym) :
    IsIdent sym.name ∧ Lx sym.name [.id sym.name] := by
  obtain ⟨⟨c, t, e, h2, h3, h4⟩, h5, _⟩ := hf _ h1
  refine ⟨⟨h4, h5⟩, ?_⟩
  rw [e]
  exact .name h2 h3

/-- `name = value;` -/
theorem lx_assign {name t : List Char} {ts tn : List Tok} (hn : Lx name tn) (ht : LxA t ts) : LxA (name ++ " = ".toList ++ t) (tn ++ pn "=" :: ts) := by
  have := hn.then (c := ' ') (.inl rfl) ht.eq
  have e : " = ".toList = ' ' :: "= ".toList := by decide
  rw [List.append_assoc]
  exact this

theorem yields_assign {id : Nat} {sym : Symbol} {e : AExpr} (hw : WtE syms e) (hf : Fine syms fmtA e) (h1 : syms[id]? = some sym) (hn : FineName syms id) (s : CState) :
    Yields (assignC ⟨syms, none, fmtA⟩ sym.name e) s (fun t s' => Noted s s' ∧ ∃ ts c, LxA t ts ∧ GSimple ts (.assign sym.name c) ∧ Reads syms fmtA e c) := by
  refine .bind (yields_expr hw hf s) ?_
  rintro t s' ⟨h2, h3⟩
  obtain ⟨ts, c, g1, g2, g3⟩ := h3.semi
  obtain ⟨i1, i2⟩ := isIdent hn h1
  refine .pure ⟨h2, _, c, ?_, .assign i1 (g1.down 1 (by decide)), g2⟩
  have := lx_assign i2 g3
  rw [← List.append_assoc] at this
  exact this

/-- The words before a declaration. -/
theorem lx_opt {b : Bool} {w : String} (h : (match w.toList with | c :: t => isIdStart c && t.all isIdChar | [] => false) = true) {t : List Char}
    (hw : t = w.toList ++ [' ']) {s ts} (hs : LxA s ts) : LxA ((if b then t else []) ++ s) (opt b w ++ ts) := by
  cases b with
  | false => exact hs
  | true =>
    have := LxA.word h hs
    simp only [if_true, hw, opt]
    rw [List.append_assoc]
    exact this

/-- A declaration with a value. -/
theorem yields_stack {id : Nat} {sym : Symbol} {v : Variable} {e : AExpr} (hw : WtE syms e) (hf : Fine syms fmtA e) (h1 : syms[id]? = some sym)
    (hv : v.name = sym.name) (hn : FineName syms id) (s : CState) :
    Yields (stackVarC ⟨syms, none, fmtA⟩ v e) s (fun t s' => Noted s s' ∧ ∃ ts c, LxA t ts ∧ GSimple ts (.decl v.isConst (cType v.type) sym.name c) ∧ Reads syms fmtA e c) := by
  refine .bind (yields_expr hw hf s) ?_
  rintro t s' ⟨h2, h3⟩
  obtain ⟨ts, c, g1, g2, g3⟩ := h3.semi
  obtain ⟨i1, i2⟩ := isIdent hn h1
  obtain ⟨tt, k1, k2⟩ := lxa_type v.type
  refine .pure ⟨h2, _, c, ?_, .decl k1 i1 (g1.down 1 (by decide)), g2⟩
  have h4 := k2 (lx_assign i2 g3)
  have h5 := lx_opt (b := v.isConst) (w := "const") (by decide) (t := "const ".toList) (by decide) h4
  rw [hv]
  simpa only [List.append_assoc, List.cons_append, List.nil_append] using h5

/- ### Variables outside of blocks -/

/-- The text of a name for the linker. -/
def linkText : Option (List Char) → List Char
  | some link => asmName link
  | none => []

theorem lx_linked {name : List Char} (hn : Lx name [.id name]) {l : Option (List Char)} (hl : ∀ link, l = some link → PlainText link) :
    ∃ tl, GLink tl l ∧ ∀ {x : Char} {u tu}, (x = ' ' ∨ x = ';') → LxA (x :: u) tu → LxA (name ++ (linkText l ++ x :: u)) (.id name :: (tl ++ tu)) := by
  cases l with
  | none =>
    refine ⟨[], .none, fun hx hu => ?_⟩
    have := hn.then (by rcases hx with rfl | rfl <;> simp) hu
    exact this
  | some link =>
    refine ⟨_, .some, fun {x u tu} hx hu => ?_⟩
    have h1 := lx_asm (hl _ rfl) hu
    have e : asmName link ++ x :: u = ' ' :: ("__asm__(\"".toList ++ (link ++ ("\")".toList ++ x :: u))) := by
      have e1 : " __asm__(\"".toList = ' ' :: "__asm__(\"".toList := by decide
      unfold asmName
      rw [e1]
      simp only [List.append_assoc, List.cons_append]
    unfold linkText
    simp only
    rw [e] at h1 ⊢
    exact hn.then (.inl rfl) h1

theorem lx_object {st c : Bool} {ty : Ty} {id : Nat} {sym : Symbol} (h1 : syms[id]? = some sym) (hn : FineName syms id) {l : Option (List Char)}
    (hl : ∀ link, l = some link → PlainText link) {x : Char} {u : List Char} {ti : List Tok} {init : Option Exp} (hi : GInit ti init) (hx : x = ' ' ∨ x = ';')
    (hu : LxA (x :: u) (ti ++ [pn ";"])) :
    ∃ gts, LxA ((if st then "static ".toList else []) ++ ((if c then "const ".toList else []) ++ (typeC ty ++ ' ' :: (sym.name ++ (linkText l ++ x :: u))))) gts ∧
      GUnit gts [.object st c (cType ty) sym.name l init] := by
  obtain ⟨i1, i2⟩ := isIdent hn h1
  obtain ⟨tl, l1, l2⟩ := lx_linked i2 hl
  obtain ⟨tt, k1, k2⟩ := lxa_type ty
  have h3 := lx_opt (b := st) (w := "static") (by decide) (t := "static ".toList) (by decide)
    (lx_opt (b := c) (w := "const") (by decide) (t := "const ".toList) (by decide) (k2 (l2 hx hu)))
  refine ⟨_, h3, ?_⟩
  have := GUnit.object (st := st) (c := c) k1 i1 l1 hi .nil
  simpa only [List.append_assoc, List.cons_append, List.nil_append] using this

theorem noted_globals {s s' : CState} (h : Noted s s') (text : List Char) : (some (s'.globals.getD [] ++ '\n' :: text)).getD [] = s.globals.getD [] ++ '\n' :: text := by
  rw [h.1]
  rfl

/-- What variables outside of blocks are good for. -/
def GoodVar (syms : List Symbol) (fmtA : Nat → List Char) (id : Nat) (e : AExpr) (d : Nat) (ts gts : List Tok) : Prop :=
  ∀ before n rest c i x e' tok next, GoodC syms fmtA before d (.varDef id e) (.varDef (n :: rest) c i x e') tok .nil next ts gts

theorem goodVar {id : Nat} {e : AExpr} {d : Nat} {ts gts : List Tok} {f : Stms → Stms} {its : List Item} (hf : ∀ {tn ss}, GS tn ss → GS (ts ++ tn) (f ss))
    (hg : GUnit gts its) (h : ∀ {stmt tok next ss ns}, CForm syms fmtA d next ss ns → CForm syms fmtA d (.node (.varDef id e) stmt tok .nil next) (f ss) (its ++ ns)) :
    GoodVar syms fmtA id e d ts gts := by
  intro before n rest c i x e' tok next
  refine .plain (not_afterIf (by simp) (by simp) (by simp)) ?_
  rintro tn gn ⟨ss, ns, h1, h2, h3⟩
  exact ⟨f ss, its ++ ns, hf h1, hg.append h2, h h3⟩

theorem yields_varDef {id : Nat} {sym : Symbol} {v : Variable} {e : AExpr} (hw : WtE syms e) (hf : Fine syms fmtA e) (h1 : syms[id]? = some sym)
    (h2 : sym.kind = .var v) (hv : v.name = sym.name) (hn : FineName syms id) (s : CState) :
    Yields (varDefC ⟨syms, none, fmtA⟩ id e) s (fun r s' => Piece s r s' (GoodVar syms fmtA id e s.indent)) := by
  unfold varDefC
  refine .bind (.option (P := fun a s' => a = v ∧ s' = s) (var_eq h1 h2) ⟨rfl, rfl⟩) ?_
  rintro v s ⟨rfl, rfl⟩
  refine .bind (.get (P := fun a s' => a = s ∧ s' = s) ⟨rfl, rfl⟩) ?_
  rintro a b ⟨ha, hb⟩
  rw [ha, hb]
  clear ha hb a b
  have hplain : PlainText v.linkageName := (hn _ h1).2.2.2 _ h2
  split
  · rename_i hd
    rw [hd]
    unfold globalVarC
    split
    · rename_i hc
      refine .bind (P := fun _ s' => Piece s none s' (GoodVar syms fmtA id e 1)) ?_ fun _ _ h => .pure h
      unfold constGlobalC
      refine .bind (yields_expr hw hf s) ?_
      rintro t s₁ ⟨k1, k2⟩
      obtain ⟨ts, c, g1, g2, g3⟩ := k2.semi
      have done : ∀ text gts, LxA text gts → GUnit gts [.object (!v.isExported) v.isConst (cType v.type) sym.name (linkOf v.isExported v.linkageName) (some c)] →
          Yields (appendGlobal text) s₁ (fun _ s' => Piece s none s' (GoodVar syms fmtA id e 1)) := by
        intro text gts ht hg
        refine .modify ⟨k1.2.1, [], '\n' :: text, gts, .nil, noted_globals k1 text, ht.nl, ?_⟩
        exact goodVar (ts := []) (f := fun ss => ss) (fun h => h) hg fun h => .known h1 h2 hc g2 h
      split
      · rename_i hx
        split
        · rename_i hk
          obtain ⟨gts, o1, o2⟩ := lx_object (st := false) (c := true) (ty := v.type) h1 hn (l := some v.linkageName) (fun _ h => by cases h; exact hplain)
            (u := "= ".toList ++ (t ++ ";".toList)) (.some (g1.down 1 (by decide))) (.inl rfl) g3.eq
          refine done _ gts ?_ (by rw [hx, hk]; exact o2)
          have e : "const ".toList ++ typeC v.type ++ ' ' :: v.name ++ asmName v.linkageName ++ " = ".toList ++ t ++ ";".toList =
              (if false then "static ".toList else []) ++ ((if true then "const ".toList else []) ++ (typeC v.type ++ ' ' :: (sym.name ++ (linkText (some v.linkageName) ++ ' ' :: ("= ".toList ++ (t ++ ";".toList)))))) := by
            have e1 : " = ".toList = ' ' :: "= ".toList := by decide
            rw [e1, hv]
            unfold linkText
            simp only [List.append_assoc, List.cons_append, List.nil_append, if_true, Bool.false_eq_true, if_false]
          rw [e]
          exact o1
        · exact .ub
      · rename_i hx
        obtain ⟨gts, o1, o2⟩ := lx_object (st := true) (c := v.isConst) (ty := v.type) h1 hn (l := none) (fun _ h => by cases h)
          (u := "= ".toList ++ (t ++ ";".toList)) (.some (g1.down 1 (by decide))) (.inl rfl) g3.eq
        have hx : v.isExported = false := by simpa using hx
        refine done _ gts ?_ (by rw [hx]; exact o2)
        have e : (if v.isConst then "static const ".toList else "static ".toList) ++ typeC v.type ++ ' ' :: v.name ++ " = ".toList ++ t ++ ";".toList =
            (if true then "static ".toList else []) ++ ((if v.isConst then "const ".toList else []) ++ (typeC v.type ++ ' ' :: (sym.name ++ (linkText none ++ ' ' :: ("= ".toList ++ (t ++ ";".toList)))))) := by
          have e1 : " = ".toList = ' ' :: "= ".toList := by decide
          have e2 : (if v.isConst then "static const ".toList else "static ".toList) = "static ".toList ++ (if v.isConst then "const ".toList else []) := by
            cases v.isConst <;> decide
          rw [e1, e2, hv]
          unfold linkText
          simp only [List.append_assoc, List.cons_append, List.nil_append, if_true]
        rw [e]
        exact o1
    · rename_i hc
      have hc : e.isConstExpr = false := by simpa using hc
      have done : ∀ text gts, LxA text gts → GUnit gts [.object (!v.isExported) false (cType v.type) sym.name (linkOf v.isExported v.linkageName) none] →
          Yields (do appendGlobal text; let t ← assignC ⟨syms, none, fmtA⟩ v.name e; pure (some t)) s (fun r s' => Piece s r s' (GoodVar syms fmtA id e 1)) := by
        intro text gts ht hg
        refine .bind (P := fun _ s' => s' = { s with globals := some (s.globals.getD [] ++ '\n' :: text) }) (.modify rfl) ?_
        rintro _ _ rfl
        rw [hv]
        refine .bind (yields_assign hw hf h1 hn _) ?_
        rintro t s₂ ⟨k1, ts, c, k2, k3, k4⟩
        refine .pure ⟨k1.2.1, ts, '\n' :: text, gts, k2, by rw [k1.1]; rfl, ht.nl, ?_⟩
        exact goodVar (f := Stms.simple (.assign sym.name c)) (fun h => .simple k3 h) hg fun h => .unknown h1 h2 hc k4 h
      split
      · rename_i hx
        obtain ⟨gts, o1, o2⟩ := lx_object (st := false) (c := false) (ty := v.type) h1 hn (l := some v.linkageName) (fun _ h => by cases h; exact hplain)
          (u := []) .none (.inr rfl) .semi
        refine done _ gts ?_ (by rw [hx]; exact o2)
        have e : typeC v.type ++ ' ' :: v.name ++ asmName v.linkageName ++ ";".toList =
            (if false then "static ".toList else []) ++ ((if false then "const ".toList else []) ++ (typeC v.type ++ ' ' :: (sym.name ++ (linkText (some v.linkageName) ++ [';'])))) := by
          have e1 : ";".toList = [';'] := by decide
          rw [e1, hv]
          unfold linkText
          simp only [List.append_assoc, List.cons_append, List.nil_append, Bool.false_eq_true, if_false]
        rw [e]
        exact o1
      · rename_i hx
        obtain ⟨gts, o1, o2⟩ := lx_object (st := true) (c := false) (ty := v.type) h1 hn (l := none) (fun _ h => by cases h) (u := []) .none (.inr rfl) .semi
        have hx : v.isExported = false := by simpa using hx
        refine done _ gts ?_ (by rw [hx]; exact o2)
        have e : "static ".toList ++ typeC v.type ++ ' ' :: v.name ++ ";".toList =
            (if true then "static ".toList else []) ++ ((if false then "const ".toList else []) ++ (typeC v.type ++ ' ' :: (sym.name ++ (linkText none ++ [';'])))) := by
          have e1 : ";".toList = [';'] := by decide
          rw [e1, hv]
          unfold linkText
          simp only [List.append_assoc, List.cons_append, List.nil_append, if_true, Bool.false_eq_true, if_false]
        rw [e]
        exact o1
  · rename_i hd
    refine .bind (yields_stack hw hf h1 hv hn s) ?_
    rintro t s₁ ⟨k1, ts, c, k2, k3, k4⟩
    refine .pure (.text k1 k2 ?_)
    exact goodVar (its := []) (f := Stms.simple (.decl v.isConst (cType v.type) sym.name c)) (fun h => .simple k3 h) .nil fun h => .loc hd h1 h2 k4 h

/- ### Functions -/

/-- One parameter. -/
theorem yields_param {id : Nat} {ty : Ty} (h : IsParam syms id ty) (hn : FineName syms id) (s : CState) :
    Yields (paramC ⟨syms, none, fmtA⟩ id) s (fun t s' => s' = s ∧ ∃ p tt, IsParamOf syms id p ∧ GType tt p.1 ∧ IsIdent p.2 ∧ Lx t (tt ++ [.id p.2])) := by
  obtain ⟨sym, v, h1, h2, h3, _⟩ := h
  unfold paramC
  refine .bind (.option (P := fun a s' => a = v ∧ s' = s) (var_eq h1 h2) ⟨rfl, rfl⟩) ?_
  rintro v s ⟨rfl, rfl⟩
  obtain ⟨tt, k1, k2⟩ := lx_type v.type
  obtain ⟨i1, i2⟩ := isIdent hn h1
  refine .pure ⟨rfl, (cType v.type, sym.name), tt, ⟨sym, v, h1, h2, rfl⟩, k1, i1, ?_⟩
  intro rest ts' hb hl
  have := k2 (' ' :: (sym.name ++ rest)) _ (.inl rfl) (i2 rest ts' hb hl).space
  rw [h3]
  simpa using this

theorem yields_map {tys : List Ty} : ∀ (params : List Nat) (s : CState), (∀ id ∈ params, ∃ ty, IsParam syms id ty) → (∀ id ∈ params, FineName syms id) →
    Yields (mapGen (paramC ⟨syms, none, fmtA⟩) params) s (fun ts s' => s' = s ∧ ts.length = params.length ∧ ∃ ps tp, ParamsOf syms params ps ∧
      Lx (joinArgs ts) tp ∧ (params ≠ [] → GParamList tp ps) ∧ (params = [] → tp = [] ∧ ps = []))
  | [], s, _, _ => .pure ⟨rfl, rfl, [], [], .nil, (fun _ _ _ h => h), fun h => absurd rfl h, fun _ => ⟨rfl, rfl⟩⟩
  | id :: params, s, h, hn => by
    unfold mapGen
    obtain ⟨ty, hp⟩ := h id List.mem_cons_self
    refine .bind (yields_param hp (hn id List.mem_cons_self) s) ?_
    rintro t s ⟨rfl, p, tt, p1, p2, p3, p4⟩
    refine .bind (yields_map (tys := tys) params s (fun x hx => h x (List.mem_cons_of_mem _ hx)) fun x hx => hn x (List.mem_cons_of_mem _ hx)) ?_
    rintro ts s ⟨rfl, hl, ps, tp, q1, q2, q3, q4⟩
    refine .pure ⟨rfl, by simp [hl], p :: ps, ?_⟩
    cases params with
    | nil =>
      obtain ⟨rfl, rfl⟩ := q4 rfl
      have : ts = [] := by simpa using hl
      subst this
      exact ⟨_, .cons p1 q1, p4, fun _ => .one p2 p3, fun h => by cases h⟩
    | cons b bs =>
      cases ts with
      | nil => simp at hl
      | cons x xs =>
        refine ⟨_, .cons p1 q1, lx_comma p4 q2, fun _ => ?_, fun h => by cases h⟩
        have := GParamList.cons p2 p3 (q3 (by simp))
        rw [List.append_assoc]
        exact this

theorem yields_params {f : Func} {params : List Nat} (hl : params.length = f.numParams) (h : ∀ id ∈ params, ∃ ty, IsParam syms id ty)
    (hn : ∀ id ∈ params, FineName syms id) (s : CState) :
    Yields (paramsC ⟨syms, none, fmtA⟩ f params) s (fun t s' => s' = s ∧ ∃ ps tp, ParamsOf syms params ps ∧ Lx t tp ∧ GParams tp ps) := by
  unfold paramsC
  rw [← hl, List.take_length]
  refine .bind (yields_map (tys := []) params s h hn) ?_
  rintro ts s ⟨rfl, _, ps, tp, q1, q2, q3, q4⟩
  refine .pure ⟨rfl, ps, ?_⟩
  cases params with
  | nil =>
    obtain ⟨rfl, rfl⟩ := q4 rfl
    exact ⟨_, q1, lx_word (w := "void".toList) (by decide), .none⟩
  | cons b bs => exact ⟨tp, q1, q2, .some (q3 (by simp))⟩

/-- The head of a function. -/
theorem lx_head {ty : Ty} {id : Nat} {sym : Symbol} (h1 : syms[id]? = some sym) (hn : FineName syms id) {pt : List Char} {tp : List Tok} (hp : Lx pt tp) :
    IsIdent sym.name ∧ ∃ tt, GType tt (cType ty) ∧ ∀ {u tu}, LxA u tu →
      LxA (typeC ty ++ ' ' :: sym.name ++ '(' :: pt ++ [')'] ++ u) (tt ++ .id sym.name :: pn "(" :: (tp ++ pn ")" :: tu)) := by
  obtain ⟨i1, i2⟩ := isIdent hn h1
  obtain ⟨tt, k1, k2⟩ := lxa_type ty
  refine ⟨i1, tt, k1, fun {u tu} hu => ?_⟩
  have h2 : LxA (')' :: u) (pn ")" :: tu) := .cons (by simp) hu
  have h3 : LxA ('(' :: (pt ++ ')' :: u)) (pn "(" :: (tp ++ pn ")" :: tu)) := .cons (by simp) (hp.then (by simp) h2)
  have h4 := k2 (i2.then (c := '(') (by simp) h3)
  simpa only [List.append_assoc, List.cons_append, List.nil_append] using h4

/-- The braces around statements. -/
theorem lx_braces {tree blanks : List Char} {tb : List Tok} (h : LxA tree tb) (hb : ∀ c ∈ blanks, isSpace c = true) {u tu} (hu : LxA u tu) :
    LxA ("{\n".toList ++ tree ++ '\n' :: blanks ++ '}' :: u) (pn "{" :: (tb ++ pn "}" :: tu)) := by
  have h1 : LxA ('}' :: u) (pn "}" :: tu) := .cons (by simp) hu
  have h2 := (LxA.blanks hb).append h1
  have h3 : LxA ('{' :: ('\n' :: (tree ++ '\n' :: (blanks ++ '}' :: u)))) (pn "{" :: (tb ++ ([] ++ pn "}" :: tu))) := .cons (by simp) (h.append h2.nl).nl
  have e : "{\n".toList = ['{', '\n'] := by decide
  rw [e]
  simpa only [List.append_assoc, List.cons_append, List.nil_append] using h3

/-- What a function is good for. -/
def GoodFunc (syms : List Symbol) (fmtA : Nat → List Char) (id : Nat) (params : List Nat) (child : ATree) (d : Nat) (gts : List Tok) : Prop :=
  ∀ before p tok next, GoodC syms fmtA before d (.func id params) (.funcProto p) tok child next [] gts

theorem goodFunc {id : Nat} {params : List Nat} {child : ATree} {d : Nat} {gts : List Tok} {its : List Item} (hg : GUnit gts its)
    (h : ∀ {stmt tok next ss ns}, CForm syms fmtA d next ss ns → CForm syms fmtA d (.node (.func id params) stmt tok child next) ss (its ++ ns)) :
    GoodFunc syms fmtA id params child d gts := by
  intro before p tok next
  refine .plain (not_afterIf (by simp) (by simp) (by simp)) ?_
  rintro tn gn ⟨ss, ns, h1, h2, h3⟩
  exact ⟨ss, its ++ ns, h1, hg.append h2, h h3⟩

theorem yields_function {id : Nat} {params : List Nat} {tok : List Token} {sym : Symbol} {f : Func} {child : ATree} {body : CGen (Option (List Char))}
    (h1 : syms[id]? = some sym) (h2 : sym.kind = .func f) (hl : params.length = f.numParams) (hp : ∀ id ∈ params, ∃ ty, IsParam syms id ty)
    (hn : FineName syms id) (hns : ∀ id ∈ params, FineName syms id)
    (hb : ∀ s, s.indent = 0 → Yields body s (fun r s' => Piece s r s' (OkC syms fmtA 1 child))) (s : CState) :
    Yields (functionDefC ⟨syms, none, fmtA⟩ id params tok body) s (fun _ s' => Piece s none s' fun ts gts => ts = [] ∧ GoodFunc syms fmtA id params child s.indent gts) := by
  have hplain : PlainText sym.linkageName := (hn _ h1).2.2.1
  unfold functionDefC
  refine .bind (P := fun text s' => s'.indent = s.indent ∧ ∃ gt gts gts', s'.globals.getD [] = s.globals.getD [] ++ gt ∧ LxA gt gts ∧ LxA text gts' ∧
    GoodFunc syms fmtA id params child s.indent (gts ++ gts')) ?_ ?_
  · unfold prototypeC
    refine .bind (.option (P := fun a s' => a = (sym, f) ∧ s' = s) (func_eq h1 h2) ⟨rfl, rfl⟩) ?_
    rintro a b ⟨ha, hb'⟩
    rw [ha, hb']
    clear ha hb' a b
    simp only
    refine .bind (yields_params hl hp hns s) ?_
    rintro pt b ⟨hb', ps, tp, q1, q2, q3⟩
    rw [hb']
    clear hb' b
    obtain ⟨i1, tt, k1, k2⟩ := lx_head (ty := f.returnType) h1 hn q2
    have fwd : ∀ {u tu}, LxA u tu → LxA (typeC f.returnType ++ ' ' :: sym.name ++ '(' :: pt ++ [')'] ++ asmName sym.linkageName ++ ";\n".toList ++ u)
        ((tt ++ .id sym.name :: pn "(" :: (tp ++ pn ")" :: ([.id "__asm__".toList, pn "(", .str sym.linkageName, pn ")"] ++ [pn ";"]))) ++ tu) := by
      intro u tu hu
      have e : ";\n".toList = [';', '\n'] := by decide
      have h3 : LxA (';' :: '\n' :: u) (pn ";" :: tu) := .cons (by simp) hu.nl
      have := k2 (lx_asm hplain h3)
      rw [e]
      simpa only [List.append_assoc, List.cons_append, List.nil_append] using this
    have gfwd : GUnit (tt ++ .id sym.name :: pn "(" :: (tp ++ pn ")" :: ([.id "__asm__".toList, pn "(", .str sym.linkageName, pn ")"] ++ [pn ";"])))
        [.proto false (cType f.returnType) sym.name ps (some sym.linkageName)] := by
      have := GUnit.proto (st := false) k1 i1 q3 (.some (s := sym.linkageName)) .nil
      exact this
    split
    · rename_i hx
      refine .pure ⟨rfl, [], [], ?_⟩
      split
      · rename_i hk
        have l := fwd LxA.nil
        rw [List.append_nil] at l
        refine ⟨_, by simp, .nil, l, ?_⟩
        · rw [List.append_nil, List.nil_append]
          refine goodFunc gfwd fun {stmt tok _ _ _} h => ?_
          have := CForm.external (stmt := stmt) (tok := tok) (child := child) h1 h2 hx q1 h
          rw [hk] at this
          exact this
      · rename_i hk
        have e : ";".toList = [';'] := by decide
        refine ⟨_, by simp, .nil, k2 LxA.semi, ?_⟩
        have g := GUnit.proto (st := false) k1 i1 q3 .none .nil
        refine goodFunc (its := [.proto false (cType f.returnType) sym.name ps none]) g fun {stmt tok _ _ _} h => ?_
        have := CForm.external (stmt := stmt) (tok := tok) (child := child) h1 h2 hx q1 h
        have hk : f.isExport = false := by simpa using hk
        rw [hk] at this
        exact this
    · rename_i hx
      have hx : f.isExternal = false := by simpa using hx
      refine .bind (.get (P := fun a s' => a = s ∧ s' = s) ⟨rfl, rfl⟩) ?_
      rintro a b ⟨ha, hb'⟩
      rw [ha, hb']
      clear ha hb' a b
      refine .bind (P := fun _ s' => s' = { s with indent := 0 }) (.modify rfl) ?_
      rintro _ _ rfl
      refine .bind (hb _ rfl) ?_
      rintro r s₁ ⟨b1, tb, gt, gts, b2, b3, b4, ss, its, b5, b6, b7⟩
      refine .bind (P := fun _ s' => s' = { s₁ with indent := s.indent }) (.modify rfl) ?_
      rintro _ _ rfl
      refine .bind (.notNull (P := fun t s' => t = r.getD [] ∧ s' = { s₁ with indent := s.indent }) ⟨rfl, rfl⟩) ?_
      rintro _ _ ⟨rfl, rfl⟩
      have main : ∀ {u tu}, LxA u tu → LxA (typeC f.returnType ++ ' ' :: sym.name ++ '(' :: pt ++ [')'] ++ " {\n".toList ++ r.getD [] ++ "\n}".toList ++ u)
          (tt ++ .id sym.name :: pn "(" :: (tp ++ pn ")" :: pn "{" :: (tb ++ pn "}" :: tu))) := by
        intro u tu hu
        have e1 : " {\n".toList = ' ' :: "{\n".toList := by decide
        have e2 : "\n}".toList = ['\n', '}'] := by decide
        have := k2 (lx_braces (blanks := []) b2 (fun _ h => by cases h) hu).space
        rw [e1, e2]
        simpa only [List.append_assoc, List.cons_append, List.nil_append] using this
      have gmain : ∀ st, GUnit (opt st "static" ++ tt ++ .id sym.name :: pn "(" :: (tp ++ pn ")" :: pn "{" :: (tb ++ pn "}" :: [])))
          [.func st (cType f.returnType) sym.name ps ss] := fun st => .func k1 i1 q3 b5 .nil
      refine .pure ⟨rfl, gt, gts, ?_⟩
      cases hk : f.isExport with
      | true =>
        have l := fwd (main LxA.nil)
        rw [List.append_nil, ← List.append_assoc, ← List.append_assoc, ← List.append_assoc] at l
        simp only [if_true]
        refine ⟨_, b3, b4, l, ?_⟩
        · have g := b6.append (gfwd.append (gmain false))
          refine goodFunc g fun {stmt tok _ _ _} h => ?_
          have := CForm.func (stmt := stmt) (tok := tok) h1 h2 hx q1 b7 h
          rw [hk] at this
          simpa [exported] using this
      | false =>
        have l := lx_opt (b := true) (w := "static") (by decide) (t := "static ".toList) (by decide) (main LxA.nil)
        rw [List.append_nil, if_pos rfl, ← List.append_assoc, ← List.append_assoc, ← List.append_assoc] at l
        simp only [Bool.false_eq_true, if_false]
        refine ⟨_, b3, b4, l, ?_⟩
        · have g := b6.append (gmain true)
          rw [← List.append_assoc (opt true "static")]
          refine goodFunc g fun {stmt tok _ _ _} h => ?_
          have := CForm.func (stmt := stmt) (tok := tok) h1 h2 hx q1 b7 h
          rw [hk] at this
          simpa [exported] using this
  · rintro text s₁ ⟨k1, gt, gts, gts', k2, k3, k4, k5⟩
    refine .modify ⟨k1, [], ?_⟩
    cases hg : s₁.globals with
    | none =>
      rw [hg] at k2
      refine ⟨gt ++ text, _, .nil, ?_, k3.append k4, rfl, k5⟩
      rw [← List.append_assoc, ← k2]
      rfl
    | some g =>
      rw [hg] at k2
      refine ⟨gt ++ '\n' :: text, _, .nil, ?_, k3.append k4.nl, rfl, k5⟩
      rw [← List.append_assoc, ← k2]
      rfl

/- ### Blocks -/

theorem indentation_blank (s : CState) : ∀ c ∈ indentation s, isSpace c = true := by
  intro c hc
  unfold indentation at hc
  rw [List.mem_replicate] at hc
  rw [hc.2]
  decide

theorem Noted.piece {s s₁ s₂ : CState} {r K} (h : Noted s s₁) (hp : Piece s₁ r s₂ K) : Piece s r s₂ K := by
  obtain ⟨h1, h2⟩ := hp
  rw [h.1] at h2
  exact ⟨h1.trans h.2.1, h2⟩

theorem yields_control {word : List Char} {tw : List Tok} (hw : ∀ {u tu}, LxA u tu → LxA (word ++ u) (tw ++ tu)) {e : AExpr} (he : WtE syms e) (hf : Fine syms fmtA e)
    {child : ATree} {body : CGen (Option (List Char))} (hb : ∀ s, Yields body s (fun r s' => Piece s r s' (OkC syms fmtA (s.indent + 1) child))) (s : CState) :
    Yields (controlC ⟨syms, none, fmtA⟩ word e body) s (fun t s' => Piece s (some t) s' fun ts gts => ∃ tc c tb ss its,
      ts = tw ++ (tc ++ pn ")" :: pn "{" :: (tb ++ [pn "}"])) ∧ G 0 tc c ∧ Reads syms fmtA e c ∧ GS tb ss ∧ GUnit gts its ∧ CForm syms fmtA (s.indent + 1) child ss its) := by
  unfold controlC
  refine .bind (yields_expr he hf s) ?_
  rintro t s₁ ⟨k1, k2⟩
  refine .bind (hb s₁) fun r s₂ hp => ?_
  rw [k1.2.1] at hp
  obtain ⟨n1, tb, gt, gts, n2, n3, n4, ss, its, n5, n6, n7⟩ := k1.piece hp
  obtain ⟨tc, c, c1, c2, c3⟩ := k2.then
  refine .bind (.get (P := fun a s' => a = s₂ ∧ s' = s₂) ⟨rfl, rfl⟩) ?_
  rintro _ _ ⟨rfl, rfl⟩
  refine .bind (.notNull (P := fun t s' => t = r.getD [] ∧ s' = _) ⟨rfl, rfl⟩) ?_
  rintro _ _ ⟨rfl, rfl⟩
  rename_i s₂
  have h1 := (lx_braces n2 (indentation_blank s₂) LxA.nil).space
  have h1 : LxA (')' :: ' ' :: ("{\n".toList ++ r.getD [] ++ '\n' :: indentation s₂ ++ ['}'])) (pn ")" :: pn "{" :: (tb ++ [pn "}"])) := .cons (by simp) h1
  have h2 := hw (c3 (x := ')') (by simp) h1)
  refine .pure ⟨n1, _, gt, gts, ?_, n3, n4, tc, c, tb, ss, its, rfl, c1.down 0 (by decide), c2, n5, n6, n7⟩
  have e1 : ") {\n".toList = ')' :: ' ' :: "{\n".toList := by decide
  rw [e1]
  simpa only [List.append_assoc, List.cons_append, List.nil_append, Option.getD_some] using h2

theorem yields_plain {word : List Char} {tw : List Tok} (hw : ∀ {u tu}, LxA u tu → LxA (word ++ u) (tw ++ tu))
    {child : ATree} {body : CGen (Option (List Char))} (hb : ∀ s, Yields body s (fun r s' => Piece s r s' (OkC syms fmtA (s.indent + 1) child))) (s : CState) :
    Yields (plainBlockC word body) s (fun t s' => Piece s (some t) s' fun ts gts => ∃ tb ss its,
      ts = tw ++ pn "{" :: (tb ++ [pn "}"]) ∧ GS tb ss ∧ GUnit gts its ∧ CForm syms fmtA (s.indent + 1) child ss its) := by
  unfold plainBlockC
  refine .bind (hb s) ?_
  rintro r s₂ ⟨n1, tb, gt, gts, n2, n3, n4, ss, its, n5, n6, n7⟩
  refine .bind (.get (P := fun a s' => a = s₂ ∧ s' = s₂) ⟨rfl, rfl⟩) ?_
  rintro _ _ ⟨rfl, rfl⟩
  refine .bind (.notNull (P := fun t s' => t = r.getD [] ∧ s' = _) ⟨rfl, rfl⟩) ?_
  rintro _ _ ⟨rfl, rfl⟩
  rename_i s₂
  have h2 := hw (lx_braces n2 (indentation_blank s₂) LxA.nil)
  refine .pure ⟨n1, _, gt, gts, ?_, n3, n4, tb, ss, its, rfl, n5, n6, n7⟩
  simpa only [List.append_assoc, List.cons_append, List.nil_append, Option.getD_some] using h2

theorem Piece.someBind {m : CGen (List Char)} {s : CState} {K : List Tok → List Tok → Prop} (h : Yields m s (fun t s' => Piece s (some t) s' K)) :
    Yields (do let t ← m; pure (some t)) s (fun r s' => Piece s r s' K) := .bind h fun _ _ h => .pure h

theorem lx_if {u tu} (h : LxA u tu) : LxA ("if (".toList ++ u) ([kw "if", pn "("] ++ tu) := by
  have e : "if (".toList = "if".toList ++ [' ', '('] := by decide
  have := LxA.word (w := "if") (by decide) (LxA.cons (c := '(') (by simp) h)
  rw [e, List.append_assoc]
  exact this

theorem lx_while {u tu} (h : LxA u tu) : LxA ("while (".toList ++ u) ([kw "while", pn "("] ++ tu) := by
  have e : "while (".toList = "while".toList ++ [' ', '('] := by decide
  have := LxA.word (w := "while") (by decide) (LxA.cons (c := '(') (by simp) h)
  rw [e, List.append_assoc]
  exact this

theorem lx_else {u tu} (h : LxA u tu) : LxA ("else ".toList ++ u) ([kw "else"] ++ tu) := by
  have e : "else ".toList = "else".toList ++ [' '] := by decide
  have := LxA.word (w := "else") (by decide) h
  rw [e, List.append_assoc]
  exact this

theorem lx_elseIf {u tu} (h : LxA u tu) : LxA ("else if (".toList ++ u) ([kw "else", kw "if", pn "("] ++ tu) := by
  have e : "else if (".toList = "else ".toList ++ "if (".toList := by decide
  have := lx_else (lx_if h)
  rw [e, List.append_assoc]
  exact this

/- ### Statements -/

/-- The name that an expression begins with, if it does. -/
def leftmost : Exp → Option (List Char)
  | .id s => some s
  | .call f _ => leftmost f
  | .bin _ l _ => leftmost l
  | _ => none

theorem head_append {a b : List Tok} (h : a ≠ []) : (a ++ b).head? = a.head? := by cases a <;> simp_all

theorem G_ne {k t e} (h : G k t e) : t ≠ [] := by
  obtain ⟨a, t', rfl, _⟩ := h.starts
  simp

theorem G_leftmost {k t e} (h : G k t e) : ∀ s, t.head? = some (.id s) → leftmost e = some s := by
  induction h using G.rec (motive_2 := fun _ _ _ => True) (motive_3 := fun _ _ _ => True) with
  | up _ _ ih => exact ih
  | bin _ hl _ ih _ => intro s hs; rw [head_append (G_ne hl)] at hs; exact ih s hs
  | un => intro s hs; simp at hs
  | call hf _ ih => intro s hs; rw [head_append (G_ne hf)] at hs; exact ih s hs
  | id => intro s hs; simp at hs; simp [leftmost, hs]
  | num => intro s hs; simp at hs
  | str => intro s hs; simp at hs
  | paren => intro s hs; simp at hs
  | _ => trivial

/-- A call begins with the name of a function. -/
theorem call_head {t args f ty c k ts} (hr : Reads syms fmtA (.call t args f ty) c) (hg : G k ts c) {w} (hw : ts.head? = some (.id w)) :
    ∃ sym, syms[f]? = some sym ∧ w = sym.name := by
  have h := G_leftmost hg w hw
  cases hr with
  | paren => cases h
  | call h1 h2 =>
    simp only [leftmost, Option.some.injEq] at h
    exact ⟨_, h1, h.symm⟩

theorem lx_num {c : Char} {t : List Char} (hc : isDigit c = true) (ht : (numRest c t).2 = []) : Lx (c :: t) [.num (c :: t)] := .num hc ht

theorem yields_stmt {loop : Bool} {before : List Stmt} {ann : Ann} {stmt : Stmt} {tok : List Token} {child next : ATree} {body : CGen (Option (List Char))}
    (hw : WtNode syms loop before ann stmt child next) (hf : FineAnn syms fmtA ann)
    (hb : ∀ s, Yields body s (fun r s' => Piece s r s' (OkC syms fmtA (s.indent + 1) child))) (s : CState) :
    Yields (genStmtC ⟨syms, none, fmtA⟩ ann stmt tok body) s (fun r s' => Piece s r s' (GoodC syms fmtA before s.indent ann stmt tok child next)) := by
  cases hw with
  | alias => exact .pure (.none' (.mute (not_afterIf (by simp) (by simp) (by simp)) fun _ _ h => .alias h))
  | varDef h1 h2 h3 h4 h5 h6 h7 h8 h9 h10 => exact (yields_varDef h9 hf.2 h1 h2 h3 hf.1 s).mono fun r s' h => h.mono fun a b h => h _ _ _ _ _ _ _ _ _
  | @assign e id sym v a next h1 h2 h3 h4 h5 h6 h7 =>
    unfold genStmtC
    refine .bind (.option (P := fun a s' => a = v ∧ s' = s) (var_eq h1 h2) ⟨rfl, rfl⟩) ?_
    rintro a b ⟨ha, hb'⟩
    rw [ha, hb', h3]
    refine .bind (yields_assign h7 hf.2 h1 hf.1 s) ?_
    rintro t s' ⟨k1, ts, c, k2, k3, k4⟩
    exact .pure (.text k1 k2 (.simple (not_afterIf (by simp) (by simp) (by simp)) k3 fun _ _ h => .assign h1 k4 h))
  | ret =>
    refine .pure (.text (.refl s) (ts := [kw "return", pn ";"]) ?_ (.simple (not_afterIf (by simp) (by simp) (by simp)) .ret fun _ _ h => .ret h))
    have := (lx_word (w := "return".toList) (by decide)).then (c := ';') (by simp) LxA.semi
    exact this
  | retValue _ h =>
    unfold genStmtC
    refine .bind (yields_expr h hf.1 s) ?_
    rintro t s' ⟨k1, k2⟩
    obtain ⟨ts, c, g1, g2, g3⟩ := k2.semi
    refine .pure (.text k1 (ts := kw "return" :: (ts ++ [pn ";"])) ?_ (.simple (not_afterIf (by simp) (by simp) (by simp)) (.retValue (g1.down 0 (by decide))) fun _ _ h => .retValue g2 h))
    have e : "return ".toList = "return".toList ++ [' '] := by decide
    have := LxA.word (w := "return") (by decide) g3
    rw [e, List.append_assoc, List.append_assoc]
    exact this
  | @call e t args f ty child next h hc =>
    unfold genStmtC
    refine .bind (yields_expr h hf.1 s) ?_
    rintro t' s' ⟨k1, k2⟩
    obtain ⟨ts, c, g1, g2, g3⟩ := k2.semi
    refine .pure (.text k1 g3 (.simple (not_afterIf (by simp) (by simp) (by simp)) (.expr (g1.down 0 (by decide)) ?_) fun _ _ h => .expr g2 h))
    intro w hw' hh
    obtain ⟨sym, j1, j2⟩ := call_head g2 g1 hh
    exact (hf.2 _ _ _ _ rfl _ j1).2.1 (j2 ▸ hw')
  | @ifs c a child next h =>
    unfold genStmtC
    refine Piece.someBind ((yields_control lx_if h hf.1 hb s).mono fun t s' hp => hp.mono ?_)
    rintro ts gts ⟨tc, c, tb, ss, its, rfl, g1, g2, g3, g4, g5⟩ tn gn hn
    obtain ⟨te, tn', els, ss', its', rfl, e1, e2, e3, e4⟩ := hn.2 (by simp [AfterIf])
    refine OkC.both ⟨.ifs c ss els ss', its ++ its', ?_, g4.append e3, .ifs g2 g5 e4⟩
    have := GS.ifs g1 g3 e1 e2
    simpa only [List.append_assoc, List.cons_append, List.nil_append] using this
  | @elifs c a child next h _ _ ha =>
    unfold genStmtC
    refine Piece.someBind ((yields_control lx_elseIf h hf.1 hb s).mono fun t s' hp => hp.mono ?_)
    rintro ts gts ⟨tc, c, tb, ss, its, rfl, g1, g2, g3, g4, g5⟩ tn gn hn
    obtain ⟨te, tn', els, ss', its', rfl, e1, e2, e3, e4⟩ := hn.2 (by simp [AfterIf])
    refine ⟨fun h => absurd ha h, fun _ => ⟨_, tn', .ifs c ss els .nil, ss', its ++ its', ?_, GElse.elif g1 g3 e1, e2, g4.append e3, .elif g2 g5 e4⟩⟩
    simp only [List.append_assoc, List.cons_append, List.nil_append]
  | elses ha =>
    unfold genStmtC
    refine Piece.someBind ((yields_plain lx_else hb s).mono fun t s' hp => hp.mono ?_)
    rintro ts gts ⟨tb, ss, its, rfl, g3, g4, g5⟩ tn gn hn
    obtain ⟨ss', its', e2, e3, e4⟩ := hn.1 (by simp [AfterIf])
    exact ⟨fun h => absurd ha h, fun _ => ⟨_, tn, ss, ss', its ++ its', rfl, GElse.els g3, e2, g4.append e3, .els g5 e4⟩⟩
  | @whiles c a child next h =>
    unfold genStmtC
    refine Piece.someBind ((yields_control lx_while h hf.1 hb s).mono fun t s' hp => hp.mono ?_)
    rintro ts gts ⟨tc, c, tb, ss, its, rfl, g1, g2, g3, g4, g5⟩ tn gn hn
    obtain ⟨ss', its', e2, e3, e4⟩ := hn.1 (by simp [AfterIf])
    refine OkC.both ⟨.whiles c ss ss', its ++ its', ?_, g4.append e3, .whiles g2 g5 e4⟩
    have := GS.whiles g1 g3 e2
    simpa only [List.append_assoc, List.cons_append, List.nil_append] using this
  | breaks =>
    refine .pure (.text (.refl s) (ts := [kw "break", pn ";"]) ?_ (.simple (not_afterIf (by simp) (by simp) (by simp)) .breaks fun _ _ h => .breaks h))
    have := (lx_word (w := "break".toList) (by decide)).then (c := ';') (by simp) LxA.semi
    exact this
  | continues =>
    refine .pure (.text (.refl s) (ts := [kw "continue", pn ";"]) ?_ (.simple (not_afterIf (by simp) (by simp) (by simp)) .continues fun _ _ h => .continues h))
    have := (lx_word (w := "continue".toList) (by decide)).then (c := ';') (by simp) LxA.semi
    exact this
  | @func p id sym f params _ _ h1 h2 h3 h4 h5 h6 h7 h8 h9 =>
    unfold genStmtC
    refine .bind (yields_function (child := child) h1 h2 h7 ?_ hf.1 hf.2 (fun s hs => ?_) s) fun _ s' h => .pure (h.mono ?_)
    · intro id hid
      obtain ⟨i, hi⟩ := List.getElem?_of_mem hid
      have hlt : i < f.paramTypes.length := by
        have := (List.getElem?_eq_some_iff.1 hi).1
        omega
      exact ⟨_, h8 i id _ hi (List.getElem?_eq_getElem hlt)⟩
    · have := hb s
      rw [hs] at this
      exact this
    · rintro ts gts ⟨rfl, h⟩
      exact h _ _ _ _
  | @ns id sym child next h1 =>
    unfold genStmtC
    refine .bind (.option (P := fun a s' => a = sym ∧ s' = s) h1 ⟨rfl, rfl⟩) ?_
    rintro a b ⟨ha, hb'⟩
    rw [ha, hb']
    have hp : PlainText sym.name := by
      obtain ⟨⟨c, t, e, n1, n2, _⟩, _⟩ := hf _ h1
      intro d hd
      have : isIdChar d = true := by
        rw [e] at hd
        rcases List.mem_cons.1 hd with rfl | hd
        · simp [isIdChar, n1]
        · exact n2 d hd
      refine ⟨?_, ?_, ?_⟩ <;> (rintro rfl; revert this; decide)
    have hw : ∀ {u tu}, LxA u tu → LxA ('"' :: sym.name ++ "\"; ".toList ++ u) ([.str sym.name, pn ";"] ++ tu) := by
      intro u tu hu
      have e : "\"; ".toList = ['"', ';', ' '] := by decide
      have h1 : LxA (';' :: ' ' :: u) (pn ";" :: tu) := .cons (by simp) hu.space
      have := (Lx.str hp).then (c := ';') (by simp) h1
      rw [e]
      simpa only [List.append_assoc, List.cons_append, List.nil_append] using this
    refine Piece.someBind ((yields_plain hw hb s).mono fun t s' hp => hp.mono ?_)
    rintro ts gts ⟨tb, ss, its, rfl, g3, g4, g5⟩ tn gn hn
    obtain ⟨ss', its', e2, e3, e4⟩ := hn.1 (by simp [AfterIf])
    refine OkC.both ⟨.simple (.expr (.str sym.name)) (.block ss ss'), its ++ its', ?_, g4.append e3, .ns h1 g5 e4⟩
    have := GS.simple (GSimple.expr ((G.str (s := sym.name)).down 0 (by decide)) (by simp)) (GS.block g3 e2)
    simpa only [List.append_assoc, List.cons_append, List.nil_append] using this
  | unreachable =>
    refine .pure (.text (.refl s) (ts := [kw "while", pn "(", .num ['1'], pn ")", pn "{", pn "}"]) ?_ (.plain (not_afterIf (by simp) (by simp) (by simp)) ?_))
    · have h1 : LxA "{}".toList [pn "{", pn "}"] := LxA.cons (c := '{') (s := ['}']) (by simp) (LxA.cons (by simp) .nil)
      have h1 : LxA (')' :: ' ' :: "{}".toList) [pn ")", pn "{", pn "}"] := .cons (by simp) h1.space
      have := lx_while ((lx_num (c := '1') (t := []) (by decide) (by decide)).then (c := ')') (by simp) h1)
      exact this
    · rintro tn gn ⟨ss, its, h1, h2, h3⟩
      exact ⟨_, its, GS.whiles (G.num.down 0 (by decide)) .nil h1, h2, .unreachable h3⟩
  | other h =>
    rcases h with rfl | rfl | rfl | rfl
    · refine .pure (.text (.refl s) (ts := [pn "(", kw "void", pn ")", .num ['0'], pn ";"]) ?_ (.simple (not_afterIf (by simp) (by simp) (by simp)) .skip fun _ _ h => .noop h))
      have h1 := (lx_num (c := '0') (t := []) (by decide) (by decide)).then (c := ';') (by simp) LxA.semi
      have := LxA.cons (c := '(') (by simp) ((lx_word (w := "void".toList) (by decide)).then (c := ')') (by simp) (LxA.cons (by simp) h1))
      exact this
    · refine .pure (.none' ?_)
      intro tn gn h
      refine ⟨fun ha => ?_, fun ha => ?_⟩
      · obtain ⟨ss, its, h1, h2, h3⟩ := h.1 ha
        exact ⟨ss, its, h1, h2, .silent (.inl rfl) h3⟩
      · obtain ⟨te, tn', els, ss', its', rfl, e1, e2, e3, e4⟩ := h.2 ha
        exact ⟨te, tn', els, ss', its', rfl, e1, e2, e3, .comment e4⟩
    · exact .pure (.none' (.mute (not_afterIf (by simp) (by simp) (by simp)) fun _ _ h => .silent (.inr (.inl rfl)) h))
    · exact .pure (.none' (.mute (not_afterIf (by simp) (by simp) (by simp)) fun _ _ h => .silent (.inr (.inr rfl)) h))

/- ### Blocks and files -/

theorem lx_join {a b : Option (List Char)} {ta tb} (ha : LxA (a.getD []) ta) (hb : LxA (b.getD []) tb) : LxA ((joinStmts a b).getD []) (ta ++ tb) := by
  have nil : ∀ {t : List Tok}, LxA [] t → t = [] := by
    intro t h
    have := h.lex
    simp [lex, lexN] at this
    exact this
  cases a with
  | none =>
    rw [nil ha]
    cases b <;> simpa [joinStmts] using hb
  | some a =>
    cases b with
    | none =>
      rw [nil hb, List.append_nil]
      exact ha
    | some b =>
      have := ha.append hb.nl
      simpa [joinStmts] using this

theorem join_assoc (a b c : Option (List Char)) : joinStmts (joinStmts a b) c = joinStmts a (joinStmts b c) := by
  cases a <;> cases b <;> cases c <;> simp [joinStmts]

theorem yields_indent {tok : List Token} {t : Option (List Char)} {ts : List Tok} (ht : LxA (t.getD []) ts) (s : CState) :
    Yields (indentC ⟨syms, none, fmtA⟩ tok t) s (fun r s' => s' = s ∧ LxA (r.getD []) ts) := by
  cases t with
  | none => exact .pure ⟨rfl, ht⟩
  | some t =>
    unfold indentC
    refine .bind (.get (P := fun a s' => a = s ∧ s' = s) ⟨rfl, rfl⟩) ?_
    rintro a b ⟨ha, hb⟩
    rw [ha, hb]
    refine .bind (.pure (P := fun t' s' => t' = indentation s ++ t ∧ s' = s) ⟨rfl, rfl⟩) ?_
    rintro t' b ⟨ha, hb⟩
    rw [ha, hb]
    refine .pure ⟨rfl, ?_⟩
    have := (LxA.blanks (indentation_blank s)).append ht
    exact this

theorem Piece.seq {s s₁ s₂ : CState} {r₁ r₂ : Option (List Char)} {K₁ K₂ K : List Tok → List Tok → Prop} (h₁ : Piece s r₁ s₁ K₁) (h₂ : Piece s₁ r₂ s₂ K₂)
    (hk : ∀ t g t' g', K₁ t g → K₂ t' g' → K (t ++ t') (g ++ g')) : Piece s (joinStmts r₁ r₂) s₂ K := by
  obtain ⟨a1, ts, gt, gts, a2, a3, a4, a5⟩ := h₁
  obtain ⟨b1, ts', gt', gts', b2, b3, b4, b5⟩ := h₂
  exact ⟨b1.trans a1, ts ++ ts', gt ++ gt', gts ++ gts', lx_join a2 b2, by rw [b3, a3, List.append_assoc], a4.append b4, hk _ _ _ _ a5 b5⟩

theorem yields_nodes : ∀ {t : ATree} {loop : Bool} {before : List Stmt}, WtTree syms loop before t → FineTree syms fmtA t → ∀ (acc : Option (List Char)) (s : CState),
    Yields (genNodesC ⟨syms, none, fmtA⟩ acc t) s (fun r s' => ∃ r', r = joinStmts acc r' ∧ Piece s r' s' (BothC syms fmtA before s.indent t))
  | .nil, _, _, _, _, acc, s => by
    unfold genNodesC
    refine .pure ⟨none, by cases acc <;> rfl, .none' (OkC.both ⟨.nil, [], .nil, .nil, .nil⟩)⟩
  | .unchecked _, _, _, _, _, acc, s => by
    unfold genNodesC
    exact .ub
  | .node ann stmt tok child next, loop, before, hw, hf, acc, s => by
    cases hw with
    | node h1 h2 h3 =>
      obtain ⟨f1, f2, f3⟩ := hf
      unfold genNodesC
      refine .bind (yields_stmt h1 f1 ?_ s) ?_
      · intro s
        refine .bind (P := fun _ s' => s' = { s with indent := s.indent + 1 }) (.modify rfl) ?_
        rintro _ _ rfl
        refine .bind (yields_nodes h2 f2 none _) ?_
        rintro r s₁ ⟨r', hr, p1, p2⟩
        refine .bind (P := fun _ s' => s' = { s₁ with indent := s₁.indent - 1 }) (.modify rfl) ?_
        rintro _ _ rfl
        refine .pure ⟨by simp [p1], ?_⟩
        obtain ⟨ts, gt, gts, q1, q2, q3, q4⟩ := p2
        refine ⟨ts, gt, gts, ?_, q2, q3, q4.1 (by simp [AfterIf])⟩
        have : r = r' := by rw [hr]; cases r' <;> rfl
        rw [this]
        exact q1
      · rintro r s₁ ⟨p1, ts, gt, gts, q1, q2, q3, q4⟩
        refine .bind (yields_indent q1 s₁) ?_
        rintro r₂ b ⟨hb, q1'⟩
        rw [hb]
        refine (yields_nodes h3 f3 _ s₁).mono ?_
        rintro r₃ s₃ ⟨r', hr, hp⟩
        refine ⟨joinStmts r₂ r', by rw [hr, join_assoc], ?_⟩
        rw [p1] at hp
        exact Piece.seq ⟨p1, ts, gt, gts, q1', q2, q3, q4⟩ hp fun t g t' g' k1 k2 => k1 t' g' k2

theorem shim_text (S I N V A Q B R M main tree : List Char) :
    S ++ ' ' :: (I ++ ' ' :: (N ++ '(' :: (V ++ ')' :: (A ++ main ++ Q ++ ';' :: '\n' :: (S ++ ' ' :: (I ++ ' ' :: (N ++ '(' :: (V ++ ')' :: ' ' ::
      (B ++ (tree ++ '\n' :: '\t' :: R) ++ '\n' :: [] ++ '}' :: '\n' :: M))))))))) =
    (S ++ ' ' :: (I ++ ' ' :: (N ++ '(' :: (V ++ ')' :: A)))) ++ main ++ (Q ++ ';' :: '\n' :: (S ++ ' ' :: (I ++ ' ' :: (N ++ '(' :: (V ++ ')' :: ' ' :: B))))) ++ tree ++
      ('\n' :: '\t' :: (R ++ '\n' :: '}' :: ['\n'])) ++ M := by
  simp only [List.append_assoc, List.cons_append, List.nil_append]

/-- The three last items of the file. -/
theorem lx_shim {main tree : List Char} {ts : List Tok} (hm : PlainText main) (ht : LxA tree ts) :
    ∃ toks, LxA ("static int init(void) __asm__(\"".toList ++ main ++ "\");\nstatic int init(void) {\n".toList ++ tree ++ "\n\treturn 0;\n}\n".toList ++
      "int main(void) { return init(); }\n".toList) toks ∧
      ∀ ss, GS ts ss → GUnit toks [.proto true (.base "int".toList) "init".toList [] (some main),
        .func true (.base "int".toList) "init".toList [] (ss.append (.simple (.ret (some (.num ['0']))) .nil)),
        .func false (.base "int".toList) "main".toList [] (.simple (.ret (some (.call (.id "init".toList) .nil))) .nil)] := by
  have tInt : ∀ {u tu}, LxA u tu → LxA ("int".toList ++ ' ' :: u) ([.id "int".toList] ++ tu) := fun h => LxA.word (w := "int") (by decide) h
  have gInt : GType [.id "int".toList] (.base "int".toList) := .base (by decide)
  have head : ∀ (n : String), (match n.toList with | c :: t => isIdStart c && t.all isIdChar | [] => false) = true → ∀ {u tu}, LxA u tu →
      LxA ("int".toList ++ ' ' :: (n.toList ++ '(' :: ("void".toList ++ ')' :: u))) ([.id "int".toList] ++ .id n.toList :: pn "(" :: ([kw "void"] ++ pn ")" :: tu)) := by
    intro n hn u tu hu
    have h1 : LxA (')' :: u) (pn ")" :: tu) := .cons (by simp) hu
    have h2 : LxA ('(' :: ("void".toList ++ ')' :: u)) (pn "(" :: ([kw "void"] ++ pn ")" :: tu)) :=
      .cons (by simp) ((lx_word (w := "void".toList) (by decide)).then (by simp) h1)
    exact tInt ((lx_word hn).then (c := '(') (by simp) h2)
  have st : ∀ {u tu}, LxA u tu → LxA ("static".toList ++ ' ' :: u) (opt true "static" ++ tu) := fun h => LxA.word (w := "static") (by decide) h
  have ret0 : LxA "return 0;".toList [kw "return", .num ['0'], pn ";"] := by
    have := LxA.word (w := "return") (by decide) ((lx_num (c := '0') (t := []) (by decide) (by decide)).then (c := ';') (by simp) LxA.semi)
    exact this
  have retInit : LxA "return init();".toList [kw "return", .id "init".toList, pn "(", pn ")", pn ";"] := by
    have h1 : LxA "();".toList [pn "(", pn ")", pn ";"] := LxA.cons (c := '(') (s := [')', ';']) (by simp) (LxA.cons (c := ')') (s := [';']) (by simp) LxA.semi)
    have := LxA.word (w := "return") (by decide) ((lx_word (w := "init".toList) (by decide)).then (c := '(') (by simp) h1)
    exact this
  have body : LxA (tree ++ '\n' :: '\t' :: "return 0;".toList) (ts ++ [kw "return", .num ['0'], pn ";"]) :=
    ht.append (LxA.nl ((LxA.blanks (s := ['\t']) (by decide)).append ret0))
  have gret : GS [kw "return", .id "init".toList, pn "(", pn ")", pn ";"] (.simple (.ret (some (.call (.id "init".toList) .nil))) .nil) := by
    have h1 : G 12 [.id "init".toList, .p ['('], .p [')']] (.call (.id "init".toList) .nil) := G.call (t := [.id "init".toList]) ((G.id (by decide)).down 12 (by decide)) .none
    have := GS.simple (GSimple.retValue (h1.down 0 (by decide))) .nil
    exact this
  have initId : IsIdent "init".toList := ⟨by decide, by decide⟩
  have mainId : IsIdent "main".toList := ⟨by decide, by decide⟩
  -- the three items
  have l3 : LxA "int main(void) { return init(); }\n".toList ([.id "int".toList] ++ .id "main".toList :: pn "(" :: ([kw "void"] ++ pn ")" :: pn "{" ::
      ([kw "return", .id "init".toList, pn "(", pn ")", pn ";"] ++ pn "}" :: []))) := by
    have h1 : LxA ('}' :: ['\n']) (pn "}" :: []) := .cons (by simp) LxA.nil.nl
    have h2 : LxA ('{' :: ' ' :: ("return init();".toList ++ ' ' :: '}' :: ['\n'])) (pn "{" :: ([kw "return", .id "init".toList, pn "(", pn ")", pn ";"] ++ pn "}" :: [])) :=
      .cons (by simp) (retInit.append h1.space).space
    have h3 := head "main" (by decide) h2.space
    have e : "int main(void) { return init(); }\n".toList = "int".toList ++ ' ' :: ("main".toList ++ '(' :: ("void".toList ++ ')' :: ' ' :: '{' :: ' ' ::
      ("return init();".toList ++ ' ' :: '}' :: ['\n']))) := by decide
    rw [e]
    exact h3
  have gu3 := GUnit.func (st := false) gInt mainId .none gret .nil
  have l2 := st (head "init" (by decide) (lx_braces (blanks := []) body (fun _ h => by cases h) (l3.nl)).space)
  have l2' : LxA (';' :: '\n' :: _) (pn ";" :: _) := LxA.cons (c := ';') (by simp) l2.nl
  have l1 : LxA (asmName main ++ ';' :: '\n' :: _) _ := lx_asm hm l2'
  have l0 := st (head "init" (by decide) l1)
  have e1 : "static int init(void) __asm__(\"".toList = "static".toList ++ ' ' :: ("int".toList ++ ' ' :: ("init".toList ++ '(' :: ("void".toList ++ ')' :: " __asm__(\"".toList))) := by decide
  have e2 : "\");\nstatic int init(void) {\n".toList = "\")".toList ++ ';' :: '\n' :: ("static".toList ++ ' ' :: ("int".toList ++ ' ' :: ("init".toList ++ '(' ::
    ("void".toList ++ ')' :: ' ' :: "{\n".toList)))) := by decide
  have e3 : "\n\treturn 0;\n}\n".toList = '\n' :: '\t' :: ("return 0;".toList ++ '\n' :: '}' :: ['\n']) := by decide
  have cast : ∀ {x y : List Char} {t : List Tok}, LxA x t → x = y → LxA y t := fun h e => e ▸ h
  have l := cast l0 (shim_text _ _ _ _ _ _ _ _ _ main tree)
  rw [e1, e2, e3]
  refine ⟨_, l, fun ss hs => ?_⟩
  have gbody : GS (ts ++ [kw "return", .num ['0'], pn ";"]) (ss.append (.simple (.ret (some (.num ['0']))) .nil)) :=
    GS.append (GS.simple (.retValue (G.num.down 0 (by decide))) .nil) hs
  have gu1 := GUnit.proto (st := true) gInt initId .none (.some (s := main)) (GUnit.func (st := true) gInt initId .none gbody gu3)
  have of : opt false "static" = [] := rfl
  simpa only [of, List.append_assoc, List.cons_append, List.nil_append] using gu1

/-- The file behind the functions of the run time. -/
theorem file_reading {a : ATree} {main : List Char} {tree : Option (List Char)} {s : CState} (hw : WtTree syms false [] a) (hf : FineTree syms fmtA a)
    (hm : PlainText main) (h : genModuleC ⟨syms, none, fmtA⟩ a = some (tree, s)) :
    ∃ toks items, LxA ((match s.globals with | some g => g ++ "\n\n".toList | none => []) ++ ("static int init(void) __asm__(\"".toList ++ main ++
      "\");\nstatic int init(void) {\n".toList ++ tree.getD [] ++ "\n\treturn 0;\n}\n".toList ++ "int main(void) { return init(); }\n".toList)) toks ∧ GUnit toks items ∧
      IsProgram syms fmtA main a items := by
  have hy : Yields (do
      CGen.modify fun s => { s with indent := s.indent + 1 }
      let t ← genNodesC ⟨syms, none, fmtA⟩ none a
      CGen.modify fun s => { s with indent := s.indent - 1 }
      pure t : CGen (Option (List Char))) {} (fun r s' => Piece {} r s' (OkC syms fmtA 1 a)) := by
    refine .bind (P := fun _ s' => s' = { ({} : CState) with indent := 1 }) (.modify rfl) ?_
    rintro _ _ rfl
    refine .bind (yields_nodes hw hf none _) ?_
    rintro r s₁ ⟨r', hr, p1, p2⟩
    refine .bind (P := fun _ s' => s' = { s₁ with indent := s₁.indent - 1 }) (.modify rfl) ?_
    rintro _ _ rfl
    refine .pure ⟨by simp [p1], ?_⟩
    obtain ⟨ts, gt, gts, q1, q2, q3, q4⟩ := p2
    refine ⟨ts, gt, gts, ?_, q2, q3, q4.1 (by simp [AfterIf])⟩
    have : r = r' := by rw [hr]; cases r' <;> rfl
    rw [this]
    exact q1
  obtain ⟨_, ts, gt, gts, q1, q2, q3, ss, its, g1, g2, g3⟩ := hy _ _ h
  have hg : LxA (match s.globals with | some g => g ++ "\n\n".toList | none => []) gts := by
    have e : "\n\n".toList = ['\n', '\n'] := by decide
    cases hs : s.globals with
    | none =>
      rw [hs] at q2
      have : gt = [] := by simpa using q2.symm
      rw [this] at q3
      exact q3
    | some g =>
      rw [hs] at q2
      have : gt = g := by simpa using q2.symm
      rw [this] at q3
      have := q3.append (LxA.nil.nl.nl)
      simp only [e]
      simpa using this
  obtain ⟨toks, l, g⟩ := lx_shim hm q1
  exact ⟨_, _, hg.append l, g2.append (g _ g1), ss, its, g3, rfl⟩

end
end Skull
