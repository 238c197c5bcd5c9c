import Verif.Proofs.CDebug
/-
Statements, functions, and whole programs with debug information and without.
-/
namespace Skull.CDebug
open Spec Spec.C

section
variable {syms : List Symbol} {file : List Char} {fmtA : Nat → List Char}

/-- The steps that write the statements of a block. -/
def Bodies (file : List Char) (body body' : CGen (Option (List Char))) (child : ATree) : Prop :=
  ∀ gs s s' d, Same gs s s' → s.indent = d → Twin body body' s s' (TRes (gs ++ placesOutside file (d + 1) child) d (places file (d + 1) child))

theorem twin_notNull {ms r r'} (h : Texts ms r r') {gs s s' d} (hs : Same gs s s') (hd : s.indent = d) :
    Twin (notNull r) (notNull r') s s' (fun t u t' u' => T t t' ms ∧ Same gs u u' ∧ u.indent = d) := by
  rcases h with ⟨rfl, rfl, _⟩ | ⟨x, x', rfl, rfl, h⟩
  · exact .ub
  · exact .pure ⟨h, hs, hd⟩

theorem twin_get {gs s s' d} (hs : Same gs s s') (hd : s.indent = d) :
    Twin (fun s => some (s, s) : CGen CState) (fun s => some (s, s)) s s' (fun x u x' u' => x = u ∧ x' = u' ∧ Same gs u u' ∧ u.indent = d) :=
  .get ⟨rfl, rfl, hs, hd⟩

theorem indentation_eq {gs s s'} (h : Same gs s s') : ∃ n, indentation s = List.replicate n '\t' ∧ indentation s' = List.replicate n '\t' := by
  unfold indentation
  rw [h.indent]
  exact ⟨_, rfl, rfl⟩

theorem one_tabs (n : Nat) : OneLine (List.replicate n '\t') := fun hm => absurd (List.mem_replicate.1 hm).2 (by decide)

/-- A block behind its first line. -/
theorem block_text {w tree tree' ms} (h1 : OneLine w) (h2 : Calm w) (ht : T tree tree' ms) (n : Nat) :
    F (w ++ "{\n".toList ++ tree ++ '\n' :: List.replicate n '\t' ++ ['}']) (w ++ "{\n".toList ++ tree' ++ '\n' :: List.replicate n '\t' ++ ['}'])
      (ms ++ [none]) := by
  have e : "{\n".toList = ['{', '\n'] := by decide
  have e' : ∀ x : List Char, w ++ "{\n".toList ++ x ++ '\n' :: List.replicate n '\t' ++ ['}'] =
      (w ++ ['{']) ++ '\n' :: (x ++ '\n' :: (List.replicate n '\t' ++ ['}'])) := by
    intro x
    rw [e]
    simp
  rw [e', e']
  refine .join (h1.app (by unfold OneLine; decide)) ?_ (ht.join (.line ((one_tabs n).app (by unfold OneLine; decide)) ?_))
  · unfold Calm at h2 ⊢
    by_cases hw : w.dropWhile isBlank = []
    · rw [List.dropWhile_append, hw]; decide
    · cases hb : w.dropWhile isBlank with
      | nil => exact absurd hb hw
      | cons c r =>
        rw [List.dropWhile_append, hb]
        rw [hb] at h2
        exact h2
  · exact Calm.tabs (calm_cons (by decide) (by decide) (by decide)) n

theorem twin_control (hn : OneLineNames syms) (hf : ∀ b, OneLine (fmtA b)) {word : List Char} {e : AExpr} {body body' child} (hw : OneLine word)
    (hc : ∀ r, Calm (word ++ r)) (h : oneLineE e = true) (hb : Bodies file body body' child) {gs s s' d} (hs : Same gs s s') (hd : s.indent = d) :
    Twin (controlC ⟨syms, some file, fmtA⟩ word e body) (controlC ⟨syms, none, fmtA⟩ word e body') s s'
      (fun t u t' u' => Same (gs ++ placesOutside file (d + 1) child) u u' ∧ u.indent = d ∧ F t t' (places file (d + 1) child ++ [none])) := by
  unfold controlC
  refine .bind (twin_expr hn hf h hs hd) ?_
  rintro a u _ u' ⟨⟨rfl, h1, h2⟩, h3⟩
  refine .bind (hb gs u u' d h1 h2) ?_
  rintro r v r' v' ⟨h4, h5, h6⟩
  refine .bind (twin_get h4 h5) ?_
  rintro x w x' w' ⟨rfl, rfl, h7, h8⟩
  refine .bind (twin_notNull h6 h7 h8) ?_
  rintro t w t' w' ⟨h9, h10, h11⟩
  refine .pure ⟨h10, h11, ?_⟩
  obtain ⟨n, n1, n2⟩ := indentation_eq h7
  rw [n1, n2]
  have := block_text (w := word ++ (a ++ ") ".toList)) (hw.app (h3.app (by unfold OneLine; decide))) (hc _) h9 n
  have e : ") {\n".toList = ") ".toList ++ "{\n".toList := by decide
  rw [e]
  simpa only [List.append_assoc] using this

theorem twin_plain {word : List Char} {body body' child} (hw : OneLine word) (hc : Calm word) (hb : Bodies file body body' child) {gs s s' d}
    (hs : Same gs s s') (hd : s.indent = d) :
    Twin (plainBlockC word body) (plainBlockC word body') s s'
      (fun t u t' u' => Same (gs ++ placesOutside file (d + 1) child) u u' ∧ u.indent = d ∧ F t t' (places file (d + 1) child ++ [none])) := by
  unfold plainBlockC
  refine .bind (hb gs s s' d hs hd) ?_
  rintro r v r' v' ⟨h4, h5, h6⟩
  refine .bind (twin_get h4 h5) ?_
  rintro x w x' w' ⟨rfl, rfl, h7, h8⟩
  refine .bind (twin_notNull h6 h7 h8) ?_
  rintro t w t' w' ⟨h9, h10, h11⟩
  refine .pure ⟨h10, h11, ?_⟩
  obtain ⟨n, n1, n2⟩ := indentation_eq h7
  rw [n1, n2]
  exact block_text hw hc h9 n

theorem twin_map {f f' : α → CGen (List Char)} {gs d} (h : ∀ a s s', Same gs s s' → s.indent = d →
      Twin (f a) (f' a) s s' (fun t u t' u' => Eq1 gs d t u t' u' ∧ OneLine t)) : ∀ (as : List α) {s s'}, Same gs s s' → s.indent = d →
      Twin (mapGen f as) (mapGen f' as) s s' (fun t u t' u' => Eq1 gs d t u t' u' ∧ ∀ x ∈ t, OneLine x)
  | [], s, s', hs, hd => .pure ⟨⟨rfl, hs, hd⟩, by simp⟩
  | a :: as, s, s', hs, hd => by
    refine .bind (h a s s' hs hd) ?_
    rintro t u _ u' ⟨⟨rfl, h1, h2⟩, h3⟩
    refine .bind (twin_map h as h1 h2) ?_
    rintro ts v _ v' ⟨⟨rfl, h4, h5⟩, h6⟩
    refine .pure ⟨⟨rfl, h4, h5⟩, fun x hx => ?_⟩
    rcases List.mem_cons.1 hx with rfl | hx
    · exact h3
    · exact h6 x hx

theorem twin_params (hn : OneLineNames syms) {f : Func} {params : List Nat} {gs s s' d} (hs : Same gs s s') (hd : s.indent = d) :
    Twin (paramsC ⟨syms, some file, fmtA⟩ f params) (paramsC ⟨syms, none, fmtA⟩ f params) s s' (fun t u t' u' => Eq1 gs d t u t' u' ∧ OneLine t) := by
  unfold paramsC
  refine .bind (twin_map ?_ _ hs hd) ?_
  · intro id s s' hs hd
    unfold paramC
    refine .bind (P := fun v t v' t' => Eq1 gs d v t v' t' ∧ OneLine v.name) (.option fun v hv => ⟨⟨rfl, hs, hd⟩, (var_names hn hv).1⟩) ?_
    rintro v t _ t' ⟨⟨rfl, h1, h2⟩, h3⟩
    exact .pure ⟨⟨rfl, h1, h2⟩, (one_type _).app (one_cons (by decide) h3)⟩
  · rintro ts v _ v' ⟨⟨rfl, h4, h5⟩, h6⟩
    refine .pure ⟨⟨rfl, h4, h5⟩, ?_⟩
    split
    · unfold OneLine; decide
    · exact one_join h6

theorem debug_text (n : Nat) (t : List Char) :
    "#line ".toList ++ decText n ++ " \"".toList ++ file ++ "\"\n".toList ++ t = dirText n file ++ '\n' :: t := by
  unfold dirText
  have e : "\"\n".toList = ['"', '\n'] := by decide
  rw [e]
  simp

theorem twin_debug (hfile : PlainText file) {tok : List Token} {t t' ms} (h : F t t' ms) {gs s s' d} (hs : Same gs s s') (hd : s.indent = d) :
    Twin (debugC ⟨syms, some file, fmtA⟩ tok t) (debugC ⟨syms, none, fmtA⟩ tok t') s s'
      (fun t u t' u' => Same gs u u' ∧ u.indent = d ∧ T t t' (placeOf file tok :: ms)) := by
  cases tok with
  | nil => exact .ub
  | cons tk r =>
    refine .pure ⟨hs, hd, ?_⟩
    rw [debug_text]
    exact h.told tk.line hfile

/-- What is told about the lines of a function, if it is external. -/
def protoPlaces (file : List Char) (p : Func) (tok : List Token) (child : ATree) : List (Option Place) :=
  if p.isExternal then none :: (if p.isExport then [none] else [])
  else placeOf file tok :: (if p.isExport then [none] else []) ++ places file 1 child ++ [none]

theorem twin_prototype (hn : OneLineNames syms) (hfile : PlainText file) {id : Nat} {params : List Nat} {tok : List Token} {body body' child}
    (hb : Bodies file body body' child) {sym : Symbol} {f : Func} (h1 : CCfg.func ⟨syms, some file, fmtA⟩ id = some (sym, f)) {gs s s' d}
    (hs : Same gs s s') (hd : s.indent = d) :
    Twin (prototypeC ⟨syms, some file, fmtA⟩ id params tok body) (prototypeC ⟨syms, none, fmtA⟩ id params tok body') s s'
      (fun t u t' u' => Same (gs ++ if f.isExternal then [] else placesOutside file 1 child) u u' ∧ u.indent = d ∧ T t t' (protoPlaces file f tok child)) := by
  unfold prototypeC
  have h1' : CCfg.func ⟨syms, none, fmtA⟩ id = some (sym, f) := h1
  rw [h1, h1']
  obtain ⟨n1, n2, n3⟩ := func_names hn h1
  refine .bind (P := fun v t v' t' => v = (sym, f) ∧ v' = (sym, f) ∧ Same gs t t' ∧ t.indent = d) (.pure ⟨rfl, rfl, hs, hd⟩) ?_
  rintro _ t _ t' ⟨rfl, rfl, h2, h3⟩
  refine .bind (twin_params hn h2 h3) ?_
  rintro ps u _ u' ⟨⟨rfl, h4, h5⟩, h6⟩
  have o1 : OneLine (typeC f.returnType ++ ' ' :: sym.name ++ '(' :: ps ++ [')']) :=
    .app (.app (.app (one_type _) (one_cons (by decide) n1)) (one_cons (by decide) h6)) (by unfold OneLine; decide)
  have c1 : ∀ r, Calm (typeC f.returnType ++ ' ' :: sym.name ++ '(' :: ps ++ [')'] ++ r) := by
    intro r
    simp only [List.append_assoc]
    exact calm_type _ _
  generalize hh : typeC f.returnType ++ ' ' :: sym.name ++ '(' :: ps ++ [')'] = head at o1 c1 ⊢
  have ef : ∀ r : List Char, head ++ asmName sym.linkageName ++ ";\n".toList ++ r = (head ++ (asmName sym.linkageName ++ [';'])) ++ '\n' :: r := by
    intro r
    have e : ";\n".toList = [';', '\n'] := by decide
    rw [e]
    simp
  have o2 : OneLine (head ++ (asmName sym.linkageName ++ [';'])) := o1.app ((one_asm n3).app (by unfold OneLine; decide))
  by_cases hx : f.isExternal = true
  · simp only [hx, if_true]
    refine .pure ⟨by simpa using h4, h5, ?_⟩
    unfold protoPlaces
    rw [if_pos hx]
    by_cases he : f.isExport = true
    · rw [if_pos he, if_pos he]
      have := ef []
      rw [List.append_nil] at this
      rw [this]
      exact (T.line o2 (c1 _)).join (T.line one_nil calm_nil)
    · rw [if_neg he, if_neg he]
      exact T.line (o1.app (by unfold OneLine; decide)) (c1 _)
  · simp only [hx]
    refine .bind (twin_get h4 h5) ?_
    rintro x w x' w' ⟨rfl, rfl, h7, h8⟩
    refine .bind (P := fun _ w _ w' => Same gs w w' ∧ w.indent = 0) (.modify ⟨h7.indent_eq 0, rfl⟩) ?_
    rintro _ w _ w' ⟨h9, h10⟩
    refine .bind (hb gs w w' 0 h9 h10) ?_
    rintro r y r' y' ⟨h11, h12, h13⟩
    refine .bind (P := fun _ w _ w' => Same (gs ++ placesOutside file 1 child) w w' ∧ w.indent = d) (.modify ⟨?_, h8⟩) ?_
    · rw [← h7.indent]
      exact h11.indent_eq _
    · rintro _ z _ z' ⟨h14, h15⟩
      refine .bind (twin_notNull h13 h14 h15) ?_
      rintro tr q tr' q' ⟨h16, h17, h18⟩
      have e : ∀ x : List Char, head ++ " {\n".toList ++ x ++ "\n}".toList = (head ++ " {".toList) ++ '\n' :: (x ++ '\n' :: ['}']) := by
        intro x
        have e1 : " {\n".toList = " {".toList ++ ['\n'] := by decide
        have e2 : "\n}".toList = ['\n', '}'] := by decide
        rw [e1, e2]
        simp
      have ft : T (tr ++ '\n' :: ['}']) (tr' ++ '\n' :: ['}']) (places file 1 child ++ [none]) :=
        h16.join (.line (by unfold OneLine; decide) (by unfold Calm; decide))
      have o3 : OneLine (head ++ " {".toList) := o1.app (by unfold OneLine; decide)
      unfold protoPlaces
      rw [if_neg hx]
      by_cases he : f.isExport = true
      · simp only [he, if_true]
        have hF := F.join o2 (c1 _) (F.join o3 (c1 _) ft).toT
        rw [← ef, ← ef, ← e, ← e] at hF
        simp only [List.append_assoc] at hF ⊢
        exact twin_debug hfile hF h17 h18
      · simp only [he]
        have hF : F ("static ".toList ++ (head ++ " {\n".toList ++ tr ++ "\n}".toList)) ("static ".toList ++ (head ++ " {\n".toList ++ tr' ++ "\n}".toList))
            (places file 1 child ++ [none]) := by
          rw [e, e, ← List.append_assoc, ← List.append_assoc]
          exact F.join (List.append_assoc _ _ _ ▸ OneLine.app (a := "static ".toList) (by unfold OneLine; decide) o3) (calm_cons (by decide) (by decide) (by decide)) ft
        simp only [List.append_assoc] at hF ⊢
        exact twin_debug hfile hF h17 h18

/-- What is told about the lines outside, because of a statement. -/
def outsideOf (file : List Char) (d : Nat) (ann : Ann) (stmt : Stmt) (tok : List Token) (child : ATree) : List (Option Place) :=
  match stmt with
  | .varDef .. => match ann with | .varDef .. => if d = 1 then [none] else [] | _ => []
  | .funcProto p =>
    if p.isExternal then none :: (if p.isExport then [none] else [])
    else placesOutside file 1 child ++ placeOf file tok :: (if p.isExport then [none] else []) ++ places file 1 child ++ [none]
  | .ifs _ | .elifs _ | .elses | .whiles _ | .namespaces => placesOutside file (d + 1) child
  | _ => []

/-- And about the lines of the statement behind its first one. -/
def insideOf (file : List Char) (d : Nat) (stmt : Stmt) (child : ATree) : List (Option Place) :=
  match stmt with
  | .ifs _ | .elifs _ | .elses | .whiles _ | .namespaces => places file (d + 1) child ++ [none]
  | _ => []

theorem twin_function (hn : OneLineNames syms) (hfile : PlainText file) {id : Nat} {params : List Nat} {tok : List Token} {body body' child}
    (hb : Bodies file body body' child) {sym : Symbol} {f : Func} (h1 : CCfg.func ⟨syms, some file, fmtA⟩ id = some (sym, f)) {gs s s' d}
    (hs : Same gs s s') (hd : s.indent = d) :
    Twin (functionDefC ⟨syms, some file, fmtA⟩ id params tok body) (functionDefC ⟨syms, none, fmtA⟩ id params tok body') s s'
      (fun _ u _ u' => Same (gs ++ ((if f.isExternal then [] else placesOutside file 1 child) ++ protoPlaces file f tok child)) u u' ∧ u.indent = d) := by
  unfold functionDefC
  refine .bind (twin_prototype hn hfile hb h1 hs hd) ?_
  rintro t u t' u' ⟨h2, h3, h4⟩
  refine .modify ⟨⟨h2.int, h2.float, h2.str, h2.indent, .inr ?_⟩, h3⟩
  rw [← List.append_assoc]
  rcases h2.globals with ⟨g1, g2, g3⟩ | ⟨g, g', ms, g1, g2, g3, g4⟩
  · refine ⟨_, _, protoPlaces file f tok child, rfl, rfl, ?_, .inl (by rw [g3]; rfl)⟩
    simp only [g1, g2]
    exact h4
  · refine ⟨_, _, ms ++ protoPlaces file f tok child, rfl, rfl, ?_, ?_⟩
    · simp only [g1, g2]
      exact g3.join h4
    · rcases g4 with h | h
      · exact .inl (by rw [h])
      · exact .inr (by rw [h]; rfl)

theorem twin_line {gs s s' d} (hs : Same gs s s') (hd : s.indent = d) {t : List Char} (h1 : OneLine t) (h2 : Calm t) :
    Twin (Pure.pure (some t) : CGen (Option (List Char))) (Pure.pure (some t)) s s' (Res (gs ++ []) d (some [])) :=
  .pure ⟨by simpa using hs, hd, _, _, rfl, rfl, .line h1 h2⟩

theorem calm_word {w : String} {r : List Char} (h : (match w.toList with | c :: _ => isIdStart c || c = '(' | [] => false) = true) : Calm (w.toList ++ r) := by
  cases hw : w.toList with
  | nil => rw [hw] at h; cases h
  | cons c t =>
    rw [hw] at h
    have h : (isIdStart c || c = '(') = true := h
    refine calm_cons ?_ ?_ ?_ <;> (rintro rfl; revert h; decide)

theorem twin_stmt (hn : OneLineNames syms) (hfile : PlainText file) (hf : ∀ b, OneLine (fmtA b)) {loop before ann stmt tok child next body body'}
    (hw : WtNode syms loop before ann stmt child next) (hv : ann.value.all oneLineE = true) (hb : Bodies file body body' child) {gs s s' d}
    (hs : Same gs s s') (hd : s.indent = d) :
    Twin (genStmtC ⟨syms, some file, fmtA⟩ ann stmt tok body) (genStmtC ⟨syms, none, fmtA⟩ ann stmt tok body') s s'
      (Res (gs ++ outsideOf file d ann stmt tok child) d (if speaks d ann stmt then some (insideOf file d stmt child) else none)) := by
  have block : ∀ {m m' : CGen (List Char)}, Twin m m' s s'
      (fun t u t' u' => Same (gs ++ placesOutside file (d + 1) child) u u' ∧ u.indent = d ∧ F t t' (places file (d + 1) child ++ [none])) →
      Twin (do let t ← m; pure (some t)) (do let t ← m'; pure (some t)) s s'
        (Res (gs ++ placesOutside file (d + 1) child) d (some (places file (d + 1) child ++ [none]))) := by
    intro m m' hm
    refine .bind hm ?_
    rintro t u t' u' ⟨h1, h2, h3⟩
    exact .pure ⟨h1, h2, _, _, rfl, rfl, h3⟩
  cases hw with
  | alias => exact .pure ⟨by simpa [outsideOf] using hs, hd, rfl, rfl⟩
  | varDef h1 h2 h3 h4 h5 h6 h7 h8 h9 h10 => exact twin_varDef hn hf (by simpa [Ann.value] using hv) hs hd
  | assign h1 h2 h3 h4 h5 h6 h7 =>
    unfold genStmtC
    refine .bind (P := fun v t v' t' => Eq1 gs d v t v' t' ∧ OneLine v.name ∧ '#' ∉ v.name ∧ OneLine v.linkageName)
      (.option fun v hv => ⟨⟨rfl, hs, hd⟩, var_names hn hv⟩) ?_
    rintro v t _ t' ⟨⟨rfl, h1, h2⟩, h3, h4, h5⟩
    refine .bind (twin_assign hn hf (by simpa [Ann.value] using hv) h3 h4 h1 h2) ?_
    rintro a u _ u' ⟨⟨rfl, h8, h9⟩, h10, h11⟩
    exact twin_line h8 h9 h10 h11
  | ret _ => exact twin_line hs hd (by unfold OneLine; decide) (by unfold Calm; decide)
  | retValue h1 h2 h3 =>
    unfold genStmtC
    refine .bind (twin_expr hn hf (by simpa [Ann.value] using hv) hs hd) ?_
    rintro a u _ u' ⟨⟨rfl, h8, h9⟩, h10⟩
    refine twin_line h8 h9 (.app (.app (by unfold OneLine; decide) h10) (by unfold OneLine; decide)) ?_
    rw [List.append_assoc]
    exact calm_word (by decide)
  | call h1 h2 =>
    rename_i e0 t0 args f0 ty0
    unfold genStmtC
    have hv' : oneLineA args = true := by simpa [Ann.value, oneLineE] using hv
    unfold genExprC
    refine .bind (P := fun t u t' u' => Eq1 gs d t u t' u' ∧ OneLine t ∧ ∀ r, Calm (t ++ r)) ?_ ?_
    · refine .bind (P := fun v t v' t' => Eq1 gs d v t v' t' ∧ OneLine v.1.name ∧ '#' ∉ v.1.name)
        (.option fun v hv => ⟨⟨rfl, hs, hd⟩, (func_names hn hv).1, (func_names hn hv).2.1⟩) ?_
      rintro v t _ t' ⟨⟨rfl, h1, h2⟩, h3, h3'⟩
      refine .bind (twin_args hn hf hv' h1 h2) ?_
      rintro as u _ u' ⟨⟨rfl, h4, h5⟩, h6⟩
      refine .pure ⟨⟨rfl, h4, h5⟩, .app (.app (.app h3 (by unfold OneLine; decide)) (one_join h6)) (by unfold OneLine; decide), fun r => ?_⟩
      simp only [List.append_assoc]
      exact calm_name h3' (by decide) (by decide) (by decide)
    · rintro a u _ u' ⟨⟨rfl, h8, h9⟩, h10, h11⟩
      exact twin_line h8 h9 (h10.app (by unfold OneLine; decide)) (h11 _)
  | ifs h1 h2 h3 => exact block (twin_control hn hf (by unfold OneLine; decide) (fun r => calm_word (by decide)) (by simpa [Ann.value] using hv) hb hs hd)
  | elifs h1 h2 h3 h4 => exact block (twin_control hn hf (by unfold OneLine; decide) (fun r => calm_word (by decide)) (by simpa [Ann.value] using hv) hb hs hd)
  | elses h1 h2 => exact block (twin_plain (by unfold OneLine; decide) (by unfold Calm; decide) hb hs hd)
  | whiles h1 h2 h3 => exact block (twin_control hn hf (by unfold OneLine; decide) (fun r => calm_word (by decide)) (by simpa [Ann.value] using hv) hb hs hd)
  | breaks _ _ => exact twin_line hs hd (by unfold OneLine; decide) (by unfold Calm; decide)
  | continues _ _ => exact twin_line hs hd (by unfold OneLine; decide) (by unfold Calm; decide)
  | func h1 h2 h3 h4 h5 h6 h7 h8 h9 =>
    rename_i p id0 sym0 f0 params0
    unfold genStmtC
    refine .bind (twin_function hn hfile hb (func_eq h1 h2) hs hd) ?_
    rintro _ u _ u' ⟨g1, g2⟩
    refine .pure ⟨?_, g2, rfl, rfl⟩
    rw [h3] at g1
    unfold protoPlaces at g1
    rw [h3, h4] at g1
    unfold outsideOf
    by_cases hx : p.isExternal = true
    · simpa only [if_pos hx, List.nil_append] using g1
    · simpa only [if_neg hx, List.append_assoc] using g1
  | ns h1 =>
    unfold genStmtC
    refine .bind (P := fun v t v' t' => Eq1 gs d v t v' t' ∧ OneLine v.name) (.option fun v hv => ⟨⟨rfl, hs, hd⟩, ?_⟩) ?_
    · exact (hn _ (List.mem_of_getElem? hv)).1
    · rintro v t _ t' ⟨⟨rfl, h1, h2⟩, h3⟩
      refine .bind (twin_plain ?_ ?_ hb h1 h2) ?_
      · exact .app (one_cons (by decide) h3) (by unfold OneLine; decide)
      · exact calm_cons (by decide) (by decide) (by decide)
      · rintro t u t' u' ⟨h1, h2, h3⟩
        exact .pure ⟨h1, h2, _, _, rfl, rfl, h3⟩
  | unreachable _ => exact twin_line hs hd (by unfold OneLine; decide) (by unfold Calm; decide)
  | other h =>
    rcases h with rfl | rfl | rfl | rfl
    · exact twin_line hs hd (by unfold OneLine; decide) (by unfold Calm; decide)
    · exact .pure ⟨by simpa [outsideOf] using hs, hd, rfl, rfl⟩
    · exact .pure ⟨by simpa [outsideOf] using hs, hd, rfl, rfl⟩
    · exact .pure ⟨by simpa [outsideOf] using hs, hd, rfl, rfl⟩

/-- What is told about the lines of a statement. -/
def told (file : List Char) (tok : List Token) : Option (List (Option Place)) → List (Option Place)
  | some ms => placeOf file tok :: ms
  | none => []

theorem twin_indent (hfile : PlainText file) {tok : List Token} {gs d ms r s r' s'} (h : Res gs d ms r s r' s') :
    Twin (indentC ⟨syms, some file, fmtA⟩ tok r) (indentC ⟨syms, none, fmtA⟩ tok r') s s'
      (TRes gs d (told file tok ms)) := by
  obtain ⟨h1, h2, h3⟩ := h
  cases ms with
  | none =>
    obtain ⟨rfl, rfl⟩ := h3
    exact .pure ⟨h1, h2, .inl ⟨rfl, rfl, rfl⟩⟩
  | some ms =>
    obtain ⟨x, x', rfl, rfl, h3⟩ := h3
    unfold indentC
    refine .bind (twin_get h1 h2) ?_
    rintro y w y' w' ⟨rfl, rfl, h7, h8⟩
    obtain ⟨n, n1, n2⟩ := indentation_eq h7
    rw [n1, n2]
    refine .bind (twin_debug hfile (h3.tabs n) h7 h8) ?_
    rintro t u t' u' ⟨g1, g2, g3⟩
    exact .pure ⟨g1, g2, .inr ⟨_, _, rfl, rfl, g3⟩⟩

theorem Texts.joins {ms ms' a a' r r'} (h : Texts ms a a') (h' : Texts ms' r r') : Texts (ms ++ ms') (joinStmts a r) (joinStmts a' r') := by
  rcases h' with ⟨rfl, rfl, rfl⟩ | ⟨y, y', rfl, rfl, h'⟩
  · simpa [joinStmts] using h
  · rcases h with ⟨rfl, rfl, rfl⟩ | ⟨x, x', rfl, rfl, h⟩
    · exact .inr ⟨y, y', rfl, rfl, h'⟩
    · exact .inr ⟨_, _, rfl, rfl, h.join h'⟩

theorem places_node (d : Nat) (ann : Ann) (stmt : Stmt) (tok : List Token) (child next : ATree) :
    places file d (.node ann stmt tok child next) =
      told file tok (if speaks d ann stmt then some (insideOf file d stmt child) else none) ++ places file d next := by
  cases stmt <;> simp only [places, insideOf] <;> congr 1 <;> split <;> rfl

theorem outside_node (d : Nat) (ann : Ann) (stmt : Stmt) (tok : List Token) (child next : ATree) :
    placesOutside file d (.node ann stmt tok child next) = outsideOf file d ann stmt tok child ++ placesOutside file d next := by
  cases stmt <;> simp only [placesOutside, outsideOf]
  cases ann <;> rfl

theorem twin_nodes (hn : OneLineNames syms) (hfile : PlainText file) (hf : ∀ b, OneLine (fmtA b)) : ∀ {t : ATree} {loop before}, WtTree syms loop before t →
    oneLineT t = true → ∀ {acc acc' ms gs s s' d}, Texts ms acc acc' → Same gs s s' → s.indent = d →
    Twin (genNodesC ⟨syms, some file, fmtA⟩ acc t) (genNodesC ⟨syms, none, fmtA⟩ acc' t) s s'
      (TRes (gs ++ placesOutside file d t) d (ms ++ places file d t))
  | .nil, _, _, _, _, acc, acc', ms, gs, s, s', d, ha, hs, hd => by
    unfold genNodesC
    exact .pure ⟨by simpa [placesOutside] using hs, hd, by simpa [places] using ha⟩
  | .unchecked _, _, _, _, _, acc, acc', ms, gs, s, s', d, ha, hs, hd => by
    unfold genNodesC
    exact .ub
  | .node ann stmt tok child next, loop, before, hw, ho, acc, acc', ms, gs, s, s', d, ha, hs, hd => by
    simp only [oneLineT, Bool.and_eq_true] at ho
    cases hw with
    | node h1 h2 h3 =>
      unfold genNodesC
      refine .bind (twin_stmt hn hfile hf h1 ho.1.1 ?_ hs hd) ?_
      · intro gs s s' d hs hd
        refine .bind (P := fun _ u _ u' => Same gs u u' ∧ u.indent = d + 1) (.modify ⟨?_, by rw [hd]⟩) ?_
        · rw [← hs.indent]
          exact hs.indent_eq _
        · rintro _ u _ u' ⟨g1, g2⟩
          refine .bind (twin_nodes hn hfile hf h2 ho.1.2 (.inl ⟨rfl, rfl, rfl⟩) g1 g2) ?_
          rintro r v r' v' ⟨g3, g4, g5⟩
          refine .bind (P := fun _ u _ u' => Same (gs ++ placesOutside file (d + 1) child) u u' ∧ u.indent = d) (.modify ⟨?_, by simp [g4]⟩) ?_
          · rw [← g3.indent]
            exact g3.indent_eq _
          · rintro _ w _ w' ⟨g6, g7⟩
            exact .pure ⟨g6, g7, by simpa using g5⟩
      · intro r u r' u' hr
        refine .bind (twin_indent hfile hr) ?_
        rintro r v r' v' ⟨g3, g4, g5⟩
        refine (twin_nodes hn hfile hf h3 ho.2 (ha.joins g5) g3 g4).mono ?_
        intro a t a' t' h
        rw [outside_node, places_node, ← List.append_assoc, ← List.append_assoc]
        exact h

/-- Whole programs. -/
theorem twin_module (hn : OneLineNames syms) (hfile : PlainText file) (hf : ∀ b, OneLine (fmtA b)) {t : ATree} {loop before} (hw : WtTree syms loop before t)
    (ho : oneLineT t = true) {r : Option (List Char) × CState} (h : genModuleC ⟨syms, some file, fmtA⟩ t = some r) :
    ∃ r', genModuleC ⟨syms, none, fmtA⟩ t = some r' ∧ Same (placesOutside file 1 t) r.2 r'.2 ∧ Texts (places file 1 t) r.1 r'.1 := by
  have h0 : Same [] ({} : CState) {} := ⟨rfl, rfl, rfl, rfl, .inl ⟨rfl, rfl, rfl⟩⟩
  have key : Twin (do
      CGen.modify fun s => { s with indent := s.indent + 1 }
      let t ← genNodesC ⟨syms, some file, fmtA⟩ none t
      CGen.modify fun s => { s with indent := s.indent - 1 }
      pure t : CGen (Option (List Char))) (do
      CGen.modify fun s => { s with indent := s.indent + 1 }
      let t ← genNodesC ⟨syms, none, fmtA⟩ none t
      CGen.modify fun s => { s with indent := s.indent - 1 }
      pure t : CGen (Option (List Char))) {} {} (TRes (placesOutside file 1 t) 0 (places file 1 t)) := by
    refine .bind (P := fun _ u _ u' => Same [] u u' ∧ u.indent = 1) (.modify ⟨h0.indent_eq 1, rfl⟩) ?_
    rintro _ u _ u' ⟨g1, g2⟩
    refine .bind (twin_nodes hn hfile hf hw ho (.inl ⟨rfl, rfl, rfl⟩) g1 g2) ?_
    rintro r v r' v' ⟨g3, g4, g5⟩
    refine .bind (P := fun _ u _ u' => Same (placesOutside file 1 t) u u' ∧ u.indent = 0) (.modify ⟨?_, by simp [g4]⟩) ?_
    · rw [← g3.indent]
      exact g3.indent_eq _
    · rintro _ w _ w' ⟨g6, g7⟩
      exact .pure ⟨g6, g7, by simpa using g5⟩
  obtain ⟨a', t', h1, h2, _, h3⟩ := key r.1 r.2 h
  exact ⟨(a', t'), h1, h2, h3⟩

end

end Skull.CDebug
