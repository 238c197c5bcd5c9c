import Verif.Spec.CProgram
import Verif.Proofs.CGrammar
/-
The grammar of C programs is unambiguous: a parser that follows it returns whatever program the grammar gives.
-/
namespace Skull.Spec.C

def stars : CType → List Tok → CType × List Tok
  | ty, .p p :: r => if p = ['*'] then stars (.ptr ty) r else (ty, .p p :: r)
  | ty, r => (ty, r)

def parseType : List Tok → Option (CType × List Tok)
  | .id s :: r => if s ∈ typeNames then some (stars (.base s) r) else none
  | _ => none

/-- The rest behind a token. -/
def eat (a : Tok) : List Tok → Option (List Tok)
  | b :: r => if b = a then some r else none
  | [] => none

theorem eat_same (a : Tok) (r : List Tok) : eat a (a :: r) = some r := by simp [eat]

/-- `T` is behind the type: a name. -/
theorem GType.parse {t ty} (h : GType t ty) (x : List Char) (rest : List Tok) : parseType (t ++ .id x :: rest) = some (ty, .id x :: rest) := by
  have key : ∀ r, ∃ s t', t = .id s :: t' ∧ s ∈ typeNames ∧ stars (.base s) (t' ++ r) = stars ty r := by
    induction h with
    | base hs => exact fun r => ⟨_, [], rfl, hs, rfl⟩
    | @ptr t ty h ih =>
      intro r
      obtain ⟨s, t', rfl, h1, h2⟩ := ih (.p ['*'] :: r)
      refine ⟨s, t' ++ [.p ['*']], rfl, h1, ?_⟩
      rw [List.append_assoc]
      simpa [stars] using h2
  obtain ⟨s, t', rfl, h1, h2⟩ := key (.id x :: rest)
  simp only [List.cons_append, parseType, if_pos h1, h2, stars]

theorem GType.starts {t ty} (h : GType t ty) : ∃ s t', t = .id s :: t' ∧ s ∈ typeNames := by
  induction h with
  | base hs => exact ⟨_, [], rfl, hs⟩
  | ptr _ ih =>
    obtain ⟨s, t', rfl, h⟩ := ih
    exact ⟨s, _, rfl, h⟩

/-- The rest of a declaration, behind its words. -/
def parseDecl (n : Nat) (c : Bool) (t : List Tok) : Option (Simple × List Tok) :=
  match parseType t with
  | some (ty, .id x :: .p p :: r) =>
    if p = ['='] then
      match parse n 1 r with
      | some (e, r) => (eat (pn ";") r).map (.decl c ty x e, ·)
      | none => none
    else none
  | _ => none

def parseExpr (n : Nat) (t : List Tok) : Option (Simple × List Tok) :=
  match parse n 0 t with
  | some (e, r) => (eat (pn ";") r).map (.expr e, ·)
  | none => none

def parseSimple : Nat → List Tok → Option (Simple × List Tok)
  | 0, _ => none
  | n + 1, t =>
    match t with
    | .id s :: r =>
      if s = "const".toList then parseDecl n true r
      else if s ∈ typeNames then parseDecl n false t
      else if s = "return".toList then
        match eat (pn ";") r with
        | some r => some (.ret none, r)
        | none =>
          match parse n 0 r with
          | some (e, r) => (eat (pn ";") r).map (.ret (some e), ·)
          | none => none
      else if s = "break".toList then (eat (pn ";") r).map (.breaks, ·)
      else if s = "continue".toList then (eat (pn ";") r).map (.continues, ·)
      else
        match eat (pn "=") r with
        | some r =>
          match parse n 1 r with
          | some (e, r) => (eat (pn ";") r).map (.assign s e, ·)
          | none => none
        | none => parseExpr n t
    | .p _ :: .id s :: .p _ :: .num _ :: .p _ :: r => if s = "void".toList then some (.skip, r) else parseExpr n t
    | _ => parseExpr n t

theorem follow_semi (k : Nat) (rest : List Tok) : Follow k (pn ";" :: rest) :=
  ⟨fun j h => (by rw [show binPrec ";".toList = none by decide] at h; cases h), fun h => (by cases h)⟩

theorem loop_semi (k : Nat) (hk : k ≤ 10) (e : Exp) (rest : List Tok) :
    Ev (fun n => loop n k e (pn ";" :: rest)) (some (e, pn ";" :: rest)) :=
  Ev.now fun n => by simp [loop, pn, hk, show binPrec [';'] = none by decide]

theorem parse_semi {k t e} (hk : k ≤ 10) (h : G k t e) (rest : List Tok) :
    Ev (fun n => parse n k (t ++ pn ";" :: rest)) (some (e, pn ";" :: rest)) :=
  h.parse_ev _ _ (follow_semi k rest) (loop_semi k hk e rest)

theorem parse_close {t e} (h : G 0 t e) (rest : List Tok) :
    Ev (fun n => parse n 0 (t ++ pn ")" :: rest)) (some (e, pn ")" :: rest)) :=
  h.parse_ev _ _ (follow_close 0 rest) (Ev.now fun n => by simp [loop, pn, binPrec_paren.2.1])

/-- Tokens of expressions: no keywords, and no punctuators of statements. -/
def PlainTok : Tok → Prop
  | .id w => w ∉ keywords
  | .p p => p ≠ "=".toList ∧ p ≠ ";".toList ∧ p ≠ "{".toList ∧ p ≠ "}".toList
  | _ => True

theorem binPrec_plain {p : List Char} {k : Nat} (h : binPrec p = some k) : PlainTok (.p p) := by
  refine ⟨?_, ?_, ?_, ?_⟩ <;> (rintro rfl; revert h; rw [show binPrec _ = none by decide]; simp)

theorem prefix_plain {p : List Char} (h : isPrefix p = true) : PlainTok (.p p) := by
  refine ⟨?_, ?_, ?_, ?_⟩ <;> (rintro rfl; revert h; decide)

theorem G.plain {k : Nat} {t : List Tok} {e : Exp} (h : G k t e) : ∀ a ∈ t, PlainTok a := by
  have o : PlainTok (.p ['(']) := by refine ⟨?_, ?_, ?_, ?_⟩ <;> decide
  have c : PlainTok (.p [')']) := by refine ⟨?_, ?_, ?_, ?_⟩ <;> decide
  have k : PlainTok (.p [',']) := by refine ⟨?_, ?_, ?_, ?_⟩ <;> decide
  induction h using G.rec (motive_2 := fun t _ _ => ∀ a ∈ t, PlainTok a) (motive_3 := fun t _ _ => ∀ a ∈ t, PlainTok a) with
  | up _ _ ih => exact ih
  | bin hp _ _ i1 i2 =>
    intro a ha
    simp only [List.mem_append, List.mem_cons] at ha
    rcases ha with ha | rfl | ha
    · exact i1 a ha
    · exact binPrec_plain hp
    · exact i2 a ha
  | un hp _ ih =>
    intro a ha
    simp only [List.mem_cons] at ha
    rcases ha with rfl | ha
    · exact prefix_plain hp
    · exact ih a ha
  | call _ _ i1 i2 =>
    intro a ha
    simp only [List.mem_append, List.mem_cons, List.not_mem_nil, or_false] at ha
    rcases ha with ha | rfl | ha | rfl
    · exact i1 a ha
    · exact o
    · exact i2 a ha
    · exact c
  | id h => intro a ha; simp only [List.mem_cons, List.not_mem_nil, or_false] at ha; subst ha; exact h
  | num => intro a ha; simp only [List.mem_cons, List.not_mem_nil, or_false] at ha; subst ha; trivial
  | str => intro a ha; simp only [List.mem_cons, List.not_mem_nil, or_false] at ha; subst ha; trivial
  | paren _ ih =>
    intro a ha
    simp only [List.mem_append, List.mem_cons, List.not_mem_nil, or_false] at ha
    rcases ha with rfl | ha | rfl
    · exact o
    · exact ih a ha
    · exact c
  | none => rename_i a ha; cases ha
  | some _ ih => rename_i a ha; exact ih a ha
  | one _ ih => rename_i a ha; exact ih a ha
  | cons _ _ i1 i2 =>
    rename_i a ha
    simp only [List.mem_append, List.mem_cons] at ha
    rcases ha with ha | rfl | ha
    · exact i1 a ha
    · exact k
    · exact i2 a ha

theorem typeName_not {s} (h : s ∈ typeNames) : s ≠ "const".toList ∧ s ≠ "return".toList ∧ s ≠ "break".toList ∧ s ≠ "continue".toList ∧
    s ≠ "if".toList ∧ s ≠ "while".toList ∧ s ≠ "else".toList ∧ s ≠ "static".toList := by
  simp only [typeNames, List.map_cons, List.map_nil, List.mem_cons, List.not_mem_nil, or_false] at h
  rcases h with rfl | rfl | rfl | rfl | rfl | rfl | rfl <;> decide

theorem keyword_not {s} (h : s ∉ keywords) : s ≠ "const".toList ∧ s ≠ "return".toList ∧ s ≠ "break".toList ∧ s ≠ "continue".toList ∧
    s ≠ "if".toList ∧ s ≠ "while".toList ∧ s ≠ "else".toList ∧ s ≠ "static".toList ∧ s ≠ "void".toList := by
  refine ⟨?_, ?_, ?_, ?_, ?_, ?_, ?_, ?_, ?_⟩ <;> (rintro rfl; revert h; decide)

theorem Ev.succ {f g : Nat → α} {x : α} (h : Ev f x) (e : ∀ n, f n = x → g (n + 1) = x) : Ev g x := by
  obtain ⟨m, h⟩ := h
  refine ⟨m + 1, fun n hn => ?_⟩
  obtain ⟨n, rfl⟩ : ∃ k, n = k + 1 := ⟨n - 1, by omega⟩
  exact e n (h n (by omega))

theorem Ev.map {f : Nat → β} {g : Nat → α} {x : α} {y : β} (h : Ev f y) (e : ∀ n, f n = y → g (n + 1) = x) : Ev g x := by
  obtain ⟨m, h⟩ := h
  refine ⟨m + 1, fun n hn => ?_⟩
  obtain ⟨n, rfl⟩ : ∃ k, n = k + 1 := ⟨n - 1, by omega⟩
  exact e n (h n (by omega))

theorem parseExpr_ev {t e} (h : G 0 t e) (rest : List Tok) :
    Ev (fun n => parseExpr n (t ++ pn ";" :: rest)) (some (.expr e, rest)) := by
  obtain ⟨m, h⟩ := parse_semi (by decide) h rest
  refine ⟨m, fun n hn => ?_⟩
  simp only [parseExpr, h n hn, eat_same, Option.map_some]

theorem eat_other {a b : Tok} {r} (h : b ≠ a) : eat a (b :: r) = none := by simp [eat, h]

/-- Behind the first token of an expression that is followed by a semicolon there is no `=`. -/
theorem no_assign {k t e} (h : G k t e) {a : Tok} {t' : List Tok} (ht : t = a :: t') (rest : List Tok) : eat (pn "=") (t' ++ pn ";" :: rest) = none := by
  cases t' with
  | nil => exact eat_other (by decide)
  | cons b t' =>
    refine eat_other ?_
    rintro rfl
    exact (h.plain (pn "=") (by rw [ht]; simp)).1 rfl

theorem parseSimple_return {n : Nat} {a : Tok} {r : List Tok} {e : Exp} {rest : List Tok} (ha : a ≠ pn ";")
    (h : parse n 0 (a :: r) = some (e, pn ";" :: rest)) : parseSimple (n + 1) (kw "return" :: a :: r) = some (.ret (some e), rest) := by
  unfold kw parseSimple
  generalize hs : "return".toList = s
  have h1 : s ≠ "const".toList := by rw [← hs]; decide
  have h2 : s ∉ typeNames := by rw [← hs]; decide
  simp only []
  rw [if_neg h1, if_neg h2, if_pos trivial, eat_other ha]
  simp only [h, eat_same, Option.map_some]

/-- No expression is taken for `(void)0;`. -/
theorem parseSimple_expr {n : Nat} {p : List Char} {t : List Tok} {x : Option (Simple × List Tok)}
    (h : ∀ s t', t = .id s :: t' → s ≠ "void".toList) (hx : parseExpr n (.p p :: t) = x) : parseSimple (n + 1) (.p p :: t) = x := by
  simp only [parseSimple]
  split
  · rename_i heq; cases heq
  · rename_i heq
    injection heq with _ heq
    rw [if_neg (h _ _ heq)]
    exact hx
  · exact hx

theorem GSimple.parse_ev {t s} (h : GSimple t s) (rest : List Tok) : Ev (fun n => parseSimple n (t ++ rest)) (some (s, rest)) := by
  cases h with
  | @decl c tt ty x t e h1 h2 h3 =>
    have hp := parse_semi (by decide) h3 rest
    obtain ⟨s, tt', rfl, hs⟩ := h1.starts
    have hn := typeName_not hs
    refine hp.map fun n hn' => ?_
    have e1 := h1.parse x (pn "=" :: (t ++ pn ";" :: rest))
    have hd : parseDecl n c (.id s :: tt' ++ .id x :: pn "=" :: (t ++ pn ";" :: rest)) = some (.decl c ty x e, rest) := by
      unfold parseDecl
      rw [e1]
      simp only [pn]
      rw [if_pos (by rfl)]
      have : (Tok.p ";".toList) = pn ";" := rfl
      rw [this, hn']
      simp only [eat_same, Option.map_some]
    cases c with
    | true =>
      simp only [opt, if_true, List.cons_append, List.nil_append, parseSimple, kw, List.append_assoc] at hd ⊢
      exact hd
    | false =>
      simp only [opt, List.cons_append, List.nil_append, List.append_assoc, Bool.false_eq_true, if_false] at hd ⊢
      simp only [parseSimple]
      rw [if_neg hn.1, if_pos hs]
      exact hd
  | @assign x t e h1 h2 =>
    have hp := parse_semi (by decide) h2 rest
    have hk := keyword_not h1.1
    refine hp.map fun n hn => ?_
    simp only [List.cons_append, List.append_assoc, List.nil_append, parseSimple]
    rw [if_neg hk.1, if_neg h1.2, if_neg hk.2.1, if_neg hk.2.2.1, if_neg hk.2.2.2.1, eat_same]
    simp only [hn, eat_same, Option.map_some]
  | @expr t e h1 h2 =>
    have hp := parseExpr_ev h1 rest
    obtain ⟨a, t', rfl, ha⟩ := h1.starts
    refine hp.map fun n hn => ?_
    have hpl := h1.plain
    have hna := no_assign h1 rfl rest
    simp only [List.cons_append, List.append_assoc, List.nil_append] at hn ⊢
    cases a with
    | id s =>
      have hk := keyword_not (s := s) (hpl (.id s) List.mem_cons_self)
      have ht : s ∉ typeNames := fun h => h2 s h rfl
      simp only [parseSimple]
      rw [if_neg hk.1, if_neg ht, if_neg hk.2.1, if_neg hk.2.2.1, if_neg hk.2.2.2.1, hna]
      exact hn
    | p p =>
      refine parseSimple_expr (fun s t'' ht => ?_) hn
      cases t' with
      | nil => cases ht
      | cons b t' =>
        injection ht with h1 h2
        subst h1
        exact (keyword_not (hpl (.id s) (by simp))).2.2.2.2.2.2.2.2
    | num s => simp only [parseSimple]; exact hn
    | str s => simp only [parseSimple]; exact hn
  | skip => exact Ev.now fun n => rfl
  | ret => exact Ev.now fun n => rfl
  | @retValue t e h =>
    have hp := parse_semi (by decide) h rest
    obtain ⟨a, t', rfl, ha⟩ := h.starts
    refine hp.map fun n hn => ?_
    have hne : a ≠ pn ";" := by
      rintro rfl
      exact (h.plain (pn ";") List.mem_cons_self).2.1 rfl
    simp only [List.cons_append, List.append_assoc, List.nil_append] at hn ⊢
    exact parseSimple_return hne hn
  | breaks => exact Ev.now fun n => rfl
  | continues => exact Ev.now fun n => rfl

/- ### Statements -/

mutual
def parseS : Nat → List Tok → Option (Stms × List Tok)
  | 0, _ => none
  | n + 1, t =>
    match t with
    | [] => some (.nil, [])
    | a :: r =>
      if a = pn "}" then some (.nil, t)
      else if a = pn "{" then
        match parseS n r with
        | some (b, r) =>
          match eat (pn "}") r with
          | some r => match parseS n r with | some (next, r) => some (.block b next, r) | none => none
          | none => none
        | none => none
      else if a = kw "if" then
        match parseIf n r with
        | some (e, b, els, r) => match parseS n r with | some (next, r) => some (.ifs e b els next, r) | none => none
        | none => none
      else if a = kw "while" then
        match parseHead n r with
        | some (e, r) =>
          match parseS n r with
          | some (b, r) =>
            match eat (pn "}") r with
            | some r => match parseS n r with | some (next, r) => some (.whiles e b next, r) | none => none
            | none => none
          | none => none
        | none => none
      else
        match parseSimple n t with
        | some (s, r) => match parseS n r with | some (next, r) => some (.simple s next, r) | none => none
        | none => none
/-- Behind `if`. -/
def parseIf : Nat → List Tok → Option (Exp × Stms × Stms × List Tok)
  | 0, _ => none
  | n + 1, t =>
    match parseHead n t with
    | some (e, r) =>
      match parseS n r with
      | some (b, r) =>
        match eat (pn "}") r with
        | some r => match parseElse n r with | some (els, r) => some (e, b, els, r) | none => none
        | none => none
      | none => none
    | none => none
def parseElse : Nat → List Tok → Option (Stms × List Tok)
  | 0, _ => none
  | n + 1, t =>
    match t with
    | a :: b :: r =>
      if a = kw "else" then
        if b = kw "if" then
          match parseIf n r with
          | some (e, b, els, r) => some (.ifs e b els .nil, r)
          | none => none
        else
          match parseS n r with
          | some (b, r) => (eat (pn "}") r).map (b, ·)
          | none => none
      else some (.nil, t)
    | _ => some (.nil, t)
/-- A condition, up to the beginning of the block. -/
def parseHead : Nat → List Tok → Option (Exp × List Tok)
  | 0, _ => none
  | n + 1, t =>
    match eat (pn "(") t with
    | some r =>
      match parse n 0 r with
      | some (e, r) =>
        match eat (pn ")") r with
        | some r => (eat (pn "{") r).map (e, ·)
        | none => none
      | none => none
    | none => none
end

/-- The end of the statements. -/
def Ends : List Tok → Prop
  | [] => True
  | a :: _ => a = pn "}"

theorem parseHead_ev {t e} (h : G 0 t e) (rest : List Tok) :
    Ev (fun n => parseHead n (pn "(" :: (t ++ pn ")" :: pn "{" :: rest))) (some (e, rest)) := by
  refine (parse_close h (pn "{" :: rest)).map fun n hn => ?_
  simp only [parseHead, eat_same, hn, Option.map_some]

theorem Ev.and {f : Nat → α} {g : Nat → β} {x : α} {y : β} (h : Ev f x) (h' : Ev g y) : Ev (fun n => (f n, g n)) (x, y) := by
  obtain ⟨n, h⟩ := h
  obtain ⟨n', h'⟩ := h'
  exact ⟨n + n', fun m hm => by simp only [h m (by omega), h' m (by omega)]⟩

/-- What a statement begins with. -/
theorem GSimple.starts {t s} (h : GSimple t s) : ∃ a t', t = a :: t' ∧ a ≠ pn "}" ∧ a ≠ pn "{" ∧ a ≠ kw "if" ∧ a ≠ kw "while" ∧ a ≠ kw "else" := by
  have ex : ∀ {k t e}, G k t e → ∃ a t', t = a :: t' ∧ a ≠ pn "}" ∧ a ≠ pn "{" ∧ a ≠ kw "if" ∧ a ≠ kw "while" ∧ a ≠ kw "else" := by
    intro k t e h
    obtain ⟨a, t', rfl, _⟩ := h.starts
    have hp := h.plain a List.mem_cons_self
    refine ⟨a, t', rfl, ?_, ?_, ?_, ?_, ?_⟩
    · rintro rfl; exact hp.2.2.2 rfl
    · rintro rfl; exact hp.2.2.1 rfl
    · rintro rfl; exact (keyword_not hp).2.2.2.2.1 rfl
    · rintro rfl; exact (keyword_not hp).2.2.2.2.2.1 rfl
    · rintro rfl; exact (keyword_not hp).2.2.2.2.2.2.1 rfl
  have id : ∀ {x}, x ≠ "if".toList → x ≠ "while".toList → x ≠ "else".toList → Tok.id x ≠ pn "}" ∧ Tok.id x ≠ pn "{" ∧ Tok.id x ≠ kw "if" ∧ Tok.id x ≠ kw "while" ∧ Tok.id x ≠ kw "else" := by
    intro x h1 h2 h3
    refine ⟨?_, ?_, ?_, ?_, ?_⟩ <;> (intro h; injection h; first | contradiction | skip)
  cases h with
  | @decl c tt ty x t e h1 h2 h3 =>
    obtain ⟨s, tt', rfl, hs⟩ := h1.starts
    have hn := typeName_not hs
    cases c with
    | true => exact ⟨_, _, rfl, by decide, by decide, by decide, by decide, by decide⟩
    | false => exact ⟨_, _, rfl, id hn.2.2.2.2.1 hn.2.2.2.2.2.1 hn.2.2.2.2.2.2.1⟩
  | @assign x t e h1 h2 =>
    have hk := keyword_not h1.1
    exact ⟨_, _, rfl, id hk.2.2.2.2.1 hk.2.2.2.2.2.1 hk.2.2.2.2.2.2.1⟩
  | expr h1 h2 =>
    obtain ⟨a, t', rfl, h⟩ := ex h1
    exact ⟨a, _, rfl, h⟩
  | skip => exact ⟨_, _, rfl, by decide, by decide, by decide, by decide, by decide⟩
  | ret => exact ⟨_, _, rfl, by decide, by decide, by decide, by decide, by decide⟩
  | retValue => exact ⟨_, _, rfl, by decide, by decide, by decide, by decide, by decide⟩
  | breaks => exact ⟨_, _, rfl, by decide, by decide, by decide, by decide, by decide⟩
  | continues => exact ⟨_, _, rfl, by decide, by decide, by decide, by decide, by decide⟩

theorem GS.noElse {t s} (h : GS t s) {rest : List Tok} (hr : Ends rest) : (t ++ rest).head? ≠ some (kw "else") := by
  cases h with
  | nil =>
    cases rest with
    | nil => simp
    | cons a r => cases hr; simp [kw, pn]
  | simple h _ =>
    obtain ⟨a, t', rfl, _, _, _, _, h⟩ := h.starts
    simpa using h
  | ifs => simp [kw]
  | whiles => simp [kw]
  | block => simp [kw, pn]

theorem GS.parse_ev {t s} (h : GS t s) : ∀ rest, Ends rest → Ev (fun n => parseS n (t ++ rest)) (some (s, rest)) := by
  have ends : ∀ {r}, Ends (pn "}" :: r) := rfl
  have block : ∀ {tb b r}, (∀ rest, Ends rest → Ev (fun n => parseS n (tb ++ rest)) (some (b, rest))) →
      Ev (fun n => parseS n (tb ++ pn "}" :: r)) (some (b, pn "}" :: r)) := fun ih => ih _ rfl
  induction h using GS.rec (motive_2 := fun t s _ => ∀ rest, rest.head? ≠ some (kw "else") →
      Ev (fun n => parseElse n (t ++ rest)) (some (s, rest))) with
  | nil =>
    intro rest hr
    cases rest with
    | nil => exact Ev.now fun n => rfl
    | cons a r => cases hr; exact Ev.now fun n => by simp [parseS]
  | @simple t s tn next h1 h2 ih =>
    intro rest hr
    obtain ⟨a, t', rfl, n1, n2, n3, n4, n5⟩ := h1.starts
    refine ((h1.parse_ev (tn ++ rest)).and (ih rest hr)).map fun n hn => ?_
    injection hn with e1 e2
    simp only [List.cons_append, List.append_assoc] at e1 ⊢
    simp only [parseS]
    rw [if_neg n1, if_neg n2, if_neg n3, if_neg n4, e1]
    simp only [e2]
  | @ifs t e tb b te els tn next h1 h2 h3 h4 i1 i2 i3 =>
    intro rest hr
    have hif : Ev (fun n => parseIf n (pn "(" :: (t ++ pn ")" :: pn "{" :: (tb ++ pn "}" :: (te ++ (tn ++ rest)))))) (some (e, b, els, tn ++ rest)) := by
      refine ((parseHead_ev h1 (tb ++ pn "}" :: (te ++ (tn ++ rest)))).and ((i1 (pn "}" :: (te ++ (tn ++ rest))) rfl).and (i2 (tn ++ rest) (h4.noElse hr)))).map fun n hn => ?_
      injection hn with e1 e2
      injection e2 with e2 e3
      simp only [parseIf, e1, e2, eat_same, e3]
    refine (hif.and (i3 rest hr)).map fun n hn => ?_
    injection hn with e1 e2
    simp only [List.cons_append, List.append_assoc] at e1 ⊢
    simp only [parseS]
    rw [if_neg (by decide), if_neg (by decide), if_pos trivial, e1]
    simp only [e2]
  | @whiles t e tb b tn next h1 h2 h3 i1 i2 =>
    intro rest hr
    refine ((parseHead_ev h1 (tb ++ pn "}" :: (tn ++ rest))).and ((i1 (pn "}" :: (tn ++ rest)) rfl).and (i2 rest hr))).map fun n hn => ?_
    injection hn with e1 e2
    injection e2 with e2 e3
    simp only [List.cons_append, List.append_assoc] at e1 e2 ⊢
    simp only [parseS]
    rw [if_neg (by decide), if_neg (by decide), if_neg (by decide), if_pos trivial, e1]
    simp only [e2, eat_same, e3]
  | @block tb b tn next h1 h2 i1 i2 =>
    intro rest hr
    refine ((i1 (pn "}" :: (tn ++ rest)) rfl).and (i2 rest hr)).map fun n hn => ?_
    injection hn with e2 e3
    simp only [List.cons_append, List.append_assoc] at e2 ⊢
    simp only [parseS]
    rw [if_neg (by decide), if_pos trivial, e2]
    simp only [eat_same, e3]
  | none =>
    rename_i rest hr
    refine Ev.now fun n => ?_
    match rest, hr with
    | [], _ => rfl
    | [a], _ => rfl
    | a :: b :: r, hr =>
      have : a ≠ kw "else" := by simpa using hr
      simp only [List.nil_append, parseElse]
      rw [if_neg this]
  | @els tb b h1 i1 =>
    rename_i rest hr
    refine (i1 (pn "}" :: rest) rfl).map fun n hn => ?_
    simp only [List.cons_append, List.append_assoc, List.nil_append, parseElse]
    rw [if_pos trivial, if_neg (by decide), hn]
    simp only [eat_same, Option.map_some]
  | @elif t e tb b te els h1 h2 h3 i1 i2 =>
    rename_i rest hr
    have hif : Ev (fun n => parseIf n (pn "(" :: (t ++ pn ")" :: pn "{" :: (tb ++ pn "}" :: (te ++ rest))))) (some (e, b, els, rest)) := by
      refine ((parseHead_ev h1 (tb ++ pn "}" :: (te ++ rest))).and ((i1 (pn "}" :: (te ++ rest)) rfl).and (i2 rest hr))).map fun n hn => ?_
      injection hn with e1 e2
      injection e2 with e2 e3
      simp only [parseIf, e1, e2, eat_same, e3]
    refine hif.map fun n hn => ?_
    simp only [List.cons_append, List.append_assoc, List.nil_append, parseElse] at hn ⊢
    rw [if_pos trivial, if_pos trivial, hn]

/-- Statements have one reading. -/
theorem GS.uniq {t s s'} (h : GS t s) (h' : GS t s') : s = s' := by
  have := (h.parse_ev [] trivial).uniq (h'.parse_ev [] trivial)
  simpa using this

/- ### Files -/

/-- The rest behind a word that may stand. -/
def eatOpt (a : Tok) (t : List Tok) : Bool × List Tok :=
  match eat a t with
  | some r => (true, r)
  | none => (false, t)

def parseLink : List Tok → Option (List Char) × List Tok
  | .id _ :: .p _ :: .str s :: .p _ :: r => (some s, r)
  | t => (none, t)

def parseParamList : Nat → List Tok → Option (List (CType × List Char) × List Tok)
  | 0, _ => none
  | n + 1, t =>
    match parseType t with
    | some (ty, .id x :: a :: r) =>
      if a = pn "," then
        match parseParamList n r with
        | some (ps, r) => some ((ty, x) :: ps, r)
        | none => none
      else some ([(ty, x)], a :: r)
    | _ => none

def parseParams (n : Nat) : List Tok → Option (List (CType × List Char) × List Tok)
  | .id s :: .p p :: r =>
    if p = [')'] then some ([], .p p :: r)
    else parseParamList n (.id s :: .p p :: r)
  | t => parseParamList n t

def parseInit (n : Nat) (t : List Tok) : Option (Option Exp × List Tok) :=
  match eat (pn "=") t with
  | some r => (parse n 1 r).map fun x => (some x.1, x.2)
  | none => some (none, t)

def parseUnit : Nat → List Tok → Option (List Item)
  | 0, _ => none
  | n + 1, t =>
    match t with
    | [] => some []
    | t =>
      match eatOpt (kw "static") t with
      | (st, t) =>
      match eatOpt (kw "const") t with
      | (c, t) =>
      match parseType t with
      | some (ty, .id x :: r) =>
        match eat (pn "(") r with
        | some r =>
          match parseParams n r with
          | some (ps, r) =>
            match eat (pn ")") r with
            | some r =>
              match eat (pn "{") r with
              | some r =>
                match parseS n r with
                | some (b, r) =>
                  match eat (pn "}") r with
                  | some r => (parseUnit n r).map (.func st ty x ps b :: ·)
                  | none => none
                | none => none
              | none =>
                match parseLink r with
                | (link, r) =>
                match eat (pn ";") r with
                | some r => (parseUnit n r).map (.proto st ty x ps link :: ·)
                | none => none
            | none => none
          | none => none
        | none =>
          match parseLink r with
          | (link, r) =>
          match parseInit n r with
          | some (init, r) =>
            match eat (pn ";") r with
            | some r => (parseUnit n r).map (.object st c ty x link init :: ·)
            | none => none
          | none => none
      | _ => none

theorem eatOpt_opt {b : Bool} {s : String} {r : List Tok} (h : r.head? ≠ some (kw s)) : eatOpt (kw s) (opt b s ++ r) = (b, r) := by
  cases b with
  | true => simp [opt, eatOpt, eat_same]
  | false =>
    cases r with
    | nil => rfl
    | cons a r =>
      have : a ≠ kw s := by simpa using h
      simp [opt, eatOpt, eat_other this]

theorem GLink.parse {t l} (h : GLink t l) (s : String) (rest : List Tok) : parseLink (t ++ pn s :: rest) = (l, pn s :: rest) := by
  cases h with
  | none => rfl
  | some => rfl

theorem GLink.noOpen {t l} (h : GLink t l) {s : String} (hs : s ≠ "(") (rest : List Tok) : eat (pn "(") (t ++ pn s :: rest) = Option.none := by
  cases h with
  | none => exact eat_other (by intro h; injection h with h; exact hs (String.ext h))
  | some => exact eat_other (by intro h; cases h)

theorem GParamList.parse_ev {t ps} (h : GParamList t ps) (rest : List Tok) :
    Ev (fun n => parseParamList n (t ++ pn ")" :: rest)) (some (ps, pn ")" :: rest)) := by
  induction h with
  | @one tt ty x h1 h2 =>
    refine Ev.now fun n => ?_
    simp only [List.append_assoc, List.cons_append, List.nil_append, parseParamList, h1.parse]
    rw [if_neg (by decide)]
  | @cons tt ty x tp ps h1 h2 h3 ih =>
    refine ih.map fun n hn => ?_
    simp only [List.append_assoc, List.cons_append, List.nil_append, parseParamList, h1.parse, if_true, hn]

theorem GParamList.starts {t ps} (h : GParamList t ps) : (∃ s x t', t = .id s :: .id x :: t') ∨ (∃ s t', t = .id s :: .p ['*'] :: t') := by
  have ty : ∀ {tt ty}, GType tt ty → (∃ s, tt = [.id s]) ∨ ∃ s t', tt = .id s :: .p ['*'] :: t' := by
    intro tt ty h
    induction h with
    | base => exact .inl ⟨_, rfl⟩
    | ptr _ ih =>
      rcases ih with ⟨s, rfl⟩ | ⟨s, t', rfl⟩
      · exact .inr ⟨s, [], rfl⟩
      · exact .inr ⟨s, _, rfl⟩
  cases h with
  | one h1 =>
    rcases ty h1 with ⟨s, rfl⟩ | ⟨s, t', rfl⟩
    · exact .inl ⟨_, _, _, rfl⟩
    · exact .inr ⟨_, _, rfl⟩
  | cons h1 =>
    rcases ty h1 with ⟨s, rfl⟩ | ⟨s, t', rfl⟩
    · exact .inl ⟨_, _, _, rfl⟩
    · exact .inr ⟨_, _, rfl⟩

theorem GParams.parse_ev {t ps} (h : GParams t ps) (rest : List Tok) :
    Ev (fun n => parseParams n (t ++ pn ")" :: rest)) (Option.some (ps, pn ")" :: rest)) := by
  cases h with
  | none => exact Ev.now fun n => rfl
  | some h =>
    have hp := h.parse_ev rest
    obtain ⟨n0, hp⟩ := hp
    refine ⟨n0, fun n hn => ?_⟩
    rcases h.starts with ⟨s, x, t', rfl⟩ | ⟨s, t', rfl⟩
    · exact hp n hn
    · simp only [List.cons_append, parseParams]
      rw [if_neg (by decide)]
      exact hp n hn

theorem GInit.parse_ev {t i} (h : GInit t i) (rest : List Tok) : Ev (fun n => parseInit n (t ++ pn ";" :: rest)) (Option.some (i, pn ";" :: rest)) := by
  cases h with
  | none => exact Ev.now fun n => by simp [parseInit, eat_other (show pn ";" ≠ pn "=" by decide)]
  | some h =>
    obtain ⟨n0, hp⟩ := parse_semi (by decide) h rest
    exact ⟨n0, fun n hn => by simp only [List.cons_append, parseInit, eat_same, hp n hn, Option.map_some]⟩

theorem GInit.parseLink {t i tl l} (h : GLink tl l) (hi : GInit t i) (rest : List Tok) :
    C.parseLink (tl ++ (t ++ pn ";" :: rest)) = (l, t ++ pn ";" :: rest) ∧ eat (pn "(") (tl ++ (t ++ pn ";" :: rest)) = Option.none := by
  cases hi with
  | none => exact ⟨h.parse ";" rest, h.noOpen (s := ";") (by decide) rest⟩
  | some => exact ⟨h.parse "=" _, h.noOpen (s := "=") (by decide) _⟩

/-- The words before a declaration. -/
theorem words_ev {st c : Bool} {tt ty x r} (h : GType tt ty) :
    ∃ t, eatOpt (kw "static") (opt st "static" ++ opt c "const" ++ tt ++ .id x :: r) = (st, t) ∧
      ∃ t', eatOpt (kw "const") t = (c, t') ∧ parseType t' = some (ty, .id x :: r) := by
  have hp := h.parse x r
  obtain ⟨s, tt', rfl, hs⟩ := h.starts
  have hn := typeName_not hs
  have n1 : ∀ r : List Tok, (Tok.id s :: r).head? ≠ some (kw "static") := fun r => by simpa [kw] using hn.2.2.2.2.2.2.2
  have n2 : ∀ r : List Tok, (Tok.id s :: r).head? ≠ some (kw "const") := fun r => by simpa [kw] using hn.1
  have e2 : ∀ r, eatOpt (kw "const") (opt c "const" ++ Tok.id s :: r) = (c, Tok.id s :: r) := fun r => eatOpt_opt (n2 r)
  have e1 : ∀ r, eatOpt (kw "static") (opt st "static" ++ (opt c "const" ++ Tok.id s :: r)) = (st, opt c "const" ++ Tok.id s :: r) := fun r => by
    refine eatOpt_opt ?_
    cases c with
    | true => simp [opt, kw]
    | false => simpa [opt] using n1 r
  refine ⟨_, by simpa only [List.append_assoc, List.cons_append] using e1 _, _, e2 _, ?_⟩
  simpa using hp

theorem words_cons {st c : Bool} {tt ty r} (h : GType tt ty) : opt st "static" ++ opt c "const" ++ tt ++ r ≠ [] := by
  obtain ⟨s, tt', rfl, hs⟩ := h.starts
  simp

theorem parseUnit_cons {n : Nat} {t : List Tok} (ht : t ≠ []) {st c : Bool} {ty x r} (h : ∃ t1, eatOpt (kw "static") t = (st, t1) ∧
      ∃ t', eatOpt (kw "const") t1 = (c, t') ∧ parseType t' = some (ty, .id x :: r)) :
    parseUnit (n + 1) t =
        match eat (pn "(") r with
        | some r =>
          match parseParams n r with
          | some (ps, r) =>
            match eat (pn ")") r with
            | some r =>
              match eat (pn "{") r with
              | some r =>
                match parseS n r with
                | some (b, r) =>
                  match eat (pn "}") r with
                  | some r => (parseUnit n r).map (.func st ty x ps b :: ·)
                  | none => none
                | none => none
              | none =>
                match parseLink r with
                | (link, r) =>
                match eat (pn ";") r with
                | some r => (parseUnit n r).map (.proto st ty x ps link :: ·)
                | none => none
            | none => none
          | none => none
        | none =>
          match parseLink r with
          | (link, r) =>
          match parseInit n r with
          | some (init, r) =>
            match eat (pn ";") r with
            | some r => (parseUnit n r).map (.object st c ty x link init :: ·)
            | none => none
          | none => none := by
  obtain ⟨t1, h1, t2, h2, h3⟩ := h
  cases t with
  | nil => exact absurd rfl ht
  | cons a t =>
    rw [parseUnit]
    · simp only [h1, h2, h3]
    · simp

theorem GUnit.parse_ev {t items} (h : GUnit t items) : Ev (fun n => parseUnit n t) (some items) := by
  induction h with
  | nil => exact Ev.now fun n => rfl
  | @object st c tt ty x tl link ti init tn next h1 h2 h3 h4 h5 ih =>
    refine ((h4.parse_ev tn).and ih).map fun n hn => ?_
    injection hn with e1 e2
    rw [parseUnit_cons (words_cons h1) (words_ev h1)]
    obtain ⟨e3, e4⟩ := h4.parseLink h3 tn
    simp only [List.append_assoc, e4, e3, e1, eat_same, e2, Option.map_some]
  | @proto st tt ty f tp ps tl link tn next h1 h2 h3 h4 h5 ih =>
    refine ((h3.parse_ev (tl ++ pn ";" :: tn)).and ih).map fun n hn => ?_
    injection hn with e1 e2
    have hw := @words_ev st false _ _ f (pn "(" :: (tp ++ pn ")" :: (tl ++ pn ";" :: tn))) h1
    have hc := @words_cons st false _ _ (.id f :: pn "(" :: (tp ++ pn ")" :: (tl ++ pn ";" :: tn))) h1
    have e0 : opt false "const" = [] := rfl
    rw [e0, List.append_nil] at hw hc
    rw [parseUnit_cons hc hw]
    have e3 := h4.parse ";" tn
    have e4 : eat (pn "{") (tl ++ pn ";" :: tn) = none := by
      cases h4 with
      | none => exact eat_other (by decide)
      | some => exact eat_other (by intro h; cases h)
    simp only [eat_same, e1, e4, e3, e2, Option.map_some]
  | @func st tt ty f tp ps tb b tn next h1 h2 h3 h4 h5 ih =>
    refine ((h3.parse_ev (pn "{" :: (tb ++ pn "}" :: tn))).and ((h4.parse_ev (pn "}" :: tn) rfl).and ih)).map fun n hn => ?_
    injection hn with e1 e2
    injection e2 with e2 e3
    have hw := @words_ev st false _ _ f (pn "(" :: (tp ++ pn ")" :: pn "{" :: (tb ++ pn "}" :: tn))) h1
    have hc := @words_cons st false _ _ (.id f :: pn "(" :: (tp ++ pn ")" :: pn "{" :: (tb ++ pn "}" :: tn))) h1
    have e0 : opt false "const" = [] := rfl
    rw [e0, List.append_nil] at hw hc
    rw [parseUnit_cons hc hw]
    simp only [eat_same, e1, e2, e3, Option.map_some]

/-- Files have one reading. -/
theorem GUnit.uniq {t i i'} (h : GUnit t i) (h' : GUnit t i') : i = i' := by
  have := h.parse_ev.uniq h'.parse_ev
  simpa using this

end Skull.Spec.C
