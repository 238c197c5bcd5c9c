import Verif.Proofs.ParseHeapStmt
/-
The functions of the parser that read one statement, with their memory.
-/
namespace Skull.PHeap

open Skull.Spec

variable {all : List Token} {F : Count}

/-- What holds of the context after a statement; `d` says whether a closing bracket was reached. -/
def Next (all : List Token) (F : Count) (d : Bool) (c : HCtx) : Prop :=
  (∃ lk, Inv all F lk c) ∧ (d = true → c.hs.ps.err = false → ∃ t rest, c.hs.ps.toks = t :: rest ∧ t.ty = .bracketClose)

theorem next_false {lk c} (h : Inv all F lk c) : Next all F false c := ⟨⟨lk, h⟩, fun h => by cases h⟩

theorem Inv.pushOwn {lk lk' c h'} (h : Inv all F lk c) {st : HStmt} (hw : st.Within all.length) (hs : h'.ps.toks <:+ all)
    (ho : Holds h' (fun x => st.cnt x + (c.cnt x + (lk' x + F x)))) (hl : h'.ps.err = false → Tidy all → ∀ x, lk' x = 0) (tok te) :
    Inv all F lk' ({ c with hs := h' }.push st tok te) := by
  refine ⟨hs, ?_, ?_, trivial, Or.inr rfl, hl, fun _ hn => absurd rfl hn⟩
  · have h1 := ho.alloc
    have h2 := h1.log (es := [.use (.mem c.node)]) (Runs.use (by simp only [HCtx.cnt, one_self]; omega) (Runs.nil _))
    refine h2.cast fun x => ?_
    simp only [HCtx.cnt, HCtx.push, nodesCnt, HNode.cnt, HTree.cnt]
    omega
  · intro n hn
    rcases List.mem_cons.1 hn with rfl | hn
    · exact ⟨hw, h.head⟩
    · exact h.nodes n hn

theorem Inv.samePs {lk c h'} (h : Inv all F lk c) (hp : h'.ps = c.hs.ps) (ho : Holds h' (fun x => c.cnt x + (lk x + F x))) :
    Inv all F lk { c with hs := h' } :=
  ⟨by rw [show ({ c with hs := h' } : HCtx).hs.ps = c.hs.ps from hp]; exact h.suf, ho, h.nodes, h.head, h.shape, by
    intro he; exact h.lost (by rw [← hp]; exact he), by
    intro he hn
    show AfterBlock all h'.ps.toks
    rw [hp]
    exact h.after (by rw [← hp]; exact he) hn⟩

theorem Inv.setToks {lk c} (h : Inv all F lk c) (hn : c.headChild = .nil) {toks} (hs : toks <:+ all) : Inv all F lk { c with hs := c.hs.setToks toks } :=
  h.setHs hn hs h.own h.lost

/-- An expression was parsed, and nothing is kept of it. -/
theorem expr_none {lk c a h' h0} (h : Inv all F lk c) (hn : c.headChild = .nil) (he : c.hs.ps.err = false) (hs : h0.ps.toks <:+ all)
    (r : Res all.length h0 (fun x => c.cnt x + (lk x + F x)) a h') (ha : h'.ps.err = true ∨ a = none) :
    ∃ lk', Inv all F lk' { c with hs := h' } := by
  obtain ⟨lk2, ho, hk⟩ := r.own
  refine ⟨fun x => cntO a x + lk2 x + lk x, h.setHs hn (r.suf.trans hs) (ho.cast fun x => by omega) ?_⟩
  intro he' ht x
  rcases ha with ha | ha
  · rw [ha] at he'; cases he'
  · subst ha
    simp [cntO, hk he' x, h.lost he ht x]

/-- The same in a context whose head may have a block. -/
theorem expr_err {lk c a h' h0} (h : Inv all F lk c) (hs : h0.ps.toks <:+ all)
    (r : Res all.length h0 (fun x => c.cnt x + (lk x + F x)) a h') (he : h'.ps.err = true) :
    ∃ lk', Inv all F lk' { c with hs := h' } := by
  obtain ⟨lk2, ho, hk⟩ := r.own
  exact ⟨fun x => cntO a x + lk2 x + lk x, h.setErr he (r.suf.trans hs) (ho.cast fun x => by omega)⟩

theorem expr_fail {lk c a h' h0} (h : Inv all F lk c) (hs : h0.ps.toks <:+ all)
    (r : Res all.length h0 (fun x => c.cnt x + (lk x + F x)) a h') (code t) :
    ∃ lk', Inv all F lk' { c with hs := h'.fail code t } := by
  obtain ⟨lk2, ho, hk⟩ := r.own
  exact ⟨fun x => cntO a x + lk2 x + lk x, h.setErr rfl (r.suf.trans hs) (holds_fail (ho.cast fun x => by omega) _ _)⟩

/-- An expression was parsed and goes to the node that was pushed last. -/
theorem expr_set {lk c e h' h0 n ns} (h : Inv all F lk c) (hd : c.done = n :: ns) (h0n : ∀ x, n.stmt.cnt x = 0) (he : c.hs.ps.err = false)
    (hs : h0.ps.toks <:+ all) (r : Res all.length h0 (fun x => c.cnt x + (lk x + F x)) (some e) h') {st : HStmt}
    (hw : st.Within all.length) (hc : ∀ x, st.cnt x = e.cnt x) :
    ∃ lk', Inv all F lk' ({ c with hs := h' }.setStmt st) := by
  obtain ⟨lk2, ho, hk⟩ := r.own
  refine ⟨fun x => lk2 x + lk x, h.setStmt hd hw (r.suf.trans hs) h0n (ho.cast fun x => ?_) ?_⟩
  · simp only [cntO, hc]; omega
  · intro he' ht x
    simp [hk he' x, h.lost he ht x]

/-- The same with one more block around it. -/
theorem expr_box {lk c e h' h0 n ns} (h : Inv all F lk c) (hd : c.done = n :: ns) (h0n : ∀ x, n.stmt.cnt x = 0) (he : c.hs.ps.err = false)
    (hs : h0.ps.toks <:+ all) (r : Res all.length h0 (fun x => c.cnt x + (lk x + F x)) (some e) h') {st : HStmt}
    (hw : st.Within all.length) (hc : ∀ x, st.cnt x = one (.mem h'.next) x + e.cnt x) :
    ∃ lk', Inv all F lk' ({ c with hs := h'.alloc.log [.use (.mem h'.next)] }.setStmt st) := by
  obtain ⟨lk2, ho, hk⟩ := r.own
  refine ⟨fun x => lk2 x + lk x, h.setStmt hd hw (r.suf.trans hs) h0n ?_ ?_⟩
  · refine (ho.alloc.use (b := .mem h'.next) (by simp only [one_self]; omega)).cast fun x => ?_
    simp only [cntO, hc]; omega
  · intro he' ht x
    simp [hk he' x, h.lost he ht x]

variable (ht : Toks all.length F)
include ht

theorem toks_frame (a b : Count) : Toks all.length (fun x => a x + (b x + F x)) := ht.mono fun x => by omega

theorem pushToken_ok {lk c} (h : Inv all F lk c) (st : Stmt) : BothN (Next all F) (pushTokenH c st) (pushToken c.plain st) := by
  refine .ok (next_false ((h.push (st := .bare st) (fun _ => rfl) trivial c.hs.ps.toks c.hs.ps.toks).setToks rfl ((List.tail_suffix _).trans h.suf))) ?_
  exact ⟨rfl, fun _ => rfl⟩

theorem return_ok {lk c} (h : Inv all F lk c) (he : c.hs.ps.err = false) : BothN (Next all F) (parseReturnH c) (parseReturn c.plain) := by
  unfold parseReturnH parseReturn
  dsimp only
  have hi := h.push (st := .ret .missing) (fun _ => rfl) trivial c.hs.ps.toks c.hs.ps.toks
  have hs : c.hs.ps.toks.tail <:+ all := (List.tail_suffix _).trans h.suf
  have h1 := parseExprH_post (h := (c.push (.ret .missing) c.hs.ps.toks c.hs.ps.toks).hs.setToks c.hs.ps.toks.tail) hs.length_le
    (toks_frame ht _ _) (holds_setToks hi.own _)
  rw [show ((c.push (.ret .missing) c.hs.ps.toks c.hs.ps.toks).hs.setToks c.hs.ps.toks.tail).ps = { c.plain.ps with toks := c.plain.ps.toks.tail } from rfl] at h1
  generalize parseExprH ((c.push (.ret .missing) c.hs.ps.toks c.hs.ps.toks).hs.setToks c.hs.ps.toks.tail) = r at h1 ⊢
  generalize parseExpr { c.plain.ps with toks := c.plain.ps.toks.tail } = p at h1 ⊢
  cases h1 with
  | ub => exact .ub
  | fuel => exact .fuel
  | @ok a h' r =>
    dsimp only
    by_cases he' : h'.ps.err = true
    · rw [if_pos he']
      obtain ⟨lk', hi'⟩ := expr_none hi rfl he hs r (Or.inl he')
      exact .ok (next_false hi') (same_err rfl he')
    · rw [if_neg he']
      cases a with
      | none =>
        obtain ⟨lk', hi'⟩ := expr_none hi rfl he hs r (Or.inr rfl)
        exact .ok (next_false hi') ⟨rfl, fun _ => rfl⟩
      | some e =>
        obtain ⟨lk', hi'⟩ := expr_set hi rfl (fun _ => rfl) he hs r (st := .ret e) (r.fit e rfl).1 fun _ => rfl
        exact .ok (next_false hi') ⟨rfl, fun _ => rfl⟩

theorem condition_ok {lk c} (h : Inv all F lk c) (he : c.hs.ps.err = false) (mk : HExpr → HStmt) (mk' : Expr → Stmt)
    (hp : ∀ e, (mk e).plain = mk' e.plain) (hc : ∀ e, (mk e).cnt = e.cnt) (hw : ∀ e, (mk e).Within all.length ↔ e.Within all.length) :
    BothN (Next all F) (parseConditionH c mk) (parseCondition c.plain mk') := by
  unfold parseConditionH parseCondition
  rw [show c.plain.ps = c.hs.ps from rfl]
  have herr : BothN (Next all F) (.ok false { c with hs := { c.hs with ps := { c.hs.ps with err := true } } })
      (.ok false { c.plain with ps := { c.hs.ps with err := true } }) :=
    .ok (next_false (h.setErr rfl h.suf h.own)) (same_err rfl rfl)
  cases htk : c.hs.ps.toks with
  | nil => exact herr
  | cons t rest =>
    cases rest with
    | nil => exact herr
    | cons t2 rest =>
      dsimp only
      have hi := h.push (st := mk .missing) (fun x => by rw [hc]; rfl) ((hw _).2 trivial) (t :: t2 :: rest) (t :: t2 :: rest)
      have hs : t2 :: rest <:+ all := by
        have := h.suf
        rw [htk] at this
        exact (List.suffix_cons _ _).trans this
      have h1 := parseExprH_post (h := (c.push (mk .missing) (t :: t2 :: rest) (t :: t2 :: rest)).hs.setToks (t2 :: rest)) hs.length_le
        (toks_frame ht _ _) (holds_setToks hi.own _)
      rw [show ((c.push (mk .missing) (t :: t2 :: rest) (t :: t2 :: rest)).hs.setToks (t2 :: rest)).ps = { c.hs.ps with toks := t2 :: rest } from rfl] at h1
      generalize parseExprH ((c.push (mk .missing) (t :: t2 :: rest) (t :: t2 :: rest)).hs.setToks (t2 :: rest)) = r at h1 ⊢
      generalize parseExpr { c.hs.ps with toks := t2 :: rest } = p at h1 ⊢
      cases h1 with
      | ub => exact .ub
      | fuel => exact .fuel
      | @ok a h' r =>
        cases a with
        | none =>
          obtain ⟨lk', hi'⟩ := expr_fail hi hs r .errInvalidExpr h'.ps.toks.head?
          exact .ok (next_false hi') (same_err rfl rfl)
        | some e =>
          show BothN _ (if _ then _ else _) (if _ then _ else _)
          by_cases he' : h'.ps.err = true
          · rw [if_pos he', if_pos he']
            obtain ⟨lk', hi'⟩ := expr_fail hi hs r .errInvalidExpr h'.ps.toks.head?
            exact .ok (next_false hi') (same_err rfl rfl)
          · rw [if_neg he', if_neg he']
            obtain ⟨lk', hi'⟩ := expr_set hi rfl (fun x => by show (mk .missing).cnt x = 0; rw [hc]; rfl) he hs r (st := mk e) ((hw e).2 (r.fit e rfl).1) fun x => by rw [hc]
            refine .ok (next_false hi') ⟨rfl, fun _ => ?_⟩
            rw [← hp]
            rfl

theorem namespace_ok {lk c} (h : Inv all F lk c) : BothN (Next all F) (parseNamespaceH c) (parseNamespace c.plain) := by
  unfold parseNamespaceH parseNamespace
  rw [show c.plain.ps = c.hs.ps from rfl]
  have herr : BothN (Next all F) (.ok false { c with hs := { c.hs with ps := { c.hs.ps with err := true } } })
      (.ok false { c.plain with ps := { c.hs.ps with err := true } }) :=
    .ok (next_false (h.setErr rfl h.suf h.own)) (same_err rfl rfl)
  cases htk : c.hs.ps.toks with
  | nil => exact herr
  | cons t rest =>
    cases rest with
    | nil => exact herr
    | cons t2 rest =>
      have hs : rest <:+ all := by
        have := h.suf
        rw [htk] at this
        exact (List.suffix_cons _ _).trans ((List.suffix_cons _ _).trans this)
      exact .ok (next_false ((h.push (st := .bare .namespaces) (fun _ => rfl) trivial (t :: t2 :: rest) rest).setToks rfl hs)) ⟨rfl, fun _ => rfl⟩

theorem import_ok {lk c} (h : Inv all F lk c) : BothN (Next all F) (parseImportH c) (parseImport c.plain) := by
  unfold parseImportH parseImport
  rw [show c.plain.ps = c.hs.ps from rfl]
  cases htk : c.hs.ps.toks with
  | nil => exact .ub
  | cons t rest =>
    cases rest with
    | nil => exact .ok (next_false (h.fail _ _)) (same_err rfl rfl)
    | cons t2 rest =>
      have hs : rest <:+ all := by
        have := h.suf
        rw [htk] at this
        exact (List.suffix_cons _ _).trans ((List.suffix_cons _ _).trans this)
      dsimp only
      by_cases h1 : t2.ty = .identifier
      · rw [if_pos h1, if_pos h1]
        exact .ok (next_false ((h.push (st := .bare .imports) (fun _ => rfl) trivial (t :: t2 :: rest) (t :: t2 :: rest)).setToks rfl hs)) ⟨rfl, fun _ => rfl⟩
      · rw [if_neg h1, if_neg h1]
        exact .ok (next_false (h.fail _ _)) (same_err rfl rfl)

theorem exprStmt_ok {lk c} (h : Inv all F lk c) (he : c.hs.ps.err = false) : BothN (Next all F) (parseExprStmtH c) (parseExprStmt c.plain) := by
  unfold parseExprStmtH parseExprStmt
  rw [show c.plain.ps = c.hs.ps from rfl]
  dsimp only
  have h1 := parseExprH_post (h := c.hs) h.suf.length_le (toks_frame ht _ _) h.own
  generalize parseExprH c.hs = r at h1 ⊢
  generalize parseExpr c.hs.ps = p at h1 ⊢
  cases h1 with
  | ub => exact .ub
  | fuel => exact .fuel
  | @ok a h' r =>
    cases a with
    | none =>
      show BothN _ (if _ then _ else _) (if _ then _ else _)
      by_cases he' : h'.ps.err = true
      · rw [if_pos he', if_pos he']
        obtain ⟨lk', hi'⟩ := expr_err h h.suf r he'
        exact .ok (next_false hi') (same_err rfl he')
      · rw [if_neg he', if_neg he']
        obtain ⟨lk', hi'⟩ := expr_fail h h.suf r .errUnexpectedToken h'.ps.toks.head?
        exact .ok (next_false hi') (same_err rfl rfl)
    | some e =>
      obtain ⟨lk2, ho, hk⟩ := r.own
      have hi : Inv all F (fun x => lk2 x + lk x) ((({ c with hs := h' } : HCtx).push (.expr .missing) c.hs.ps.toks h'.ps.toks).setStmt (.expr e)) := by
        have hw := (r.fit e rfl).1
        have hx := h.pushOwn (st := .expr e) (h' := h') (lk' := fun x => lk2 x + lk x) hw (r.suf.trans h.suf)
          (ho.cast fun x => by simp only [cntO, HStmt.cnt]; omega) (fun he' ht' x => by simp [hk he' x, h.lost he ht' x]) c.hs.ps.toks h'.ps.toks
        refine ⟨hx.suf, ?_, hx.nodes, hx.head, hx.shape, hx.lost, fun _ hn => absurd rfl hn⟩
        exact hx.own.use (by simp only [HCtx.cnt, HCtx.push, nodesCnt, HNode.cnt, one_self]; omega)
      exact .ok (next_false hi) ⟨rfl, fun _ => rfl⟩

theorem varAssign_ok {lk c} (h : Inv all F lk c) (he : c.hs.ps.err = false) :
    BothP (fun c => ∃ lk, Inv all F lk c) c.plain (parseVarAssignH c) (parseVarAssign c.plain) := by
  unfold parseVarAssignH parseVarAssign
  rw [show c.plain.ps = c.hs.ps from rfl]
  cases htk : c.hs.ps.toks with
  | nil => exact .ub
  | cons t rest =>
    dsimp only
    split
    · exact .ignore ⟨lk, h⟩ rfl
    · have hi := h.push (st := .varAssign none .missing) (fun _ => rfl) ⟨trivial, fun _ => rfl⟩ (t :: rest) rest
      have hs : rest.tail <:+ all := by
        have := h.suf
        rw [htk] at this
        exact (List.tail_suffix _).trans ((List.suffix_cons _ _).trans this)
      have h1 := parseExprH_post (h := (c.push (.varAssign none .missing) (t :: rest) rest).hs.setToks rest.tail) hs.length_le
        (toks_frame ht _ _) (holds_setToks hi.own _)
      rw [show ((c.push (.varAssign none .missing) (t :: rest) rest).hs.setToks rest.tail).ps = { c.hs.ps with toks := rest.tail } from rfl] at h1
      generalize parseExprH ((c.push (.varAssign none .missing) (t :: rest) rest).hs.setToks rest.tail) = r at h1 ⊢
      generalize parseExpr { c.hs.ps with toks := rest.tail } = p at h1 ⊢
      cases h1 with
      | ub => exact .ub
      | fuel => exact .fuel
      | @ok a h' r =>
        cases a with
        | none =>
          show BothP _ _ (match h'.ps.toks with | [] => _ | t' :: _ => _) (match h'.ps.toks with | [] => _ | t' :: _ => _)
          cases h'.ps.toks with
          | nil => exact .ub
          | cons t' _ =>
            have hi' := expr_fail hi hs r .errAssignMissingExpr t'
            exact .error hi' (same_err rfl rfl)
        | some e =>
          have hi' := expr_box hi rfl (fun _ => rfl) he hs r (st := .varAssign (some h'.next) e) ⟨(r.fit e rfl).1, fun h => by cases h⟩ fun x => rfl
          exact .ok hi' ⟨rfl, fun _ => by rw [← htk]; rfl⟩

theorem finishVarDef_ok {lk c} (h : Inv all F lk c) (he : c.hs.ps.err = false) (first name cur : List Token) (x y z : Bool) (hs : cur <:+ all) :
    BothP (fun c => ∃ lk, Inv all F lk c) c.plain (finishVarDefH c first name cur x y z) (finishVarDef c.plain first name cur x y z) := by
  unfold finishVarDefH finishVarDef
  cases cur with
  | nil => exact .ub
  | cons t rest =>
    rw [show c.plain.ps = c.hs.ps from rfl]
    dsimp only
    replace hs : rest <:+ all := (List.suffix_cons _ _).trans hs
    have hi := h.push (st := .varDef none name x y z .missing) (fun _ => rfl) ⟨trivial, fun _ => rfl⟩ first (t :: rest)
    have h1 := parseExprH_post (h := (c.push (.varDef none name x y z .missing) first (t :: rest)).hs.setToks rest) hs.length_le
      (toks_frame ht _ _) (holds_setToks hi.own _)
    rw [show ((c.push (.varDef none name x y z .missing) first (t :: rest)).hs.setToks rest).ps = { c.hs.ps with toks := rest } from rfl] at h1
    generalize parseExprH ((c.push (.varDef none name x y z .missing) first (t :: rest)).hs.setToks rest) = r at h1 ⊢
    generalize parseExpr { c.hs.ps with toks := rest } = p at h1 ⊢
    cases h1 with
    | ub => exact .ub
    | fuel => exact .fuel
    | @ok a h' r =>
      dsimp only
      by_cases he' : h'.ps.err = true
      · rw [if_pos he', if_pos he']
        exact .error (expr_none hi rfl he hs r (Or.inl he')) (same_err rfl he')
      · rw [if_neg he', if_neg he']
        cases a with
        | none =>
          show BothP _ _ (match h'.ps.toks with | [] => _ | t' :: _ => _) (match h'.ps.toks with | [] => _ | t' :: _ => _)
          cases h'.ps.toks with
          | nil => exact .ub
          | cons t' _ => exact .error (expr_fail hi hs r .errAssignMissingExpr t') (same_err rfl rfl)
        | some e =>
          have hi' := expr_box hi rfl (fun _ => rfl) he hs r (st := .varDef (some h'.next) name x y z e) ⟨(r.fit e rfl).1, fun h => by cases h⟩ fun x => rfl
          show BothP _ _ (match h'.ps.toks with | [] => _ | t' :: _ => _) (match h'.ps.toks with | [] => _ | t' :: _ => _)
          cases h'.ps.toks with
          | nil => exact .ok hi' ⟨rfl, fun _ => rfl⟩
          | cons t' _ =>
            dsimp only
            by_cases h2 : t'.ty ≠ .newline
            · rw [if_pos h2, if_pos h2]
              obtain ⟨lk', hi'⟩ := hi'
              exact .error ⟨lk', hi'.fail _ _⟩ (same_err rfl rfl)
            · rw [if_neg h2, if_neg h2]
              exact .ok hi' ⟨rfl, fun _ => rfl⟩

theorem varDef_ok {lk c} (h : Inv all F lk c) (he : c.hs.ps.err = false) :
    BothP (fun c => ∃ lk, Inv all F lk c) c.plain (parseVarDefH c) (parseVarDef c.plain) := by
  unfold parseVarDefH parseVarDef
  rw [show c.plain.ps = c.hs.ps from rfl]
  have hsuf := h.suf
  cases htk : c.hs.ps.toks with
  | nil => exact .ub
  | cons t rest =>
    rw [htk] at hsuf
    dsimp only
    generalize hnm : (if (decide (t.ty = .kwMut) || decide (t.ty = .kwExport)) = true then rest else t :: rest) = nm
    have hnm' : nm <:+ all := by
      rw [← hnm]
      split
      · exact (List.suffix_cons _ _).trans hsuf
      · exact hsuf
    cases nm with
    | nil => exact .ignore ⟨lk, h⟩ rfl
    | cons n more =>
      dsimp only
      cases hx : isExplicitType (n :: more) with
      | some cur =>
        cases cur with
        | nil => exact .error ⟨lk, h.setErr rfl List.nil_suffix (holds_fail (holds_setToks h.own _) _ _)⟩ (same_err rfl rfl)
        | cons a b => exact finishVarDef_ok ht h he _ _ _ _ _ _ ((explicit_suffix hx).trans hnm')
      | none =>
        dsimp only
        cases tokenCmp2 (n :: more) .identifier .operAutoEqual with
        | none => exact .ub
        | some b =>
          cases b with
          | false => exact .ignore ⟨lk, h⟩ rfl
          | true => exact finishVarDef_ok ht h he _ _ _ _ _ _ ((List.suffix_cons _ _).trans hnm')

omit ht in
theorem pushProto_ok {lk c} (h : Inv all F lk c) (he : c.hs.ps.err = false) {v : HVec} {h' : HS} (hp : h'.ps = c.hs.ps)
    (ho : Holds h' (fun x => v.cnt x + (c.cnt x + (lk x + F x)))) (hv : v.items.length ≤ all.length) (first name after : List Token)
    (hs : after <:+ all) (ret : Option (List Token)) (x y : Bool) :
    BothP (fun c => ∃ lk, Inv all F lk c) c.plain (pushProtoH c h' first name after v ret x y)
      (pushProto c.plain first name after (v.items.map HParam.param).reverse ret x y) := by
  unfold pushProtoH pushProto
  cases name with
  | nil => exact .ub
  | cons n _ =>
    dsimp only
    have e1 : (v.items.map HParam.param).reverse.length = v.items.length := by simp
    have e2 : (v.items.map HParam.param).reverse.take (v.items.length % 65536) =
        (v.items.reverse.take (v.items.length % 65536)).map HParam.param := by
      rw [← List.map_reverse, List.map_take]
    rw [e1, e2]
    generalize hps : v.items.reverse.take (v.items.length % 65536) = ps
    generalize hqs : v.items.reverse.drop (v.items.length % 65536) = qs
    have hsplit : ∀ x, paramsCnt v.items x = paramsCnt ps x + paramsCnt qs x := by
      intro x
      rw [← paramsCnt_reverse, ← List.take_append_drop (v.items.length % 65536) v.items.reverse, paramsCnt_append, hps, hqs]
    have h1 : Holds h'.alloc (fun x => optCnt v.elements x + (one (.mem v.b) x + (one (.mem h'.next) x + (paramsCnt ps x + (c.cnt x + ((paramsCnt qs x + lk x) + F x)))))) :=
      ho.alloc.cast fun x => by simp only [HVec.cnt, hsplit]; omega
    have hr : Runs ([.use (.mem c.node), .use (.mem h'.next), .use (.mem v.b)] ++ v.freeElements ++ [.use (.mem v.b), .free (.mem v.b)])
        (fun x => optCnt v.elements x + (one (.mem v.b) x + (one (.mem h'.next) x + (paramsCnt ps x + (c.cnt x + ((paramsCnt qs x + lk x) + F x))))))
        (fun x => one (.mem h'.next) x + (paramsCnt ps x + (c.cnt x + ((paramsCnt qs x + lk x) + F x)))) := by
      rw [List.append_assoc]
      show Runs (_ :: _ :: _ :: (v.freeElements ++ _)) _ _
      refine Runs.use ?_ (Runs.use ?_ (Runs.use ?_ (Runs.append (runs_elements v _) (Runs.use ?_ (Runs.free (Runs.nil _))))))
      · simp only [HCtx.cnt, one_self]; omega
      · simp only [one_self]; omega
      · simp only [one_self]; omega
      · simp only [one_self]; omega
    have h2 := h1.log hr
    have hlost : Tidy all → ∀ x, paramsCnt qs x + lk x = 0 := by
      intro hT x
      have : qs = [] := by
        have hlt : v.items.length < 65536 := Nat.lt_of_le_of_lt hv hT.short
        rw [← hqs, Nat.mod_eq_of_lt hlt]
        exact List.drop_eq_nil_of_le (by simp)
      rw [this, h.lost he hT x]
      rfl
    have hi := h.pushOwn (st := .funcProto h'.next ps ⟨n, ret, x, y, ps.map HParam.param, v.items.length % 65536⟩) trivial
      (h' := h'.alloc.log ([.use (.mem c.node), .use (.mem h'.next), .use (.mem v.b)] ++ v.freeElements ++ [.use (.mem v.b), .free (.mem v.b)]))
      (lk' := fun x => paramsCnt qs x + lk x) (by show h'.ps.toks <:+ _; rw [hp]; exact h.suf)
      (h2.cast fun x => by simp only [HStmt.cnt]; omega) (fun _ => hlost) first after
    have hi2 := hi.setToks rfl ((List.tail_suffix after).trans hs)
    refine .ok ⟨_, hi2⟩ ⟨?_, fun _ => ?_⟩
    · show { h'.ps with toks := after.tail } = { c.hs.ps with toks := after.tail }
      rw [hp]
    · show ({ ps := { h'.ps with toks := after.tail }, done := _, headChild := _ } : PCtx) = _
      rw [hp]
      rfl

theorem proto_ok {lk c} (h : Inv all F lk c) (he : c.hs.ps.err = false) :
    BothP (fun c => ∃ lk, Inv all F lk c) c.plain (parseFunctionProtoH c) (parseFunctionProto c.plain) := by
  unfold parseFunctionProtoH parseFunctionProto
  rw [show c.plain.ps = c.hs.ps from rfl]
  have hsuf := h.suf
  cases htk : c.hs.ps.toks with
  | nil => exact .ub
  | cons t rest =>
    rw [htk] at hsuf
    dsimp only
    generalize hnm : (if (decide (t.ty = .kwExternal) || decide (t.ty = .kwExport)) = true then rest else t :: rest) = nm
    have hnm' : nm <:+ all := by
      rw [← hnm]
      split
      · exact (List.suffix_cons _ _).trans hsuf
      · exact hsuf
    cases tokenCmp2 nm .identifier .parenOpen with
    | none => exact .ub
    | some b =>
      cases b with
      | false => exact .ignore ⟨lk, h⟩ rfl
      | true =>
        dsimp only
        have hst : nm.tail.tail <:+ all := (List.tail_suffix _).trans ((List.tail_suffix _).trans hnm')
        generalize nm.tail.tail = start at hst ⊢
        unfold finishProtoH finishProto
        have hh := parseParamsH_ok (c := fun x => c.cnt x + (lk x + F x)) (start.length + 1) start { b := c.hs.next } c.hs.alloc
          (h.own.alloc.cast fun x => by simp only [HVec.cnt, optCnt, paramsCnt]; omega)
        rw [show (({ b := c.hs.next } : HVec).items.map HParam.param) = [] from rfl] at hh
        generalize parseParamsH (start.length + 1) start { b := c.hs.next } c.hs.alloc = r at hh ⊢
        generalize parseParams (start.length + 1) start [] = p at hh ⊢
        rcases r with _ | ⟨v, toks', h'⟩ <;> rcases p with _ | ⟨ps, toks''⟩
        · exact .fuel
        · exact hh.elim
        · exact hh.elim
        · obtain ⟨rfl, rfl, hps, hsf, ho, hlen⟩ := hh
          have hps : h'.ps = c.hs.ps := hps
          have hv : v.items.length ≤ all.length := by
            have := hst.length_le
            simp only [List.length_nil] at hlen
            omega
          have hfree : Holds (h'.log v.freeAll) (fun x => c.cnt x + (lk x + F x)) := ho.log (runs_freeAll v _)
          have herr : ∀ (toks : List Token) code t, toks <:+ all → BothP (fun c => ∃ lk, Inv all F lk c) c.plain
              (.error { c with hs := ((h'.setToks toks).fail code t).log v.freeAll })
              (.error { c.plain with ps := { c.hs.ps with toks := toks }.fail code t }) := by
            intro toks code t hs
            refine .error ⟨lk, h.setErr rfl hs hfree⟩ (same_err ?_ rfl)
            show ({ h'.ps with toks := toks } : PS).fail code t = _
            rw [hps]
          rw [show c.plain.ps = c.hs.ps from rfl]
          cases toks'' with
          | nil => exact herr _ _ _ List.nil_suffix
          | cons cur after =>
            dsimp only
            have hsc : cur :: after <:+ all := hsf.trans hst
            have hsa : after <:+ all := (List.suffix_cons _ _).trans hsc
            generalize htmp : (if cur.ty = .parenClose then isPotentialType after else none) = tmp
            cases tmp with
            | some l =>
              have hpt : isPotentialType after = some l := by
                split at htmp
                · exact htmp
                · cases htmp
              cases l with
              | nil => exact .ub
              | cons ty more =>
                dsimp only
                have htm := (potential_suffix hpt).trans hsa
                generalize (if decide (t.ty = .kwExternal) = true then TokType.newline else .bracketOpen) = tt
                by_cases h1 : more.head?.map (·.ty) = some tt
                · rw [if_pos h1, if_pos h1]
                  exact pushProto_ok h he hps ho hv _ _ _ htm _ _ _
                · rw [if_neg h1, if_neg h1]
                  exact herr _ _ _ hsc
            | none =>
              dsimp only
              generalize (if decide (t.ty = .kwExternal) = true then TokType.newline else .bracketOpen) = tt
              by_cases h1 : cur.ty = .parenClose ∧ after.head?.map (·.ty) = some tt
              · rw [if_pos h1, if_pos h1]
                exact pushProto_ok h he hps ho hv _ _ _ hsc _ _ _
              · rw [if_neg h1, if_neg h1]
                by_cases h2 : (cur :: after).length ≠ start.length
                · rw [if_pos h2, if_pos h2]
                  exact herr _ _ _ hsc
                · rw [if_neg h2, if_neg h2]
                  by_cases h3 : (decide (t.ty = .kwExternal) && decide (after = [])) = true
                  · rw [if_pos h3, if_pos h3]
                    exact herr _ _ _ hsc
                  · rw [if_neg h3, if_neg h3]
                    refine .ignore ⟨lk, h.samePs hps hfree⟩ ?_
                    show ({ ps := h'.ps, done := _, headChild := _ } : PCtx) = _
                    rw [hps]
                    rfl

theorem default_ok {lk c} (h : Inv all F lk c) (he : c.hs.ps.err = false) : BothN (Next all F) (parseDefaultH c) (parseDefault c.plain) := by
  unfold parseDefaultH parseDefault
  have h1 := proto_ok ht h he
  generalize parseFunctionProtoH c = r at h1 ⊢
  generalize parseFunctionProto c.plain = p at h1 ⊢
  cases h1 with
  | ub => exact .ub
  | fuel => exact .fuel
  | ok h2 hs => exact .ok (next_false h2.choose_spec) hs
  | error h2 hs => exact .ok (next_false h2.choose_spec) hs
  | @ignore c1 h2 hc =>
    obtain ⟨lk1, h2⟩ := h2
    have he1 : c1.hs.ps.err = false := by
      have : c1.plain.ps = c.plain.ps := by rw [hc]
      have : c1.hs.ps = c.hs.ps := this
      rw [this]; exact he
    dsimp only
    rw [← hc]
    have h1 := varDef_ok ht h2 he1
    generalize parseVarDefH c1 = r at h1 ⊢
    generalize parseVarDef c1.plain = p at h1 ⊢
    cases h1 with
    | ub => exact .ub
    | fuel => exact .fuel
    | ok h2 hs => exact .ok (next_false h2.choose_spec) hs
    | error h2 hs => exact .ok (next_false h2.choose_spec) hs
    | @ignore c2 h3 hc2 =>
      obtain ⟨lk2, h3⟩ := h3
      have he2 : c2.hs.ps.err = false := by
        have : c2.plain.ps = c1.plain.ps := by rw [hc2]
        have : c2.hs.ps = c1.hs.ps := this
        rw [this]; exact he1
      dsimp only
      rw [← hc2]
      have h1 := varAssign_ok ht h3 he2
      generalize parseVarAssignH c2 = r at h1 ⊢
      generalize parseVarAssign c2.plain = p at h1 ⊢
      cases h1 with
      | ub => exact .ub
      | fuel => exact .fuel
      | ok h2 hs => exact .ok (next_false h2.choose_spec) hs
      | error h2 hs => exact .ok (next_false h2.choose_spec) hs
      | @ignore c3 h4 hc3 =>
        obtain ⟨lk3, h4⟩ := h4
        have he3 : c3.hs.ps.err = false := by
          have : c3.plain.ps = c2.plain.ps := by rw [hc3]
          have : c3.hs.ps = c2.hs.ps := this
          rw [this]; exact he2
        dsimp only
        rw [← hc3]
        exact exprStmt_ok ht h4 he3

end Skull.PHeap
