import Verif.Proofs.ParseHeapExpr
/-
Single statements of the parser with its memory.
-/
namespace Skull.PHeap

open Skull.Spec

def HParam.cnt (p : HParam) : Count := fun x => one (.mem p.b) x + one (.mem p.name) x

def paramsCnt : List HParam → Count
  | [] => fun _ => 0
  | p :: ps => fun x => p.cnt x + paramsCnt ps x

def optCnt : Option Nat → Count
  | none => fun _ => 0
  | some b => one (.mem b)

def HVec.cnt (v : HVec) : Count := fun x => one (.mem v.b) x + optCnt v.elements x + paramsCnt v.items x

def HStmt.cnt : HStmt → Count
  | .bare _ => fun _ => 0
  | .varDef b _ _ _ _ e => fun x => optCnt b x + e.cnt x
  | .varAssign b e => fun x => optCnt b x + e.cnt x
  | .funcProto b ps _ => fun x => one (.mem b) x + paramsCnt ps x
  | .expr e | .ret e | .ifs e | .elifs e | .whiles e => e.cnt

/-- The tokens are there, and nothing hangs on a definition that is null. -/
def HStmt.Within (n : Nat) : HStmt → Prop
  | .bare _ => True
  | .varDef b _ _ _ _ e => e.Within n ∧ (b = none → e = .missing)
  | .varAssign b e => e.Within n ∧ (b = none → e = .missing)
  | .funcProto _ _ _ => True
  | .expr e | .ret e | .ifs e | .elifs e | .whiles e => e.Within n

def HTree.cnt : HTree → Count
  | .nil => fun _ => 0
  | .node b st _ _ ch nx => fun x => one (.mem b) x + st.cnt x + ch.cnt x + nx.cnt x

def HTree.Within (n : Nat) : HTree → Prop
  | .nil => True
  | .node _ st _ _ ch nx => st.Within n ∧ ch.Within n ∧ nx.Within n

theorem runs_params : ∀ (ps : List HParam) (c : Count), Runs (ps.flatMap HParam.free) (fun x => paramsCnt ps x + c x) c
  | [], c => (Runs.nil c).cast (fun x => by simp [paramsCnt]) fun _ => rfl
  | p :: ps, c => by
    rw [List.flatMap_cons]
    refine Runs.use ?_ ((Runs.free (Runs.free (runs_params ps c))).cast (fun x => ?_) fun _ => rfl)
    · simp only [paramsCnt, HParam.cnt, one_self]; omega
    · simp only [paramsCnt, HParam.cnt]; omega

theorem paramsCnt_append (ps qs : List HParam) (x : Block) : paramsCnt (ps ++ qs) x = paramsCnt ps x + paramsCnt qs x := by
  induction ps with
  | nil => simp [paramsCnt]
  | cons p ps ih => simp only [List.cons_append, paramsCnt, ih]; omega

theorem paramsCnt_reverse (ps : List HParam) (x : Block) : paramsCnt ps.reverse x = paramsCnt ps x := by
  induction ps with
  | nil => rfl
  | cons p ps ih => rw [List.reverse_cons, paramsCnt_append, ih]; simp only [paramsCnt]; omega

theorem runs_elements (v : HVec) (c : Count) : Runs v.freeElements (fun x => optCnt v.elements x + c x) c := by
  unfold HVec.freeElements
  cases v.elements with
  | none => exact (Runs.nil c).cast (fun x => by simp [optCnt]) fun _ => rfl
  | some b => exact Runs.free (Runs.nil c)

theorem runs_freeAll (v : HVec) (c : Count) : Runs v.freeAll (fun x => v.cnt x + c x) c := by
  unfold HVec.freeAll
  rw [List.append_assoc]
  have h1 := runs_params v.items.reverse (fun x => one (.mem v.b) x + (optCnt v.elements x + c x))
  have h2 := runs_elements v (fun x => one (.mem v.b) x + c x)
  refine Runs.use ?_ (Runs.append (h1.cast (fun x => ?_) fun _ => rfl) (Runs.append (h2.cast (fun x => ?_) fun _ => rfl) (Runs.use ?_ (Runs.free (Runs.nil c)))))
  · simp only [HVec.cnt, one_self]; omega
  · rw [paramsCnt_reverse]; simp only [HVec.cnt]; omega
  · omega
  · simp only [one_self]; omega

theorem runs_freeSet {n : Nat} (b : Option Nat) (e : HExpr) (c : Count) (hw : e.Within n) (hm : b = none → e = .missing) (ht : Toks n c) :
    Runs (freeSet b e) (fun x => optCnt b x + e.cnt x + c x) c := by
  unfold freeSet
  cases b with
  | none =>
    rw [hm rfl]
    exact (Runs.nil c).cast (fun x => by simp [optCnt, HExpr.cnt]) fun _ => rfl
  | some b =>
    have h1 := e.runs_free (fun x => one (.mem b) x + c x) hw (ht.add _)
    refine Runs.use ?_ (Runs.append (h1.cast (fun x => ?_) fun _ => rfl) (Runs.free (Runs.nil c)))
    · simp only [optCnt, one_self]; omega
    · simp only [optCnt]; omega

theorem HStmt.runs_free {n : Nat} (st : HStmt) (c : Count) (hw : st.Within n) (ht : Toks n c) :
    Runs st.free (fun x => st.cnt x + c x) c := by
  cases st with
  | bare => exact (Runs.nil c).cast (fun x => by simp [HStmt.cnt]) fun _ => rfl
  | varDef b _ _ _ _ e => exact runs_freeSet b e c hw.1 hw.2 ht
  | varAssign b e => exact runs_freeSet b e c hw.1 hw.2 ht
  | funcProto b ps _ =>
    have h1 := runs_params ps (fun x => one (.mem b) x + c x)
    refine Runs.use ?_ (Runs.append (h1.cast (fun x => ?_) fun _ => rfl) (Runs.free (Runs.nil c)))
    · simp only [HStmt.cnt, one_self]; omega
    · simp only [HStmt.cnt]; omega
  | expr e => exact e.runs_free c hw ht
  | ret e => exact e.runs_free c hw ht
  | ifs e => exact e.runs_free c hw ht
  | elifs e => exact e.runs_free c hw ht
  | whiles e => exact e.runs_free c hw ht

theorem HTree.runs_free {n : Nat} : ∀ (t : HTree) (c : Count), t.Within n → Toks n c → Runs t.free (fun x => t.cnt x + c x) c
  | .nil, c, _, _ => (Runs.nil c).cast (fun x => by simp [HTree.cnt]) fun _ => rfl
  | .node b st _ _ ch nx, c, hw, ht => by
    have h1 := st.runs_free (fun x => one (.mem b) x + (ch.cnt x + (nx.cnt x + c x))) hw.1 (ht.mono fun x => by omega)
    have h2 := ch.runs_free (fun x => one (.mem b) x + (nx.cnt x + c x)) hw.2.1 (ht.mono fun x => by omega)
    have h3 := nx.runs_free c hw.2.2 ht
    show Runs (_ :: (st.free ++ _ :: ch.free ++ _)) _ _
    rw [List.append_assoc]
    refine Runs.use ?_ (Runs.append (h1.cast (fun x => ?_) fun _ => rfl) (Runs.use ?_ (Runs.append (h2.cast (fun x => ?_) fun _ => rfl) (Runs.use ?_ (Runs.free h3)))))
    · simp only [HTree.cnt, one_self]; omega
    · simp only [HTree.cnt]; omega
    · simp only [one_self]; omega
    · omega
    · simp only [one_self]; omega

def HNode.cnt (n : HNode) : Count := fun x => one (.mem n.b) x + n.stmt.cnt x + n.child.cnt x

def nodesCnt : List HNode → Count
  | [] => fun _ => 0
  | n :: ns => fun x => n.cnt x + nodesCnt ns x

def HCtx.cnt (c : HCtx) : Count := fun x => nodesCnt c.done x + one (.mem c.node) x + c.headChild.cnt x

def HNode.plain (n : HNode) : Node := ⟨n.stmt.plain, n.tok, n.tokEnd, n.child.plain⟩

/-- The context without the blocks. -/
def HCtx.plain (c : HCtx) : PCtx := { ps := c.hs.ps, done := c.done.map HNode.plain, headChild := c.headChild.plain }

/-- Between blocks. -/
def Sep (t : Token) : Prop := t.ty = .newline ∨ t.ty = .comma

/-- The tokens of `all` before `toks` end in a closing bracket, newlines and commas. -/
def AfterBlock (all toks : List Token) : Prop :=
  ∃ pre cl sep, all = pre ++ cl :: (sep ++ toks) ∧ cl.ty = .bracketClose ∧ ∀ t ∈ sep, Sep t

/-- The cases in which the parser loses memory though there is no error: two blocks one after the other, and too many parameters. -/
structure Tidy (all : List Token) : Prop where
  blocks : ∀ toks, AfterBlock all toks → ∀ t ∈ toks.head?, t.ty ≠ .bracketOpen
  short : all.length < 65536

/-- What holds of a context; `F` are blocks of others, and `lk` those that were lost. -/
structure Inv (all : List Token) (F lk : Count) (c : HCtx) : Prop where
  suf : c.hs.ps.toks <:+ all
  own : Holds c.hs (fun x => c.cnt x + (lk x + F x))
  nodes : ∀ n ∈ c.done, n.stmt.Within all.length ∧ n.child.Within all.length
  head : c.headChild.Within all.length
  shape : c.done = [] ∨ c.headChild = .nil
  lost : c.hs.ps.err = false → Tidy all → ∀ x, lk x = 0
  after : c.hs.ps.err = false → c.headChild ≠ .nil → AfterBlock all c.hs.ps.toks

/-- Both contexts are the same, unless there was an error; then they have the same tokens and diagnostics. -/
structure Same (c : HCtx) (c' : PCtx) : Prop where
  ps : c.hs.ps = c'.ps
  all : c'.ps.err = false → c.plain = c'

inductive BothP (R : HCtx → Prop) (p : PCtx) : HPRes → PRes → Prop
  | ok {c c'} : R c → Same c c' → BothP R p (.ok c) (.ok c')
  | error {c c'} : R c → Same c c' → BothP R p (.error c) (.error c')
  | ignore {c} : R c → c.plain = p → BothP R p (.ignore c) .ignore
  | ub : BothP R p .ub .ub
  | fuel : BothP R p .fuel .fuel

inductive BothN (R : Bool → HCtx → Prop) : HNRes → NRes → Prop
  | ok {d c c'} : R d c → Same c c' → BothN R (.ok d c) (.ok d c')
  | ub : BothN R .ub .ub
  | fuel : BothN R .fuel .fuel

theorem same_plain (c : HCtx) : Same c c.plain := ⟨rfl, fun _ => rfl⟩

theorem same_err {c : HCtx} {c' : PCtx} (h : c.hs.ps = c'.ps) (he : c'.ps.err = true) : Same c c' := ⟨h, fun h => by rw [he] at h; cases h⟩

variable {all : List Token} {F : Count}

/-- A new node that owns nothing yet. -/
theorem Inv.push {lk c} (h : Inv all F lk c) {st : HStmt} (h0 : ∀ x, st.cnt x = 0) (hw : st.Within all.length) (tok te) :
    Inv all F lk (c.push st tok te) := by
  refine ⟨h.suf, ?_, ?_, trivial, Or.inr rfl, h.lost, fun _ hn => absurd rfl hn⟩
  · have h1 := h.own.alloc
    have h2 := h1.log (es := [.use (.mem c.node)]) (Runs.use (by simp only [HCtx.cnt, one_self]; omega) (Runs.nil _))
    refine h2.cast fun x => ?_
    simp only [HCtx.cnt, HCtx.push, nodesCnt, HNode.cnt, HTree.cnt, h0]
    omega
  · intro n hn
    rcases List.mem_cons.1 hn with rfl | hn
    · exact ⟨hw, h.head⟩
    · exact h.nodes n hn

/-- Another state of the memory. -/
theorem Inv.setHs {lk lk' c h'} (h : Inv all F lk c) (hn : c.headChild = .nil) (hs : h'.ps.toks <:+ all)
    (ho : Holds h' (fun x => c.cnt x + (lk' x + F x))) (hl : h'.ps.err = false → Tidy all → ∀ x, lk' x = 0) :
    Inv all F lk' { c with hs := h' } :=
  ⟨hs, ho, h.nodes, h.head, h.shape, hl, fun _ hn' => absurd hn hn'⟩

/-- An error. -/
theorem Inv.setErr {lk lk' c h'} (h : Inv all F lk c) (he : h'.ps.err = true) (hs : h'.ps.toks <:+ all)
    (ho : Holds h' (fun x => c.cnt x + (lk' x + F x))) : Inv all F lk' { c with hs := h' } :=
  ⟨hs, ho, h.nodes, h.head, h.shape, (fun h => by rw [he] at h; cases h), (fun h => by rw [he] at h; cases h)⟩

theorem Inv.fail {lk c} (h : Inv all F lk c) (code t) : Inv all F lk { c with hs := c.hs.fail code t } :=
  h.setErr rfl h.suf h.own

/-- The node that was pushed last gets its data. -/
theorem Inv.setStmt {lk lk' n ns c h'} (h : Inv all F lk c) (hd : c.done = n :: ns) {st : HStmt} (hw : st.Within all.length)
    (hs : h'.ps.toks <:+ all) (h0 : ∀ x, n.stmt.cnt x = 0)
    (ho : Holds h' (fun x => st.cnt x + (c.cnt x + (lk' x + F x)))) (hl : h'.ps.err = false → Tidy all → ∀ x, lk' x = 0) :
    Inv all F lk' ({ c with hs := h' }.setStmt st) := by
  have hn : c.headChild = .nil := by
    rcases h.shape with h | h
    · rw [hd] at h; cases h
    · exact h
  obtain ⟨hs0, done, node, hc⟩ := c
  dsimp only at hd hn
  subst hd hn
  refine ⟨hs, ?_, ?_, trivial, Or.inr rfl, hl, fun _ hn' => absurd rfl hn'⟩
  · have h2 := ho.log (es := [.use (.mem n.b)]) (Runs.use (by simp only [HCtx.cnt, nodesCnt, HNode.cnt, one_self]; omega) (Runs.nil _))
    refine h2.cast fun x => ?_
    simp only [HCtx.cnt, HCtx.setStmt, nodesCnt, HNode.cnt, HTree.cnt, h0]
    omega
  · intro m hm
    rcases List.mem_cons.1 hm with rfl | hm
    · exact ⟨hw, (h.nodes n (List.mem_cons_self)).2⟩
    · exact h.nodes m (List.mem_cons_of_mem _ hm)

/-! Parameters. -/

theorem HVec.push_ok {v : HVec} {p : HParam} {h : HS} {c : Count} (hh : Holds h (fun x => p.cnt x + (v.cnt x + c x))) :
    ∃ v' h', v.push p h = (v', h') ∧ Holds h' (fun x => v'.cnt x + c x) ∧ v'.items = p :: v.items ∧ h'.ps = h.ps := by
  unfold HVec.push
  cases hv : v.elements with
  | none =>
    refine ⟨_, _, rfl, hh.alloc.cast fun x => ?_, rfl, rfl⟩
    simp only [HVec.cnt, hv, optCnt, paramsCnt]; omega
  | some el =>
    dsimp only
    split
    · have h1 : Holds (h.log [.free (.mem el)]) (fun x => p.cnt x + (one (.mem v.b) x + paramsCnt v.items x + c x)) :=
        (hh.cast (c' := fun x => one (.mem el) x + (p.cnt x + (one (.mem v.b) x + paramsCnt v.items x + c x))) fun x => by
          simp only [HVec.cnt, hv, optCnt]; omega).log (Runs.free (Runs.nil _))
      refine ⟨_, _, rfl, h1.alloc.cast fun x => ?_, rfl, rfl⟩
      simp only [HVec.cnt, optCnt, paramsCnt, HS.log]; omega
    · refine ⟨_, _, rfl, (hh.use ?_).cast fun x => ?_, rfl, rfl⟩
      · simp only [HVec.cnt, hv, optCnt, one_self]; omega
      · simp only [HVec.cnt, hv, paramsCnt]; omega

theorem explicit_suffix {toks rest : List Token} (h : isExplicitType toks = some rest) : rest <:+ toks := by
  have hp : ∀ l r : List Token, isPotentialType l = some r → r <:+ l := by
    intro l
    induction l with
    | nil => intro r h; cases h
    | cons t l ih =>
      intro r h
      unfold isPotentialType at h
      split at h
      · cases h; exact List.suffix_refl _
      · split at h
        · exact (ih r h).trans (List.suffix_cons _ _)
        · cases h
  unfold isExplicitType at h
  split at h
  · split at h
    · cases h
    · cases hq : isPotentialType _ with
      | none => rw [hq] at h; cases h
      | some r =>
        rw [hq] at h
        cases h
        exact (List.tail_suffix r).trans ((hp _ _ hq).trans (List.suffix_cons _ _))
  · cases h

theorem potential_suffix : ∀ {l r : List Token}, isPotentialType l = some r → r <:+ l := by
  intro l
  induction l with
  | nil => intro r h; cases h
  | cons t l ih =>
    intro r h
    unfold isPotentialType at h
    split at h
    · cases h; exact List.suffix_refl _
    · split at h
      · exact (ih h).trans (List.suffix_cons _ _)
      · cases h

theorem explicit_shorter {toks rest : List Token} (h : isExplicitType toks = some rest) : rest.length < toks.length := by
  unfold isExplicitType at h
  split at h
  · split at h
    · cases h
    · cases hq : isPotentialType _ with
      | none => rw [hq] at h; cases h
      | some r =>
        rw [hq] at h
        cases h
        have := (potential_suffix hq).length_le
        simp only [List.length_tail, List.length_cons] at this ⊢
        omega
  · cases h

/-- The parameters: as without memory, all the vector has is there, and there are not more than tokens. -/
theorem parseParamsH_ok {c : Count} : ∀ (f : Nat) (toks : List Token) (v : HVec) (h : HS), Holds h (fun x => v.cnt x + c x) →
    match parseParamsH f toks v h, parseParams f toks (v.items.map HParam.param) with
    | some (v', toks', h'), some (ps, toks'') =>
      ps = v'.items.map HParam.param ∧ toks'' = toks' ∧ h'.ps = h.ps ∧ toks' <:+ toks ∧ Holds h' (fun x => v'.cnt x + c x) ∧
        v'.items.length + toks'.length ≤ v.items.length + toks.length
    | none, none => True
    | _, _ => False
  | 0, _, _, _, _ => by simp [parseParamsH, parseParams]
  | f + 1, toks, v, h, hh => by
    unfold parseParamsH parseParams
    cases he : isExplicitType toks with
    | none => exact ⟨rfl, rfl, rfl, List.suffix_refl _, hh, Nat.le_refl _⟩
    | some rest =>
      have hs := explicit_suffix he
      have hl := explicit_shorter he
      cases rest with
      | nil => exact ⟨rfl, rfl, rfl, List.nil_suffix, hh, by simp⟩
      | cons last rest =>
        cases toks with
        | nil => cases he
        | cons name type =>
          have h1 := hh.alloc.alloc.log (es := [.use (.mem h.next)]) (Runs.use (by simp only [one_self]; omega) (Runs.nil _))
          have h2 := HVec.push_ok (v := v) (p := ⟨h.next, h.next + 1, ⟨name, type⟩⟩) (c := c)
            (h := h.alloc.alloc.log [.use (.mem h.next)]) (h1.cast fun x => by
              show one (.mem (h.next + 1)) x + (one (.mem h.next) x + _) = one (.mem h.next) x + one (.mem (h.next + 1)) x + _
              omega)
          obtain ⟨v', h', e1, e2, e3, e4⟩ := h2
          dsimp only
          rw [e1]
          dsimp only
          have e5 : (⟨name, type⟩ : Param) :: v.items.map HParam.param = v'.items.map HParam.param := by rw [e3]; rfl
          have e6 : v'.items.length = v.items.length + 1 := by rw [e3]; rfl
          rw [e5]
          by_cases h3 : last.ty ≠ .comma
          · rw [if_pos h3, if_pos h3]
            exact ⟨rfl, rfl, e4, hs, e2, by simp only [List.length_cons] at hl ⊢; omega⟩
          · rw [if_neg h3, if_neg h3]
            have ih := parseParamsH_ok f rest v' h' e2
            generalize parseParamsH f rest v' h' = r at ih ⊢
            generalize parseParams f rest (v'.items.map HParam.param) = p at ih ⊢
            rcases r with _ | ⟨v2, t2, h2⟩ <;> rcases p with _ | ⟨ps, t3⟩ <;> try exact ih
            obtain ⟨i1, i2, i3, i4, i5, i6⟩ := ih
            refine ⟨i1, i2, i3.trans e4, i4.trans ((List.suffix_cons _ _).trans hs), i5, ?_⟩
            simp only [List.length_cons] at hl ⊢
            omega

end Skull.PHeap
