import Verif.Proofs.CProgText
/-!
Which functions of the run time the C back end notes: those that the expressions of the program need.
-/

namespace Skull
open Spec Spec.C

/-- Whatever the step starts with, `get` is then set if it was, or if `b`. -/
def Marks (get : CState → Bool) (m : CGen α) (b : Bool) : Prop := ∀ s a s', m s = some (a, s') → get s' = (get s || b)

namespace Marks
variable {get : CState → Bool}

theorem bind {m : CGen α} {f : α → CGen β} {b c : Bool} (hm : Marks get m b) (hf : ∀ a, Marks get (f a) c) : Marks get (m >>= f) (b || c) := by
  intro s b' s'' h
  have h : CGen.bind m f s = some (b', s'') := h
  unfold CGen.bind at h
  split at h
  · rename_i a s' hm'
    rw [hf a s' b' s'' h, hm s a s' hm', Bool.or_assoc]
  · cases h

theorem pure {a : α} : Marks get (Pure.pure a : CGen α) false := by
  intro s b s' hb
  cases hb
  simp

theorem ub {b : Bool} : Marks get (CGen.ub : CGen α) b := fun _ _ _ h => by cases h

theorem get' : Marks get (fun s => some (s, s) : CGen CState) false := by
  intro s b s' hb
  cases hb
  simp

theorem modify {f : CState → CState} (h : ∀ s, get (f s) = get s) : Marks get (CGen.modify f) false := by
  intro s b s' hb
  cases hb
  simp [h]

theorem option {o : Option α} : Marks get (CGen.ofOption o) false := by
  cases o with
  | none => exact ub
  | some a => exact pure

theorem null {o : Option (List Char)} : Marks get (notNull o) false := by
  cases o with
  | none => exact ub
  | some a => exact pure

/-- A step that notes nothing, before another. -/
theorem skip {m : CGen α} {f : α → CGen β} {c : Bool} (hm : Marks get m false) (hf : ∀ a, Marks get (f a) c) : Marks get (m >>= f) c := by
  have := hm.bind hf
  simpa using this

/-- A step that notes nothing, behind another. -/
theorem last {m : CGen α} {f : α → CGen β} {b : Bool} (hm : Marks get m b) (hf : ∀ a, Marks get (f a) false) : Marks get (m >>= f) b := by
  have := hm.bind hf
  simpa using this

theorem known {o : Option α} {a : α} (ho : o = some a) {f : α → CGen β} {c : Bool} (hf : Marks get (f a) c) : Marks get (CGen.ofOption o >>= f) c := by
  subst ho
  intro s b s' h
  exact hf s b s' h

end Marks

/-- `get` is one of the notes, and `p` says which operators it is for. -/
structure Note (p : Oper → Ty → Ty → Bool) (get : CState → Bool) : Prop where
  indent : ∀ s n, get { s with indent := n } = get s
  globals : ∀ s g, get { s with globals := g } = get s
  format : ∀ o l ty, Marks get (formatC o l ty) (p o l ty)

section
variable {p : Oper → Ty → Ty → Bool} {get : CState → Bool} {syms : List Symbol} {fmtA : Nat → List Char} {dbg : Option (List Char)}

mutual
theorem marks_expr (hn : Note p get) : ∀ {e : AExpr}, WtE syms e → Marks get (genExprC ⟨syms, dbg, fmtA⟩ e) (e.someBin p)
  | .const _ _, _ => by unfold genExprC AExpr.someBin; exact .pure
  | .ident _ _ _ _, _ => by unfold genExprC AExpr.someBin; exact .skip .option fun _ => .pure
  | .bin o l r ty _, h => by
    unfold genExprC AExpr.someBin
    have hl : WtE syms l := by cases h; assumption
    have hr : WtE syms r := by cases h; assumption
    rw [Bool.or_assoc]
    exact (hn.format _ _ _).bind fun _ => (marks_expr hn hl).bind fun _ => (marks_expr hn hr).last fun _ => .pure
  | .un o r _ _, h => by
    unfold genExprC AExpr.someBin
    have hr : WtE syms r := by cases h <;> assumption
    exact .skip .option fun _ => (marks_expr hn hr).last fun _ => .pure
  | .call t args id ty, h => by
    unfold genExprC AExpr.someBin
    cases h with
    | call h1 h2 h3 h4 =>
      refine .known (func_eq h1 h2) ?_
      show Marks get (genArgsC _ _ args >>= _) _
      rw [h3]
      exact (marks_args hn h4).last fun _ => .pure
theorem marks_args (hn : Note p get) : ∀ {a : AArgs} {tys : List Ty}, WtA syms tys a → Marks get (genArgsC ⟨syms, dbg, fmtA⟩ tys.length a) (a.someBin p)
  | .nil, _, h => by
    cases h
    exact .pure
  | .unchecked _, _, h => by
    cases h
    exact .pure
  | .cons _ e next, _, h => by
    cases h with
    | cons h1 h2 h3 =>
      unfold AArgs.someBin
      exact (marks_expr hn h1).bind fun _ => (marks_args hn h3).last fun _ => .pure
end


theorem marks_append (hn : Note p get) {t : List Char} : Marks get (appendGlobal t) false := .modify fun s => hn.globals s _

theorem marks_varDef (hn : Note p get) {id : Nat} {e : AExpr} (h : WtE syms e) : Marks get (varDefC ⟨syms, dbg, fmtA⟩ id e) (e.someBin p) := by
  have he := marks_expr (dbg := dbg) (fmtA := fmtA) hn h
  unfold varDefC
  refine .skip .option fun v => .skip .get' fun s => ?_
  split
  · unfold globalVarC
    split
    · refine Marks.last ?_ fun _ => .pure
      unfold constGlobalC
      refine he.last fun t => ?_
      split
      · split
        · exact marks_append hn
        · exact .ub
      · exact marks_append hn
    · have : Marks get (assignC ⟨syms, dbg, fmtA⟩ v.name e) (e.someBin p) := he.last fun _ => .pure
      split
      · exact .skip (marks_append hn) fun _ => this.last fun _ => .pure
      · exact .skip (marks_append hn) fun _ => this.last fun _ => .pure
  · refine Marks.last ?_ fun _ => .pure
    unfold stackVarC
    exact he.last fun _ => .pure

theorem marks_map {f : α → CGen β} (h : ∀ a, Marks get (f a) false) : ∀ l, Marks get (mapGen f l) false
  | [] => .pure
  | a :: as => .skip (h a) fun _ => .skip (marks_map h as) fun _ => .pure

theorem marks_debug {cfg : CCfg} {tok : List Token} {t : List Char} : Marks get (debugC cfg tok t) false := by
  unfold debugC
  split
  · split
    · exact .pure
    · exact .ub
  · exact .pure

theorem marks_func (hn : Note p get) {cfg : CCfg} {id : Nat} {params : List Nat} {tok : List Token} {body : CGen (Option (List Char))} {sym : Symbol} {f : Func} {b : Bool}
    (h1 : cfg.syms[id]? = some sym) (h2 : sym.kind = .func f) (hb : Marks get body b) :
    Marks get (functionDefC cfg id params tok body) (!f.isExternal && b) := by
  unfold functionDefC
  refine Marks.last ?_ fun _ => .modify fun s => hn.globals s _
  unfold prototypeC
  have e : cfg.func id = some (sym, f) := by simp [CCfg.func, h1, h2]
  refine .known e ?_
  have hp : Marks get (paramsC cfg f params) false := by
    unfold paramsC
    refine .skip (marks_map (fun a => ?_) _) fun _ => .pure
    unfold paramC
    exact .skip .option fun _ => .pure
  refine .skip hp fun ps => ?_
  show Marks get (if f.isExternal then _ else _) _
  cases hx : f.isExternal with
  | true =>
    rw [if_pos rfl]
    exact .pure
  | false =>
    rw [if_neg (by decide)]
    simp only [Bool.not_false, Bool.true_and]
    exact .skip .get' fun s => .skip (.modify fun s => hn.indent s _) fun _ => hb.last fun _ => .skip (.modify fun s => hn.indent s _) fun _ => .skip .null fun _ => marks_debug

theorem marks_block {cfg : CCfg} {word : List Char} {body : CGen (Option (List Char))} {b : Bool} (hb : Marks get body b) : Marks get (plainBlockC word body) b := by
  unfold plainBlockC
  exact hb.last fun _ => .skip .get' fun _ => .skip .null fun _ => .pure

theorem marks_control (hn : Note p get) {word : List Char} {e : AExpr} {body : CGen (Option (List Char))} {b : Bool} (he : WtE syms e) (hb : Marks get body b) :
    Marks get (controlC ⟨syms, dbg, fmtA⟩ word e body) (e.someBin p || b) := by
  unfold controlC
  exact (marks_expr hn he).bind fun _ => hb.last fun _ => .skip .get' fun _ => .skip .null fun _ => .pure

theorem marks_stmt (hn : Note p get) {loop : Bool} {before : List Stmt} {ann : Ann} {stmt : Stmt} {tok : List Token} {child next : ATree} {body : CGen (Option (List Char))}
    (h : WtNode syms loop before ann stmt child next) (hb : Marks get body (child.someBin p)) :
    Marks get (genStmtC ⟨syms, dbg, fmtA⟩ ann stmt tok body)
      (ann.value.any (·.someBin p) || (!isForeign stmt && child.someBin p)) := by
  unfold genStmtC
  unfold isForeign
  cases h with
  | alias => exact .pure
  | varDef h1 h2 h3 h4 h5 h6 h7 h8 h9 h10 => simpa [Ann.value, ATree.someBin] using marks_varDef hn h9
  | assign h1 h2 h3 h4 h5 h6 h7 =>
    have := marks_expr (dbg := dbg) (fmtA := fmtA) hn h7
    simp only [Ann.value, ATree.someBin, Option.any_some, Bool.or_false, Bool.and_false]
    refine .skip .option fun v => Marks.last ?_ fun _ => .pure
    exact this.last fun _ => .pure
  | ret => exact .pure
  | retValue h1 h2 =>
    simp only [Ann.value, ATree.someBin, Option.any_some, Bool.or_false, Bool.and_false]
    exact (marks_expr hn h2).last fun _ => .pure
  | call h1 h2 =>
    have : child.someBin p = false := by rcases h2 with rfl | ⟨t, rfl⟩ <;> rfl
    simp only [Ann.value, this, Option.any_some, Bool.or_false, Bool.and_false]
    exact (marks_expr hn h1).last fun _ => .pure
  | ifs h1 h2 h3 => exact (marks_control hn h1 hb).last fun _ => .pure
  | elifs h1 h2 h3 => exact (marks_control hn h1 hb).last fun _ => .pure
  | whiles h1 h2 h3 => exact (marks_control hn h1 hb).last fun _ => .pure
  | elses => exact (marks_block (cfg := ⟨syms, dbg, fmtA⟩) hb).last fun _ => .pure
  | breaks => exact .pure
  | continues => exact .pure
  | @func p' id sym f params _ _ h1 h2 h3 =>
    have := (marks_func (params := params) (cfg := ⟨syms, dbg, fmtA⟩) hn (tok := tok) h1 h2 hb).last fun _ => .pure (a := (none : Option (List Char)))
    rw [h3] at this
    exact this
  | ns h1 => exact .skip .option fun _ => (marks_block (cfg := ⟨syms, dbg, fmtA⟩) hb).last fun _ => .pure
  | unreachable => exact .pure
  | other h => rcases h with rfl | rfl | rfl | rfl <;> exact .pure

theorem marks_nodes (hn : Note p get) : ∀ {t : ATree} {loop : Bool} {before : List Stmt}, WtTree syms loop before t → ∀ acc,
    Marks get (genNodesC ⟨syms, dbg, fmtA⟩ acc t) (t.someBin p)
  | .nil, _, _, _, _ => by unfold genNodesC; exact .pure
  | .unchecked _, _, _, _, _ => by unfold genNodesC; exact .ub
  | .node ann stmt tok child next, _, _, h, acc => by
    cases h with
    | node h1 h2 h3 =>
      unfold genNodesC ATree.someBin
      refine Marks.bind (marks_stmt hn h1 ?_) fun t => .skip ?_ fun t => marks_nodes hn h3 _
      · exact .skip (.modify fun s => hn.indent s _) fun _ => (marks_nodes hn h2 none).last fun _ => .skip (.modify fun s => hn.indent s _) fun _ => .pure
      · unfold indentC
        split
        · exact .pure
        · exact .skip .get' fun s => .skip marks_debug fun _ => .pure

theorem marks_module (hn : Note p get) {a : ATree} {tree : Option (List Char)} {s : CState} (h : WtTree syms false [] a)
    (hg : genModuleC ⟨syms, dbg, fmtA⟩ a = some (tree, s)) (h0 : get {} = false) : get s = a.someBin p := by
  have : Marks get (do
      CGen.modify fun s => { s with indent := s.indent + 1 }
      let t ← genNodesC ⟨syms, dbg, fmtA⟩ none a
      CGen.modify fun s => { s with indent := s.indent - 1 }
      pure t : CGen (Option (List Char))) (a.someBin p) :=
    .skip (.modify fun s => hn.indent s _) fun _ => (marks_nodes hn h none).last fun _ => .skip (.modify fun s => hn.indent s _) fun _ => .pure
  have := this _ _ _ hg
  rw [h0] at this
  simpa using this

theorem marks_set {f : CState → CState} (h : ∀ s, get (f s) = true) : Marks get (CGen.modify f) true := by
  intro s b s' hb
  cases hb
  simp [h]

theorem note_str : Note comparesStr (·.calledStrcmp) := by
  refine ⟨fun _ _ => rfl, fun _ _ => rfl, fun o l ty => ?_⟩
  unfold formatC
  cases o
  case is | isnt =>
    by_cases h : l = .prim .str
    · simp only [comparesStr, h, if_true]
      exact (marks_set fun _ => rfl).last fun _ => .pure
    · simp only [comparesStr, h, if_false, decide_false, Bool.and_false]
      exact .pure
  case pow =>
    simp only [comparesStr]
    split
    · exact .skip (.modify fun _ => rfl) fun _ => .pure
    · split
      · exact .skip (.modify fun _ => rfl) fun _ => .pure
      · exact .ub
  all_goals first | exact .pure | exact .ub

theorem note_int : Note powsInt (·.calledIntPow) := by
  refine ⟨fun _ _ => rfl, fun _ _ => rfl, fun o l ty => ?_⟩
  unfold formatC
  cases o
  case is | isnt =>
    simp only [powsInt]
    split
    · exact .skip (.modify fun _ => rfl) fun _ => .pure
    · exact .pure
  case pow =>
    by_cases h : ty = .prim .int
    · simp only [powsInt, h, if_true]
      exact (marks_set fun _ => rfl).last fun _ => .pure
    · simp only [powsInt, h, if_false, decide_false, Bool.and_false]
      split
      · exact .skip (.modify fun _ => rfl) fun _ => .pure
      · exact .ub
  all_goals first | exact .pure | exact .ub

theorem note_float : Note powsFloat (·.calledFloatPow) := by
  refine ⟨fun _ _ => rfl, fun _ _ => rfl, fun o l ty => ?_⟩
  unfold formatC
  cases o
  case is | isnt =>
    simp only [powsFloat]
    split
    · exact .skip (.modify fun _ => rfl) fun _ => .pure
    · exact .pure
  case pow =>
    by_cases h : ty = .prim .float
    · simp only [powsFloat, h, if_true]
      exact (marks_set fun _ => rfl).last fun _ => .pure
    · simp only [powsFloat, h, if_false, decide_false, Bool.and_false]
      split
      · exact .skip (.modify fun _ => rfl) fun _ => .pure
      · exact .ub
  all_goals first | exact .pure | exact .ub

end
end Skull
