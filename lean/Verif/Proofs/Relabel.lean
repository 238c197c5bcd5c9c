import Verif.Spec.Relabel
/-
The parser looks at nothing but the kinds of tokens.
-/
namespace Skull.Relab
open Spec

variable {e : Token → Token}

def mapP (g : α → α) (e : Token → Token) : P α → P α
  | .ok a s => .ok (g a) (relabelPS e s)
  | .ub => .ub
  | .fuel => .fuel

theorem mapP_ok (g : α → α) (a : α) (s : PS) : mapP g e (.ok a s) = .ok (g a) (relabelPS e s) := rfl

theorem fail_eq (s : PS) (code : Code) (t : Option Token) : (relabelPS e s).fail code (t.map e) = relabelPS e (s.fail code t) := rfl

theorem fail_some (s : PS) (code : Code) (t : Token) : (relabelPS e s).fail code (some (e t)) = relabelPS e (s.fail code (some t)) := rfl

theorem oper_eq (x : Expr) : (relabelE e x).oper = x.oper := by cases x <;> simp only [relabelE, Expr.oper]

theorem attach_eq (x : Expr) (o : Oper) (y : Expr) : attach (relabelE e x) o (relabelE e y) = relabelE e (attach x o y) := by
  unfold attach
  rw [oper_eq]
  split
  · cases x <;> simp only [relabelE]
  · simp only [relabelE]

theorem snoc_eq (t : Token) (x : Expr) : ∀ as : Args, (relabelA e as).snoc (e t) (relabelE e x) = relabelA e (as.snoc t x)
  | .nil => by simp only [relabelA, Args.snoc]
  | .cons t' x' n => by simp only [relabelA, Args.snoc, snoc_eq t x n]

theorem head_ty (he : KeepsKind e) (l : List Token) : (l.map e).head?.map (·.ty) = l.head?.map (·.ty) := by
  cases l with
  | nil => rfl
  | cons t l => simp [he t]

theorem ident_eq (he : KeepsKind e) (t : Token) : isIdentLike (e t) = isIdentLike t := by unfold isIdentLike; rw [he]

/-- All functions for expressions. -/
structure Nat5 (e : Token → Token) (f : Nat) : Prop where
  expr : ∀ s, parseExpression f (relabelPS e s) = mapP (Option.map (relabelE e)) e (parseExpression f s)
  rhs : ∀ x s, parseRhsLoop f (relabelE e x) (relabelPS e s) = mapP (Option.map (relabelE e)) e (parseRhsLoop f x s)
  single : ∀ s, parseSingle f (relabelPS e s) = mapP (Option.map (relabelE e)) e (parseSingle f s)
  root : ∀ s, parseRoot f (relabelPS e s) = mapP (Option.map (relabelE e)) e (parseRoot f s)
  args : ∀ t as n s, parseArgs f (e t) (relabelA e as) n (relabelPS e s) = mapP (Option.map (relabelE e)) e (parseArgs f t as n s)

theorem toks_eq (s : PS) : (relabelPS e s).toks = s.toks.map e := rfl
theorem err_eq (s : PS) : (relabelPS e s).err = s.err := rfl
theorem with_toks (s : PS) (l : List Token) : { relabelPS e s with toks := l.map e } = relabelPS e { s with toks := l } := rfl

theorem nat5 (he : KeepsKind e) : ∀ f, Nat5 e f
  | 0 => ⟨fun _ => rfl, fun _ _ => rfl, fun _ => rfl, fun _ => rfl, fun _ _ _ _ => rfl⟩
  | f + 1 => by
    have ih := nat5 he f
    refine ⟨fun s => ?_, fun x s => ?_, fun s => ?_, fun s => ?_, fun t as n s => ?_⟩
    · unfold parseExpression
      rw [toks_eq]
      cases s.toks with
      | nil => rfl
      | cons t rest =>
        simp only [List.map_cons]
        rw [ih.single]
        cases parseSingle f s with
        | ub => rfl
        | fuel => rfl
        | ok h s1 =>
          simp only [mapP_ok]
          by_cases hh : s1.err = true
          · rw [if_pos (c := (relabelPS e s1).err = true) hh, if_pos hh]; rfl
          · rw [if_neg (c := (relabelPS e s1).err = true) hh, if_neg hh]
            cases h with
            | none => rfl
            | some h => exact ih.rhs h s1
    · unfold parseRhsLoop
      rw [toks_eq]
      cases s.toks with
      | nil => rfl
      | cons t rest =>
        simp only [List.map_cons, he t]
        split
        · rfl
        · split
          · rfl
          · rw [with_toks, ih.single]
            cases parseSingle f { s with toks := rest } with
            | ub => rfl
            | fuel => rfl
            | ok h s1 =>
              cases h with
              | none => rfl
              | some h =>
                simp only [mapP_ok, Option.map_some]
                by_cases hh : s1.err = true
                · rw [if_pos (c := (relabelPS e s1).err = true) hh, if_pos hh]; rfl
                · rw [if_neg (c := (relabelPS e s1).err = true) hh, if_neg hh, attach_eq]; exact ih.rhs _ _
    · unfold parseSingle
      rw [toks_eq]
      cases s.toks with
      | nil => rfl
      | cons t rest =>
        simp only [List.map_cons, he t]
        split
        · exact ih.root s
        · cases rest with
          | nil => rfl
          | cons t2 rest =>
            simp only [List.map_cons, he t2]
            split
            · rfl
            · rw [show ({ relabelPS e s with toks := e t2 :: rest.map e } : PS) = relabelPS e { s with toks := t2 :: rest } from rfl, ih.root]
              cases parseRoot f { s with toks := t2 :: rest } with
              | ub => rfl
              | fuel => rfl
              | ok h s1 => cases h <;> simp [mapP_ok, relabelE]
    · unfold parseRoot
      rw [toks_eq]
      cases s.toks with
      | nil => rfl
      | cons t rest =>
        simp only [List.map_cons, he t, ident_eq he, head_ty he]
        split
        · rw [with_toks, ih.expr]
          cases parseExpression f { s with toks := rest } with
          | ub => rfl
          | fuel => rfl
          | ok h s1 =>
            cases h with
            | none => rfl
            | some h =>
              simp only [mapP_ok, Option.map_some, toks_eq]
              cases s1.toks with
              | nil => rfl
              | cons c r =>
                simp only [List.map_cons, he c]
                split <;> rfl
        · split
          · rw [← List.map_tail, with_toks]
            exact ih.args t .nil 0 _ |> fun h => by simpa only [relabelA] using h
          · split
            · split <;> simp only [mapP_ok, Option.map_some, relabelE] <;> rfl
            · rfl
    · unfold parseArgs
      rw [toks_eq]
      cases s.toks with
      | nil => rfl
      | cons last rest =>
        simp only [List.map_cons, he last]
        split
        · rfl
        · rw [ih.expr]
          cases parseExpression f s with
          | ub => rfl
          | fuel => rfl
          | ok h s1 =>
            simp only [mapP_ok, toks_eq]
            cases s1.toks with
            | nil => cases h <;> rfl
            | cons c r =>
              simp only [List.map_cons, he c]
              split
              · cases h <;> rfl
              · split
                · cases h with
                  | none => simp only [Option.map_none, Option.map_some, mapP_ok, relabelE]; rfl
                  | some h => simp only [Option.map_some, snoc_eq, mapP_ok, relabelE]; rfl
                · split
                  · cases h <;> rfl
                  · cases h with
                    | none => exact ih.args _ _ _ { s1 with toks := r }
                    | some h => simp only [Option.map_some, snoc_eq]; exact ih.args _ _ _ { s1 with toks := r }

theorem expr_eq (he : KeepsKind e) (s : PS) : parseExpr (relabelPS e s) = mapP (Option.map (relabelE e)) e (parseExpr s) := by
  unfold parseExpr
  rw [show exprFuel (relabelPS e s).toks = exprFuel s.toks by simp [exprFuel, toks_eq]]
  exact (nat5 he _).expr s

/- ### Statements -/

theorem potential_eq (he : KeepsKind e) : ∀ l : List Token, isPotentialType (l.map e) = (isPotentialType l).map (List.map e)
  | [] => rfl
  | t :: rest => by
    simp only [List.map_cons, isPotentialType, ident_eq he, he t]
    split
    · rfl
    · split
      · exact potential_eq he rest
      · rfl

theorem explicit_eq (he : KeepsKind e) : ∀ l : List Token, isExplicitType (l.map e) = (isExplicitType l).map (List.map e)
  | [] => rfl
  | [_] => rfl
  | t :: t2 :: rest => by
    have := potential_eq he (t2 :: rest)
    simp only [List.map_cons, isExplicitType, he t] at this ⊢
    split
    · rfl
    · rw [this]
      cases isPotentialType (t2 :: rest) <;> simp

theorem params_eq (he : KeepsKind e) : ∀ (f : Nat) (l : List Token) (acc : List Param), parseParams f (l.map e) (acc.map (relabelParam e)) =
    (parseParams f l acc).map (fun r => (r.1.map (relabelParam e), r.2.map e))
  | 0, _, _ => rfl
  | f + 1, l, acc => by
    unfold parseParams
    rw [explicit_eq he]
    cases hx : isExplicitType l with
    | none => rfl
    | some m =>
      cases m with
      | nil => rfl
      | cons last rest =>
        cases l with
        | nil => rfl
        | cons name type =>
          simp only [Option.map_some, List.map_cons, he last]
          split
          · rfl
          · exact params_eq he f rest (⟨name, type⟩ :: acc)

def mapNode (e : Token → Token) (n : Node) : Node := ⟨relabelS e n.stmt, n.tok.map e, n.tokEnd.map e, relabel e n.child⟩

def mapCtx (e : Token → Token) (c : PCtx) : PCtx := ⟨relabelPS e c.ps, c.done.map (mapNode e), relabel e c.headChild⟩

def mapPRes (e : Token → Token) : PRes → PRes
  | .ok c => .ok (mapCtx e c)
  | .ignore => .ignore
  | .error c => .error (mapCtx e c)
  | .ub => .ub
  | .fuel => .fuel

def mapNRes (e : Token → Token) : NRes → NRes
  | .ok b c => .ok b (mapCtx e c)
  | .ub => .ub
  | .fuel => .fuel

theorem push_eq (c : PCtx) (st : Stmt) (a b : List Token) : (mapCtx e c).push (relabelS e st) (a.map e) (b.map e) = mapCtx e (c.push st a b) := by
  simp only [PCtx.push, mapCtx, List.map_cons, mapNode, relabel]

theorem ctx_toks (c : PCtx) : (mapCtx e c).ps.toks = c.ps.toks.map e := rfl

theorem cmp_eq (he : KeepsKind e) (l : List Token) (a b : TokType) : tokenCmp2 (l.map e) a b = tokenCmp2 l a b := by
  cases l with
  | nil => rfl
  | cons t l => simp only [List.map_cons, tokenCmp2, he t, head_ty he]

theorem pushProto_eq (c : PCtx) (first name after : List Token) (ps : List Param) (ret : Option (List Token)) (x y : Bool) :
    pushProto (mapCtx e c) (first.map e) (name.map e) (after.map e) (ps.map (relabelParam e)) (ret.map (List.map e)) x y =
      mapPRes e (pushProto c first name after ps ret x y) := by
  cases name with
  | nil => rfl
  | cons n name =>
    simp only [pushProto, List.map_cons, mapPRes]
    congr 1
    have := push_eq (e := e) c (.funcProto ⟨n, ret, x, y, ps.take (ps.length % 65536), ps.length % 65536⟩) first after
    simp only [relabelS, relabelProto] at this
    simp only [List.length_map, ← List.map_take, this, ← List.map_tail]
    rfl

theorem finishProto_eq (he : KeepsKind e) (c : PCtx) (first name start : List Token) (x y : Bool) :
    finishProto (mapCtx e c) (first.map e) (name.map e) (start.map e) x y = mapPRes e (finishProto c first name start x y) := by
  unfold finishProto
  rw [List.length_map]
  have hp := params_eq he (start.length + 1) start []
  rw [List.map_nil] at hp
  rw [hp]
  cases parseParams (start.length + 1) start [] with
  | none => rfl
  | some r =>
    obtain ⟨ps, l⟩ := r
    cases l with
    | nil => 
      simp only [Option.map_some, List.map_nil, mapPRes]
      congr 1
      cases name with
      | nil => rfl
      | cons n m => cases m <;> rfl
    | cons cur after =>
      simp only [Option.map_some, List.map_cons, he cur, potential_eq he, head_ty he, List.length_cons, List.length_map, List.map_eq_nil_iff,
        ← List.map_reverse]
      have hsplit : (if cur.ty = .parenClose then (isPotentialType after).map (List.map e) else none) =
          (if cur.ty = .parenClose then isPotentialType after else none).map (List.map e) := by split <;> rfl
      rw [hsplit]
      generalize (if x = true then TokType.newline else .bracketOpen) = kind
      cases (if cur.ty = .parenClose then isPotentialType after else none) with
      | none =>
        simp only [Option.map_none]
        split
        · exact pushProto_eq c first name (cur :: after) ps.reverse none x y
        · split
          · rfl
          · split <;> rfl
      | some l =>
        cases l with
        | nil => rfl
        | cons ty more =>
          simp only [Option.map_some, List.map_cons, head_ty he]
          split
          · exact pushProto_eq c first name (ty :: more) ps.reverse (some after) x y
          · cases x <;> rfl

theorem proto_eq (he : KeepsKind e) (c : PCtx) : parseFunctionProto (mapCtx e c) = mapPRes e (parseFunctionProto c) := by
  unfold parseFunctionProto
  rw [ctx_toks]
  cases c.ps.toks with
  | nil => rfl
  | cons t rest =>
    simp only [List.map_cons, he t]
    have hn : (if (decide (t.ty = .kwExternal) || decide (t.ty = .kwExport)) = true then rest.map e else e t :: rest.map e) =
        (if (decide (t.ty = .kwExternal) || decide (t.ty = .kwExport)) = true then rest else t :: rest).map e := by split <;> rfl
    rw [hn, cmp_eq he]
    generalize (if (decide (t.ty = .kwExternal) || decide (t.ty = .kwExport)) = true then rest else t :: rest) = name
    cases tokenCmp2 name .identifier .parenOpen with
    | none => rfl
    | some b =>
      cases b with
      | false => rfl
      | true =>
        simp only [← List.map_tail]
        exact finishProto_eq he c (t :: rest) name name.tail.tail _ _

theorem finishVar_eq (he : KeepsKind e) (c : PCtx) (first name cur : List Token) (x y z : Bool) :
    finishVarDef (mapCtx e c) (first.map e) (name.map e) (cur.map e) x y z = mapPRes e (finishVarDef c first name cur x y z) := by
  cases cur with
  | nil => rfl
  | cons t rest =>
    simp only [finishVarDef, List.map_cons]
    rw [show ({ (mapCtx e c).ps with toks := rest.map e } : PS) = relabelPS e { c.ps with toks := rest } from rfl, expr_eq he]
    cases parseExpr { c.ps with toks := rest } with
    | ub => rfl
    | fuel => rfl
    | ok x' s1 =>
      simp only [mapP_ok]
      by_cases hh : s1.err = true
      · rw [if_pos (c := (relabelPS e s1).err = true) hh, if_pos hh]; rfl
      · rw [if_neg (c := (relabelPS e s1).err = true) hh, if_neg hh]
        cases x' with
        | none =>
          simp only [Option.map_none, toks_eq]
          cases s1.toks <;> rfl
        | some x' =>
          simp only [Option.map_some, toks_eq]
          have := push_eq (e := e) c (.varDef name x y z x') first (t :: rest)
          simp only [relabelS, List.map_cons] at this
          rw [this]
          cases s1.toks with
          | nil => rfl
          | cons t' r =>
            simp only [List.map_cons, he t']
            split <;> rfl

theorem var_eq (he : KeepsKind e) (c : PCtx) : parseVarDef (mapCtx e c) = mapPRes e (parseVarDef c) := by
  unfold parseVarDef
  rw [ctx_toks]
  cases hl : c.ps.toks with
  | nil => rfl
  | cons t rest =>
    simp only [List.map_cons, he t]
    have hn : (if (decide (t.ty = .kwMut) || decide (t.ty = .kwExport)) = true then rest.map e else e t :: rest.map e) =
        (if (decide (t.ty = .kwMut) || decide (t.ty = .kwExport)) = true then rest else t :: rest).map e := by split <;> rfl
    rw [hn]
    generalize (if (decide (t.ty = .kwMut) || decide (t.ty = .kwExport)) = true then rest else t :: rest) = name
    cases name with
    | nil => rfl
    | cons n m =>
      have hx := explicit_eq he (n :: m)
      have hc := cmp_eq he (n :: m) .identifier .operAutoEqual
      simp only [List.map_cons] at hx hc ⊢
      rw [hx]
      cases isExplicitType (n :: m) with
      | none =>
        simp only [Option.map_none, hc]
        cases tokenCmp2 (n :: m) .identifier .operAutoEqual with
        | none => rfl
        | some b =>
          cases b with
          | false => rfl
          | true => exact finishVar_eq he c (t :: rest) (n :: m) m _ _ _
      | some l =>
        cases l with
        | nil => rfl
        | cons a b => exact finishVar_eq he c (t :: rest) (n :: m) (a :: b) _ _ _

theorem assign_eq (he : KeepsKind e) (c : PCtx) : parseVarAssign (mapCtx e c) = mapPRes e (parseVarAssign c) := by
  unfold parseVarAssign
  rw [ctx_toks]
  cases hl : c.ps.toks with
  | nil => rfl
  | cons t rest =>
    simp only [List.map_cons, ident_eq he, head_ty he]
    split
    · rfl
    · rw [← List.map_tail, show ({ (mapCtx e c).ps with toks := rest.tail.map e } : PS) = relabelPS e { c.ps with toks := rest.tail } from rfl, expr_eq he]
      cases parseExpr { c.ps with toks := rest.tail } with
      | ub => rfl
      | fuel => rfl
      | ok x' s1 =>
        cases x' with
        | none =>
          simp only [mapP_ok, Option.map_none, toks_eq]
          cases s1.toks <;> rfl
        | some x' =>
          have := push_eq (e := e) c (.varAssign x') (t :: rest) rest
          simp only [relabelS, List.map_cons] at this
          simp only [mapP_ok, Option.map_some, this]
          rfl

theorem pushToken_eq (c : PCtx) (st : Stmt) (h : relabelS e st = st) : pushToken (mapCtx e c) st = mapNRes e (pushToken c st) := by
  have := push_eq (e := e) c st c.ps.toks c.ps.toks
  rw [h] at this
  simp only [pushToken, ctx_toks, this, ← List.map_tail]
  rfl

theorem return_eq (he : KeepsKind e) (c : PCtx) : parseReturn (mapCtx e c) = mapNRes e (parseReturn c) := by
  unfold parseReturn
  rw [ctx_toks, ← List.map_tail, show ({ (mapCtx e c).ps with toks := c.ps.toks.tail.map e } : PS) = relabelPS e { c.ps with toks := c.ps.toks.tail } from rfl, expr_eq he]
  cases parseExpr { c.ps with toks := c.ps.toks.tail } with
  | ub => rfl
  | fuel => rfl
  | ok x s1 =>
    have := push_eq (e := e) c (.ret (x.getD .missing)) c.ps.toks c.ps.toks
    simp only [relabelS] at this
    have hx : (x.map (relabelE e)).getD .missing = relabelE e (x.getD .missing) := by cases x <;> simp [relabelE]
    simp only [mapP_ok, hx, this]
    rfl

theorem condition_eq (he : KeepsKind e) (c : PCtx) {mk : Expr → Stmt} (hm : ∀ x, relabelS e (mk x) = mk (relabelE e x)) :
    parseCondition (mapCtx e c) mk = mapNRes e (parseCondition c mk) := by
  unfold parseCondition
  rw [ctx_toks]
  cases hl : c.ps.toks with
  | nil => rfl
  | cons t l =>
    cases l with
    | nil => rfl
    | cons t2 rest =>
      simp only [List.map_cons]
      rw [show ({ (mapCtx e c).ps with toks := e t2 :: rest.map e } : PS) = relabelPS e { c.ps with toks := t2 :: rest } from rfl, expr_eq he]
      cases parseExpr { c.ps with toks := t2 :: rest } with
      | ub => rfl
      | fuel => rfl
      | ok x s1 =>
        cases x with
        | none =>
          simp only [mapP_ok, Option.map_none, toks_eq, List.head?_map]
          rfl
        | some x =>
          simp only [mapP_ok, Option.map_some]
          by_cases hh : s1.err = true
          · rw [if_pos (c := (relabelPS e s1).err = true) hh, if_pos hh]
            simp only [toks_eq, List.head?_map]
            rfl
          · rw [if_neg (c := (relabelPS e s1).err = true) hh, if_neg hh]
            have := push_eq (e := e) c (mk x) (t :: t2 :: rest) (t :: t2 :: rest)
            simp only [hm, List.map_cons] at this
            rw [this]
            rfl

theorem namespace_eq (c : PCtx) : parseNamespace (mapCtx e c) = mapNRes e (parseNamespace c) := by
  unfold parseNamespace
  rw [ctx_toks]
  cases hl : c.ps.toks with
  | nil => rfl
  | cons t l =>
    cases l with
    | nil => rfl
    | cons t2 rest =>
      have := push_eq (e := e) c .namespaces (t :: t2 :: rest) rest
      simp only [relabelS, List.map_cons] at this ⊢
      rw [this]
      rfl

theorem import_eq (he : KeepsKind e) (c : PCtx) : parseImport (mapCtx e c) = mapNRes e (parseImport c) := by
  unfold parseImport
  rw [ctx_toks]
  cases hl : c.ps.toks with
  | nil => rfl
  | cons t l =>
    cases l with
    | nil => rfl
    | cons t2 rest =>
      simp only [List.map_cons, he t2]
      split
      · have := push_eq (e := e) c .imports (t :: t2 :: rest) (t :: t2 :: rest)
        simp only [relabelS, List.map_cons] at this
        rw [this]
        rfl
      · rfl

theorem exprStmt_eq (he : KeepsKind e) (c : PCtx) : parseExprStmt (mapCtx e c) = mapNRes e (parseExprStmt c) := by
  unfold parseExprStmt
  rw [show (mapCtx e c).ps = relabelPS e c.ps from rfl, expr_eq he]
  cases parseExpr c.ps with
  | ub => rfl
  | fuel => rfl
  | ok x s1 =>
    cases x with
    | none =>
      simp only [mapP_ok, Option.map_none]
      by_cases hh : s1.err = true
      · rw [if_pos (c := (relabelPS e s1).err = true) hh, if_pos hh]; rfl
      · rw [if_neg (c := (relabelPS e s1).err = true) hh, if_neg hh]
        simp only [toks_eq, List.head?_map]
        rfl
    | some x =>
      have := push_eq (e := e) c (.expr x) c.ps.toks s1.toks
      simp only [relabelS] at this
      simp only [mapP_ok, Option.map_some, toks_eq, this]
      rfl

theorem default_eq (he : KeepsKind e) (c : PCtx) : parseDefault (mapCtx e c) = mapNRes e (parseDefault c) := by
  unfold parseDefault
  rw [proto_eq he]
  cases parseFunctionProto c with
  | ignore =>
    simp only [mapPRes]
    rw [var_eq he]
    cases parseVarDef c with
    | ignore =>
      simp only [mapPRes]
      rw [assign_eq he]
      cases parseVarAssign c with
      | ignore => exact exprStmt_eq he c
      | _ => rfl
    | _ => rfl
  | _ => rfl

theorem link_eq : ∀ (ns : List Node) (acc : Tree), linkNodes (ns.map (mapNode e)) (relabel e acc) = relabel e (linkNodes ns acc)
  | [], _ => rfl
  | n :: ns, acc => link_eq ns (.node n.stmt n.tok n.tokEnd n.child acc)

theorem tree_eq (c : PCtx) : (mapCtx e c).tree = relabel e c.tree := by
  unfold PCtx.tree
  rw [show (mapCtx e c).done = c.done.map (mapNode e) from rfl]
  cases c.done with
  | nil => rfl
  | cons n ns => exact link_eq (n :: ns) .nil

theorem hasToken_eq (t : Tree) : (relabel e t).hasToken = t.hasToken := by
  cases t with
  | nil => rfl
  | node => simp [relabel, Tree.hasToken]

theorem lastHasChild_eq (c : PCtx) : (mapCtx e c).lastHasChild = c.lastHasChild := by
  unfold PCtx.lastHasChild
  rw [show (mapCtx e c).done = c.done.map (mapNode e) from rfl]
  cases c.done with
  | nil => rfl
  | cons n ns =>
    obtain ⟨_, _, _, ch⟩ := n
    cases ch <;> rfl

theorem setChild_eq (c : PCtx) (t : Tree) : (mapCtx e c).setChild (relabel e t) = mapCtx e (c.setChild t) := by
  obtain ⟨ps, done, hc⟩ := c
  cases done <;> rfl

structure Nat4 (e : Token → Token) (f : Nat) : Prop where
  tree : ∀ lvl s, parseTree f lvl (relabelPS e s) = relabelRes e (parseTree f lvl s)
  nodes : ∀ lvl c, parseNodes f lvl (mapCtx e c) = mapNRes e (parseNodes f lvl c)
  node : ∀ lvl c, parseNode f lvl (mapCtx e c) = mapNRes e (parseNode f lvl c)
  sub : ∀ lvl c, parseSubTree f lvl (mapCtx e c) = mapNRes e (parseSubTree f lvl c)

theorem nat4 (he : KeepsKind e) : ∀ f, Nat4 e f
  | 0 => ⟨fun _ _ => by unfold parseTree; rfl, fun _ _ => by unfold parseNodes; rfl, fun _ _ => by unfold parseNode; rfl, fun _ _ => by unfold parseSubTree; rfl⟩
  | f + 1 => by
    have ih := nat4 he f
    refine ⟨fun lvl s => ?_, fun lvl c => ?_, fun lvl c => ?_, fun lvl c => ?_⟩
    · unfold parseTree
      rw [show ({ ps := relabelPS e s } : PCtx) = mapCtx e { ps := s } from rfl, ih.nodes]
      cases parseNodes f lvl { ps := s } with
      | ub => rfl
      | fuel => rfl
      | ok b c =>
        simp only [mapNRes]
        by_cases hh : c.ps.err = true
        · rw [if_pos (c := (mapCtx e c).ps.err = true) hh, if_pos hh]; rfl
        · rw [if_neg (c := (mapCtx e c).ps.err = true) hh, if_neg hh]
          simp only [ctx_toks, List.map_eq_nil_iff, tree_eq]
          split <;> rfl
    · unfold parseNodes
      rw [ctx_toks]
      cases hl : c.ps.toks with
      | nil => rfl
      | cons t rest =>
        simp only [List.map_cons]
        rw [ih.node]
        cases parseNode f lvl c with
        | ub => rfl
        | fuel => rfl
        | ok b c1 =>
          simp only [mapNRes]
          by_cases hh : (b || c1.ps.err) = true
          · rw [if_pos (c := (b || (mapCtx e c1).ps.err) = true) hh, if_pos hh]
          · rw [if_neg (c := (b || (mapCtx e c1).ps.err) = true) hh, if_neg hh]; exact ih.nodes lvl c1
    · unfold parseNode
      rw [ctx_toks]
      cases hl : c.ps.toks with
      | nil => rfl
      | cons t rest =>
        simp only [List.map_cons, he t]
        split
        · split <;> rfl
        · exact ih.sub lvl c
        · rfl
        · rfl
        · exact return_eq he c
        · exact condition_eq he c fun _ => rfl
        · exact condition_eq he c fun _ => rfl
        · exact pushToken_eq c _ rfl
        · exact condition_eq he c fun _ => rfl
        · exact namespace_eq c
        · exact pushToken_eq c _ rfl
        · exact pushToken_eq c _ rfl
        · exact pushToken_eq c _ rfl
        · exact pushToken_eq c _ rfl
        · exact pushToken_eq c _ rfl
        · exact import_eq he c
        · exact default_eq he c
    · unfold parseSubTree
      rw [ctx_toks]
      cases hl : c.ps.toks with
      | nil => rfl
      | cons t rest =>
        simp only [List.map_cons, lastHasChild_eq]
        split
        · rfl
        · rw [show ({ (mapCtx e c).ps with toks := rest.map e, err := false } : PS) = relabelPS e { c.ps with toks := rest, err := false } from rfl, ih.tree]
          cases parseTree f (lvl + 1) { c.ps with toks := rest, err := false } with
          | ub => rfl
          | fuel => rfl
          | ok o s1 =>
            cases o with
            | none => rfl
            | some child =>
              simp only [relabelRes, Option.map_some]
              by_cases hh : s1.err = true
              · rw [if_pos (c := (relabelPS e s1).err = true) hh, if_pos hh]; rfl
              · rw [if_neg (c := (relabelPS e s1).err = true) hh, if_neg hh]
                simp only [hasToken_eq, toks_eq, setChild_eq]
                split <;> (cases s1.toks <;> rfl)

theorem setHead_eq (toks : List Token) (t : Tree) : (relabel e t).setHead (toks.map e) = relabel e (t.setHead toks) := by
  cases t with
  | nil => rfl
  | node =>
    simp only [relabel, Tree.setHead, List.map_eq_nil_iff]
    split <;> rfl

theorem parse_eq (he : KeepsKind e) (toks : List Token) : parseAstTree (toks.map e) = relabelRes e (parseAstTree toks) := by
  unfold parseAstTree
  rw [show treeFuel (toks.map e) = treeFuel toks by simp [treeFuel], show ({ toks := toks.map e } : PS) = relabelPS e { toks := toks } from rfl, (nat4 he _).tree]
  cases parseTree (treeFuel toks) 0 { toks := toks } with
  | ub => rfl
  | fuel => rfl
  | ok o s1 =>
    cases o with
    | none => rfl
    | some t =>
      simp only [relabelRes, Option.map_some]
      by_cases hh : s1.err = true
      · rw [if_pos (c := (relabelPS e s1).err = true) hh, if_pos hh]; rfl
      · rw [if_neg (c := (relabelPS e s1).err = true) hh, if_neg hh, setHead_eq]
        rfl

end Skull.Relab
