import Verif.Spec.Reformat
import Verif.Model.CodegenLLVM
import Verif.Model.CodegenC
/-
The back ends do not look at tokens, but for the line numbers of debug information.
-/
namespace Skull.Reform
open Spec

variable {e : Token → Token}

/- ### LLVM -/

abbrev lc (e : Token → Token) (cfg : LCfg) : LCfg := { cfg with syms := cfg.syms.map (relabelSym e) }

theorem var_eq (cfg : LCfg) (id : Nat) : (lc e cfg).var id = cfg.var id := by
  unfold LCfg.var
  show (match (cfg.syms.map (relabelSym e))[id]? with | some sym => _ | none => _) = _
  rw [List.getElem?_map]
  cases cfg.syms[id]? <;> rfl

theorem func_eq (cfg : LCfg) (id : Nat) : (lc e cfg).func id = (cfg.func id).map fun p => (relabelSym e p.1, p.2) := by
  unfold LCfg.func
  show (match (cfg.syms.map (relabelSym e))[id]? with | some sym => _ | none => _) = _
  rw [List.getElem?_map]
  cases cfg.syms[id]? with
  | none => rfl
  | some sym =>
    simp only [Option.map_some]
    show (match sym.kind with | .func f => _ | _ => _) = _
    cases hk : sym.kind <;> simp [relabelSym]

/-- A function is looked up for something that tokens have no part in. -/
theorem func_bind (cfg : LCfg) (id : Nat) {k k' : Symbol × Func → LGen α} (h : ∀ p, k' (relabelSym e p.1, p.2) = k p) :
    (LGen.ofOption ((lc e cfg).func id) >>= k') = (LGen.ofOption (cfg.func id) >>= k) := by
  rw [func_eq]
  cases cfg.func id with
  | none => rfl
  | some p =>
    show k' (relabelSym e p.1, p.2) = k p
    exact h p

theorem ident_gen (cfg : LCfg) (id : Nat) : identL (lc e cfg) id = identL cfg id := by unfold identL; rw [var_eq]
theorem deref_gen (cfg : LCfg) (id : Nat) : derefL (lc e cfg) id = derefL cfg id := by unfold derefL; rw [var_eq]
theorem ref_gen (cfg : LCfg) (id : Nat) : refL (lc e cfg) id = refL cfg id := by unfold refL; rw [var_eq]
theorem assign_gen (cfg : LCfg) (id : Nat) (v : LVal) : assignL (lc e cfg) id v = assignL cfg id v := by unfold assignL; rw [var_eq]

theorem call_gen (cfg : LCfg) (id : Nat) (as : List LVal) : callL (lc e cfg) id as = callL cfg id as := by
  unfold callL
  exact func_bind cfg id fun p => rfl

theorem un_gen (cfg : LCfg) (o : Oper) (x : LExpr) : unL (lc e cfg) o x = unL cfg o x := rfl
theorem bin_gen (cfg : LCfg) (o : Oper) (ty : Option Ty) (a b : LVal) : binL (lc e cfg) o ty a b = binL cfg o ty a b := rfl

theorem addr_gen (cfg : LCfg) (o : Oper) (a : AExpr) : addrL (lc e cfg) o (relabelAE e a) = addrL cfg o a := by
  cases a <;> simp only [relabelAE, addrL]
  rw [ref_gen, deref_gen]

mutual
theorem expr_gen (cfg : LCfg) : ∀ a : AExpr, genExprL (lc e cfg) (relabelAE e a) = genExprL cfg a
  | .ident t id ty c => by simp only [relabelAE, genExprL]; exact ident_gen cfg id
  | .const t v => by simp only [relabelAE, genExprL]
  | .call t as id ty => by
    simp only [relabelAE, genExprL]
    refine func_bind cfg id fun p => ?_
    simp only [args_gen cfg _ as, call_gen]
  | .un o r ty c => by
    simp only [relabelAE, genExprL]
    rw [addr_gen, expr_gen cfg r]
    rfl
  | .bin o l r ty c => by
    simp only [relabelAE, genExprL]
    rw [expr_gen cfg l, expr_gen cfg r]
    rfl
theorem args_gen (cfg : LCfg) : ∀ (n : Nat) (as : AArgs), genArgsL (lc e cfg) n (relabelAA e as) = genArgsL cfg n as
  | 0, as => by unfold genArgsL; rfl
  | n + 1, .nil => by simp only [relabelAA, genArgsL]
  | n + 1, .unchecked rest => by simp only [relabelAA, genArgsL]
  | n + 1, .cons t x next => by
    simp only [relabelAA, genArgsL]
    rw [expr_gen cfg x, args_gen cfg n next]
end

theorem setupVar_gen (cfg : LCfg) (id : Nat) (v : LVal) : setupVarL (lc e cfg) id v = setupVarL cfg id v := by
  unfold setupVarL globalVarL localVarL
  simp only [var_eq, assign_gen]

theorem spill_gen (cfg : LCfg) : ∀ ids : List Nat, spillParams (lc e cfg) ids = spillParams cfg ids
  | [] => rfl
  | id :: ids => by
    unfold spillParams spillParam
    rw [var_eq, spill_gen cfg ids]

theorem function_gen (cfg : LCfg) (id : Nat) (params : List Nat) (body : LGen (Option (Option Ty))) :
    functionL (lc e cfg) id params body = functionL cfg id params body := by
  unfold functionL
  refine func_bind cfg id fun p => ?_
  have hd : ∀ l, debugParams (lc e cfg) l = debugParams cfg l := fun l => by
    unfold debugParams
    rw [spill_gen]
  simp only [hd]
  rfl

theorem while_gen (cfg : LCfg) (a : AExpr) (body : LGen (Option (Option Ty))) :
    whileL (lc e cfg) (relabelAE e a) body = whileL cfg a body := by
  unfold whileL
  rw [expr_gen]

theorem simple_gen (cfg : LCfg) (ann : Ann) (st : Stmt) : simpleL (lc e cfg) (relabelAnn e ann) (relabelS e st) = simpleL cfg ann st := by
  cases st <;> simp only [relabelS, simpleL]
  case varDef => cases ann <;> simp only [relabelAnn, expr_gen, setupVar_gen]
  case varAssign => cases ann <;> simp only [relabelAnn, expr_gen, assign_gen]
  case ret => cases ann <;> simp only [relabelAnn, expr_gen]
  case expr =>
    cases ann <;> simp only [relabelAnn]
    rename_i a
    have h := expr_gen (e := e) cfg a
    cases a <;> simp only [relabelAE] at h ⊢
    rw [h]
  case noop => rfl

/-- A place in a list of statements, with other tokens. -/
def relabelMode (e : Token → Token) : LMode → LMode
  | .stmts => .stmts
  | .afterIf a f entry ifTrue fin => .afterIf (relabelAE e a) f entry ifTrue fin

theorem close_gen (cfg : LCfg) (m : LMode) : closeIf (lc e cfg) (relabelMode e m) = closeIf cfg m := by
  cases m <;> simp only [relabelMode, closeIf, expr_gen]

theorem next_gen (cfg : LCfg) (a : AExpr) (f entry ifTrue : Nat) :
    nextIf (lc e cfg) (relabelAE e a) f entry ifTrue = nextIf cfg a f entry ifTrue := by
  unfold nextIf
  rw [expr_gen]

theorem tree_gen (cfg : LCfg) : ∀ (t : ATree) (m : LMode), genTreeL (lc e cfg) (relabelMode e m) (relabelAT e t) = genTreeL cfg m t
  | .nil, m => by simp only [relabelAT, genTreeL, close_gen]
  | .unchecked _, m => by simp only [relabelAT, genTreeL]
  | .node ann st tok child next, m => by
    have hc := tree_gen cfg child .stmts
    have hn := tree_gen cfg next .stmts
    have hif := fun a f entry ifTrue fin => tree_gen cfg next (.afterIf a f entry ifTrue fin)
    simp only [relabelMode] at hc hn hif
    have hclose := close_gen (e := e) cfg m
    have hsimple := simple_gen (e := e) cfg ann st
    cases m with
    | stmts =>
      simp only [relabelMode] at hclose ⊢
      cases st <;> simp only [relabelAT, relabelS] at hsimple ⊢ <;> unfold genTreeL <;> dsimp only <;> rw [hclose]
      case ifs => cases ann <;> simp only [relabelAnn, hc, hif]
      case whiles => cases ann <;> simp only [relabelAnn, hc, hn, while_gen]
      case funcProto => cases ann <;> simp only [relabelAnn, hc, hn, function_gen]
      case namespaces => simp only [hc, hn]
      all_goals simp only [hsimple, hn]
    | afterIf a f entry ifTrue fin =>
      simp only [relabelMode] at hclose ⊢
      cases st <;> simp only [relabelAT, relabelS] at hsimple ⊢ <;> unfold genTreeL <;> dsimp only
      case comment => exact hif a f entry ifTrue fin
      case elifs => cases ann <;> simp only [relabelAnn, hc, hif, next_gen]
      case elses => simp only [hc, hn, next_gen]
      case ifs => rw [hclose]; cases ann <;> simp only [relabelAnn, hc, hif]
      case whiles => rw [hclose]; cases ann <;> simp only [relabelAnn, hc, hn, while_gen]
      case funcProto => rw [hclose]; cases ann <;> simp only [relabelAnn, hc, hn, function_gen]
      case namespaces => rw [hclose]; simp only [hc, hn]
      all_goals rw [hclose]; simp only [hsimple, hn]

/-- The module is the same. -/
theorem codegenL_eq (cfg : LCfg) (name : List Char) (t : ATree) : codegenL (lc e cfg) name (relabelAT e t) = codegenL cfg name t := by
  unfold codegenL genModuleL
  have := tree_gen (e := e) cfg t .stmts
  simp only [relabelMode] at this
  rw [this]

/- ### C -/

abbrev cc (e : Token → Token) (cfg : CCfg) : CCfg := { cfg with syms := cfg.syms.map (relabelSym e) }

theorem varC_eq (cfg : CCfg) (id : Nat) : (cc e cfg).var id = cfg.var id := by
  unfold CCfg.var
  show (match (cfg.syms.map (relabelSym e))[id]? with | some { kind := .var v, .. } => _ | _ => _) = _
  rw [List.getElem?_map]
  cases cfg.syms[id]? with
  | none => rfl
  | some sym =>
    obtain ⟨_, _, _, _, k⟩ := sym
    cases k <;> rfl

theorem funcC_eq (cfg : CCfg) (id : Nat) : (cc e cfg).func id = (cfg.func id).map fun p => (relabelSym e p.1, p.2) := by
  unfold CCfg.func
  show (match (cfg.syms.map (relabelSym e))[id]? with | some sym => _ | none => _) = _
  rw [List.getElem?_map]
  cases cfg.syms[id]? with
  | none => rfl
  | some sym =>
    simp only [Option.map_some]
    show (match sym.kind with | .func f => _ | _ => _) = _
    cases hk : sym.kind <;> simp [relabelSym]

theorem funcC_bind (cfg : CCfg) (id : Nat) {k k' : Symbol × Func → CGen α} (h : ∀ p, k' (relabelSym e p.1, p.2) = k p) :
    (CGen.ofOption ((cc e cfg).func id) >>= k') = (CGen.ofOption (cfg.func id) >>= k) := by
  rw [funcC_eq]
  cases cfg.func id with
  | none => rfl
  | some p =>
    show k' (relabelSym e p.1, p.2) = k p
    exact h p

theorem constC_eq (cfg : CCfg) (v : Value) : genConstC (cc e cfg) v = genConstC cfg v := by cases v <;> rfl

theorem typeC_eq (a : AExpr) : (relabelAE e a).type = a.type := by cases a <;> simp only [relabelAE, AExpr.type]
theorem isConstC_eq (a : AExpr) : (relabelAE e a).isConstExpr = a.isConstExpr := by cases a <;> simp only [relabelAE, AExpr.isConstExpr]

mutual
theorem exprC_gen (cfg : CCfg) : ∀ a : AExpr, genExprC (cc e cfg) (relabelAE e a) = genExprC cfg a
  | .ident t id ty c => by simp only [relabelAE, genExprC]; rw [varC_eq]
  | .const t v => by simp only [relabelAE, genExprC]; rw [constC_eq]
  | .call t as id ty => by
    simp only [relabelAE, genExprC]
    refine funcC_bind cfg id fun p => ?_
    simp only [argsC_gen cfg _ as, relabelSym]
  | .un o r ty c => by
    simp only [relabelAE, genExprC]
    rw [exprC_gen cfg r]
  | .bin o l r ty c => by
    simp only [relabelAE, genExprC]
    rw [exprC_gen cfg l, exprC_gen cfg r, typeC_eq]
theorem argsC_gen (cfg : CCfg) : ∀ (n : Nat) (as : AArgs), genArgsC (cc e cfg) n (relabelAA e as) = genArgsC cfg n as
  | 0, as => by unfold genArgsC; rfl
  | n + 1, .nil => by simp only [relabelAA, genArgsC]
  | n + 1, .unchecked rest => by simp only [relabelAA, genArgsC]
  | n + 1, .cons t x next => by
    simp only [relabelAA, genArgsC]
    rw [exprC_gen cfg x, argsC_gen cfg n next]
end

theorem assignC_gen (cfg : CCfg) (n : List Char) (a : AExpr) : assignC (cc e cfg) n (relabelAE e a) = assignC cfg n a := by
  unfold assignC; rw [exprC_gen]

theorem varDefC_gen (cfg : CCfg) (id : Nat) (a : AExpr) : varDefC (cc e cfg) id (relabelAE e a) = varDefC cfg id a := by
  unfold varDefC globalVarC constGlobalC stackVarC
  simp only [varC_eq, exprC_gen, assignC_gen, isConstC_eq]

theorem debugC_eq {cfg : CCfg} (hd : cfg.debug = none) (tok : List Token) (t : List Char) : debugC cfg tok t = pure t := by
  unfold debugC; rw [hd]

theorem mapGen_eq (cfg : CCfg) : ∀ l : List Nat, mapGen (paramC (cc e cfg)) l = mapGen (paramC cfg) l
  | [] => rfl
  | a :: l => by
    unfold mapGen
    rw [mapGen_eq cfg l]
    unfold paramC
    rw [varC_eq]

theorem functionC_gen {cfg : CCfg} (hd : cfg.debug = none) (id : Nat) (params : List Nat) (tok tok' : List Token) (body : CGen (Option (List Char))) :
    functionDefC (cc e cfg) id params tok' body = functionDefC cfg id params tok body := by
  unfold functionDefC prototypeC
  have : ∀ {β : Type} (k : List Char → CGen β) (k1 k2 : Symbol × Func → CGen (List Char)), (∀ p, k1 (relabelSym e p.1, p.2) = k2 p) →
      ((CGen.ofOption ((cc e cfg).func id) >>= k1) >>= k) = ((CGen.ofOption (cfg.func id) >>= k2) >>= k) := fun k k1 k2 h => by
    rw [funcC_bind cfg id h]
  refine this _ _ _ fun p => ?_
  unfold paramsC
  simp only [mapGen_eq, debugC_eq hd, debugC_eq (cfg := cc e cfg) hd, relabelSym]

theorem controlC_gen (cfg : CCfg) (w : List Char) (a : AExpr) (body : CGen (Option (List Char))) :
    controlC (cc e cfg) w (relabelAE e a) body = controlC cfg w a body := by
  unfold controlC; rw [exprC_gen]

theorem ns_bind (cfg : CCfg) (id : Nat) (body : CGen (Option (List Char))) :
    (CGen.ofOption (cc e cfg).syms[id]? >>= fun sym => plainBlockC ('"' :: sym.name ++ "\"; ".toList) body >>= fun t => (pure (some t) : CGen (Option (List Char)))) =
    (CGen.ofOption cfg.syms[id]? >>= fun sym => plainBlockC ('"' :: sym.name ++ "\"; ".toList) body >>= fun t => pure (some t)) := by
  show (CGen.ofOption (cfg.syms.map (relabelSym e))[id]? >>= _) = _
  rw [List.getElem?_map]
  cases cfg.syms[id]? <;> rfl

theorem stmtC_gen {cfg : CCfg} (hd : cfg.debug = none) (ann : Ann) (st : Stmt) (tok tok' : List Token) (body : CGen (Option (List Char))) :
    genStmtC (cc e cfg) (relabelAnn e ann) (relabelS e st) tok' body = genStmtC cfg ann st tok body := by
  cases st <;> simp only [relabelS, genStmtC]
  case varDef => cases ann <;> simp only [relabelAnn, varDefC_gen]
  case varAssign => cases ann <;> simp only [relabelAnn, varC_eq, assignC_gen]
  case ret => cases ann <;> simp only [relabelAnn, exprC_gen]
  case expr => cases ann <;> simp only [relabelAnn, exprC_gen]
  case ifs => cases ann <;> simp only [relabelAnn, controlC_gen]
  case elifs => cases ann <;> simp only [relabelAnn, controlC_gen]
  case whiles => cases ann <;> simp only [relabelAnn, controlC_gen]
  case funcProto => cases ann <;> simp only [relabelAnn, functionC_gen hd _ _ tok tok' body]
  case namespaces =>
    cases ann <;> simp only [relabelAnn]
    exact ns_bind cfg _ body

theorem indentC_gen {cfg : CCfg} (hd : cfg.debug = none) (tok tok' : List Token) (t : Option (List Char)) :
    indentC (cc e cfg) tok' t = indentC cfg tok t := by
  unfold indentC
  simp only [debugC_eq hd, debugC_eq (cfg := cc e cfg) hd]

theorem nodesC_gen {cfg : CCfg} (hd : cfg.debug = none) : ∀ (t : ATree) (acc : Option (List Char)),
    genNodesC (cc e cfg) acc (relabelAT e t) = genNodesC cfg acc t
  | .nil, acc => by simp only [relabelAT, genNodesC]
  | .unchecked _, acc => by simp only [relabelAT, genNodesC]
  | .node ann st tok child next, acc => by
    simp only [relabelAT, genNodesC]
    rw [nodesC_gen hd child none]
    simp only [stmtC_gen hd ann st tok (tok.map e), indentC_gen hd tok (tok.map e), nodesC_gen hd next]

/-- The C code is the same. -/
theorem moduleC_eq {cfg : CCfg} (hd : cfg.debug = none) (t : ATree) : genModuleC (cc e cfg) (relabelAT e t) = genModuleC cfg t := by
  unfold genModuleC
  rw [nodesC_gen hd]

end Skull.Reform
