import Verif.Spec.Reformat
import Verif.Proofs.Relabel
/-
The check looks at nothing of a token but its kind, its text and the value of a literal.
-/
namespace Skull.Reform
open Spec

variable {e : Token → Token}

def mapR (e : Token → Token) (g : α → β) : SRes α → SRes β
  | .ok a s => .ok (g a) (relabelSS e s)
  | .fail s => .fail (relabelSS e s)
  | .ub => .ub

/-- `m'` does with other tokens what `m` does. -/
def Comm (e : Token → Token) (g : α → β) (m : Chk α) (m' : Chk β) : Prop := ∀ s, m' (relabelSS e s) = mapR e g (m s)

theorem Comm.bind {g : α → α'} {h : β → β'} {m : Chk α} {m' : Chk α'} {f : α → Chk β} {f' : α' → Chk β'}
    (hm : Comm e g m m') (hf : ∀ a, Comm e h (f a) (f' (g a))) : Comm e h (m >>= f) (m' >>= f') := fun s => by
  show (match m' (relabelSS e s) with | .ok a s => f' a s | .fail s => .fail s | .ub => .ub) =
    mapR e h (match m s with | .ok a s => f a s | .fail s => .fail s | .ub => .ub)
  rw [hm s]
  cases m s with
  | ok a s1 => exact hf a s1
  | fail s1 => rfl
  | ub => rfl

theorem Comm.pure {g : α → β} (a : α) {b : β} (h : g a = b) : Comm e g (Pure.pure a) (Pure.pure b) := fun s => by subst h; rfl
theorem Comm.ub {g : α → β} : Comm e g Chk.ub Chk.ub := fun _ => rfl
theorem Comm.stop {g : α → β} : Comm e g Chk.stop Chk.stop := fun _ => rfl
theorem Comm.error {g : α → β} (code : Code) (t : Token) : Comm e g (Chk.error code (some t)) (Chk.error code (some (e t))) := fun _ => rfl
theorem Comm.errorO {g : α → β} (code : Code) (t : Option Token) : Comm e g (Chk.error code t) (Chk.error code (t.map e)) := fun _ => rfl
theorem Comm.report (code : Code) (t : Option Token) : Comm e id (report code t) (report code (t.map e)) := fun _ => rfl
theorem Comm.get : Comm e (relabelSS e) Chk.get Chk.get := fun _ => rfl
theorem Comm.ofOption {o : Option α} : Comm e id (Chk.ofOption o) (Chk.ofOption o) := fun _ => by cases o <;> rfl

theorem syms_at (s : SS) (i : Nat) : (relabelSS e s).syms[i]? = (s.syms[i]?).map (relabelSym e) := by
  simp [relabelSS]

theorem syms_length (s : SS) : (relabelSS e s).syms.length = s.syms.length := by simp [relabelSS]

theorem find_eq (scopes : List Scope) (syms : List Symbol) : ∀ f o name,
    findName f scopes (syms.map (relabelSym e)) o name = findName f scopes syms o name
  | 0, _, _ => rfl
  | f + 1, none, name => rfl
  | f + 1, some i, name => by
    unfold findName
    simp only [find_eq scopes syms f]
    cases scopes[i]? with
    | none => rfl
    | some sc =>
      dsimp only
      split
      · rfl
      · split
        · rename_i pre post hsp
          cases findName f scopes syms (some i) pre with
          | none => rfl
          | some r =>
            cases r with
            | none => rfl
            | some id =>
              dsimp only
              rw [List.getElem?_map]
              cases syms[id]? with
              | none => rfl
              | some sym => rfl
        · rfl

theorem lookup_comm (name : List Char) : Comm e id (lookup name) (lookup name) := fun s => by
  have : (relabelSS e s).find name = s.find name := find_eq s.scopes s.syms _ _ _
  unfold lookup
  rw [this]
  cases s.find name <;> rfl

theorem symAt_comm (id : Nat) : Comm e (relabelSym e) (symAt id) (symAt id) := fun s => by
  unfold symAt
  rw [syms_at]
  cases s.syms[id]? <;> rfl

theorem newSym_comm (sym : Symbol) : Comm e id (newSym sym) (newSym (relabelSym e sym)) := fun s => by
  show SRes.ok (relabelSS e s).syms.length _ = SRes.ok _ _
  rw [syms_length]
  simp [relabelSS]

theorem updSym_comm (id : Nat) {f f' : Symbol → Symbol} (h : ∀ x, f' (relabelSym e x) = relabelSym e (f x)) :
    Comm e (fun u => u) (updSym id f) (updSym id f') := fun s => by
  unfold updSym
  rw [syms_at]
  cases s.syms[id]? with
  | none => rfl
  | some x =>
    show SRes.ok () _ = SRes.ok () _
    simp [relabelSS, List.map_set, h]

theorem updVar_comm (id : Nat) (f : Variable → Variable) : Comm e (fun u => u) (updVar id f) (updVar id f) :=
  updSym_comm id fun x => by
    show (match x.kind with | .var v => _ | _ => _) = _
    cases hk : x.kind <;> simp only [relabelSym, hk]

theorem updFunc_comm (id : Nat) (f : Func → Func) : Comm e (fun u => u) (updFunc id f) (updFunc id f) :=
  updSym_comm id fun x => by
    show (match x.kind with | .func v => _ | _ => _) = _
    cases hk : x.kind <;> simp only [relabelSym, hk]

/- Steps that do not look at symbols. -/

theorem currentScope_comm : Comm e id currentScope currentScope := fun s => by
  unfold currentScope
  show (match s.scope with | some i => _ | none => _) = _
  cases s.scope <;> rfl

theorem addToScope_comm (i : Nat) (name : List Char) (id' : Nat) : Comm e id (addToScope i name id') (addToScope i name id') := fun s => by
  unfold addToScope
  show (match s.scopes[i]? with | none => _ | some sc => _) = _
  cases s.scopes[i]? with
  | none => rfl
  | some sc =>
    dsimp only
    cases htAdd (some (refsOrNew sc.symbols)) name (some id') <;> rfl

theorem makeChild_comm : Comm e (fun u => u) makeChildScope makeChildScope := by
  unfold makeChildScope
  refine Comm.bind (g := id) (fun s => ?_) fun i => fun s => ?_
  · unfold parentScope
    obtain ⟨_, scope, _, _, _, _, _⟩ := s
    cases scope <;> rfl
  · show enterChild i _ = mapR e _ (enterChild i s)
    unfold enterChild
    show (match s.scopes[i]? with | none => _ | some sc => _) = _
    cases s.scopes[i]? with
    | none => rfl
    | some sc =>
      dsimp only
      cases sc.child with
      | none => rfl
      | some c =>
        show (match s.scopes[c]? with | none => _ | some sc => _) = _
        dsimp only
        cases s.scopes[c]? <;> rfl

theorem makeAdjacent_comm : Comm e (fun u => u) makeAdjacentScope makeAdjacentScope := fun s => by
  unfold makeAdjacentScope
  show (match s.scope with | none => _ | some i => _) = _
  cases s.scope with
  | none => rfl
  | some i =>
    show (match s.scopes[i]? with | none => _ | some sc => _) = _
    dsimp only
    cases s.scopes[i]? <;> rfl

theorem isTop_comm : Comm e id isTopLvlScope isTopLvlScope := fun s => by
  unfold isTopLvlScope
  show (match findScopeHead s with | none => _ | some none => _ | some (some h) => _) = _
  cases findScopeHead s with
  | none => rfl
  | some o =>
    cases o with
    | none => rfl
    | some h =>
      show (match s.scopes[h]? with | none => _ | some sc => _) = _
      dsimp only
      cases s.scopes[h]? <;> rfl

theorem resetHead_comm : Comm e (fun u => u) resetScopeHead resetScopeHead := fun s => by
  unfold resetScopeHead
  show (match findScopeHead s with | none => _ | some none => _ | some (some h) => _) = _
  cases findScopeHead s with
  | none => rfl
  | some o => cases o <;> rfl

theorem restore_comm : Comm e (fun u => u) restoreParentScope restoreParentScope := by
  unfold restoreParentScope
  refine Comm.bind resetHead_comm fun _ => fun s => ?_
  unfold toParent
  show (match s.scope with | none => _ | some i => _) = _
  cases s.scope with
  | none => rfl
  | some i =>
    show (match s.scopes[i]? with | none => _ | some sc => _) = _
    dsimp only
    cases s.scopes[i]? <;> rfl

/- Names. -/

theorem findFunc_comm (name : List Char) : Comm e id (findFuncByName name) (findFuncByName name) := by
  unfold findFuncByName
  refine (lookup_comm name).bind fun o => ?_
  cases o with
  | none => exact .pure _ rfl
  | some id' =>
    refine (symAt_comm id').bind fun sym => ?_
    show Comm e id (match sym.kind with | .func _ => _ | _ => _) (match sym.kind with | .func _ => _ | _ => _)
    cases sym.kind <;> exact .pure _ rfl

theorem findType_comm (name : List Char) : Comm e id (findType name) (findType name) := by
  unfold findType
  refine (lookup_comm name).bind fun o => ?_
  cases o with
  | none => exact .pure _ rfl
  | some id' =>
    refine (symAt_comm id').bind fun sym => ?_
    show Comm e id (match sym.kind with | .alias => _ | _ => _) (match sym.kind with | .alias => _ | _ => _)
    cases sym.kind <;> exact .pure _ rfl

theorem symType_comm (name : List Char) : Comm e id (findSymbolType name) (findSymbolType name) := by
  unfold findSymbolType
  refine (lookup_comm name).bind fun o => ?_
  refine Comm.bind (g := id) ?_ fun d => ?_
  · cases o with
    | none => exact .pure _ rfl
    | some id' =>
      refine (symAt_comm id').bind fun sym => ?_
      show Comm e id (match sym.kind with | .var _ => _ | .ns _ => _ | _ => _) (match sym.kind with | .var _ => _ | .ns _ => _ | _ => _)
      cases sym.kind <;> exact .pure _ rfl
  · have : Comm e id (funcOrAlias name) (funcOrAlias name) := by
      unfold funcOrAlias
      refine (findFunc_comm name).bind fun o => ?_
      cases o with
      | some _ => exact .pure _ rfl
      | none =>
        refine (findType_comm name).bind fun o => ?_
        cases o <;> exact .pure _ rfl
    cases d
    case unknown => exact this
    all_goals exact .pure _ rfl

theorem exists_comm (sym : Symbol) : Comm e id (symbolAlreadyExists sym) (symbolAlreadyExists (relabelSym e sym)) := by
  unfold symbolAlreadyExists
  refine (symType_comm sym.name).bind fun ty => ?_
  show Comm e id (if ty = .unknown then _ else _) (if ty = .unknown then _ else _)
  split
  · exact .pure _ rfl
  · refine Comm.bind (g := fun u => u) ?_ fun _ => .pure _ rfl
    unfold reportExisting
    show Comm e _ _ (if ty ≠ sym.kind.symType then report .errNoRedefineXAsY (sym.loc.map e)
      else if ty = .var then report .errVarAlreadyDefined (sym.loc.map e)
      else if ty = .alias then report .errAliasAlreadyDefined (sym.loc.map e)
      else if ty = .func then report .errNoRedefineFunc (sym.loc.map e)
      else pure ())
    split
    · exact .report _ _
    · split
      · exact .report _ _
      · split
        · exact .report _ _
        · split
          · exact .report _ _
          · exact .pure _ rfl

theorem addSymbol_comm (id' : Nat) : Comm e id (scopeAddSymbol id') (scopeAddSymbol id') := by
  unfold scopeAddSymbol
  refine (symAt_comm id').bind fun sym => ?_
  refine (exists_comm sym).bind fun b => ?_
  show Comm e id (if b = true then _ else _) (if b = true then _ else _)
  split
  · exact .pure _ rfl
  · exact currentScope_comm.bind fun i => addToScope_comm i sym.name id'

theorem addVar_comm (id' : Nat) : Comm e id (scopeAddVar id') (scopeAddVar id') := by
  unfold scopeAddVar
  refine (symAt_comm id').bind fun sym => ?_
  refine (lookup_comm sym.name).bind fun o => ?_
  cases o with
  | some _ => exact .pure _ rfl
  | none => exact addSymbol_comm id'

theorem mustAdd_comm (id' : Nat) : Comm e (fun u => u) (mustAdd id') (mustAdd id') := by
  unfold mustAdd
  refine (addSymbol_comm id').bind fun b => ?_
  show Comm e _ (if b = true then _ else _) (if b = true then _ else _)
  split
  · exact .pure _ rfl
  · exact .stop

theorem tokName_comm (he : KeepsMeaning e) (t : Token) : Comm e id (tokName t) (tokName (e t)) := by
  unfold tokName
  rw [← (he t).text]
  exact .ofOption

theorem tokType_comm (he : KeepsMeaning e) : ∀ l : List Token, Comm e id (tokenToType l) (tokenToType (l.map e))
  | [] => .ub
  | t :: rest => by
    rw [List.map_cons]
    unfold tokenToType
    rw [show isIdentLike (e t) = isIdentLike t by unfold isIdentLike; rw [(he t).kind], ← (he t).kind]
    split
    · exact (tokName_comm he t).bind fun n => findType_comm n
    · split
      · exact (tokType_comm he rest).bind fun o => .pure _ rfl
      · exact .pure _ rfl

theorem headTok_comm (l : List Token) : Comm e e (headTok l) (headTok (l.map e)) := by
  cases l
  · exact .ub
  · exact .pure _ rfl

/- Expressions. -/

theorem type_eq (a : AExpr) : (relabelAE e a).type = a.type := by cases a <;> simp only [relabelAE, AExpr.type]
theorem isConst_eq (a : AExpr) : (relabelAE e a).isConstExpr = a.isConstExpr := by cases a <;> simp only [relabelAE, AExpr.isConstExpr]
theorem oper_eq (a : AExpr) : (relabelAE e a).oper = a.oper := by cases a <;> simp only [relabelAE, AExpr.oper]
theorem token_eq : ∀ a : AExpr, (relabelAE e a).token = e a.token
  | .ident .. => by simp only [relabelAE, AExpr.token]
  | .const .. => by simp only [relabelAE, AExpr.token]
  | .call .. => by simp only [relabelAE, AExpr.token]
  | .un _ r _ _ => by simp only [relabelAE, AExpr.token, token_eq r]
  | .bin _ l _ _ _ => by simp only [relabelAE, AExpr.token, token_eq l]

theorem findVar_comm (he : KeepsMeaning e) (t : Token) : Comm e id (scopeFindVar t) (scopeFindVar (e t)) := by
  unfold scopeFindVar
  refine (tokName_comm he t).bind fun name => ?_
  refine (lookup_comm name).bind fun o => ?_
  cases o with
  | none => exact .error _ _
  | some id' =>
    refine (symAt_comm id').bind fun sym => ?_
    show Comm e id (match sym.kind with | .var v => _ | .alias => _ | .ns none => _ | .ns (some _) => _ | .func _ => _)
      (match sym.kind with | .var v => _ | .alias => _ | .ns none => _ | .ns (some _) => _ | .func _ => _)
    cases sym.kind with
    | var v =>
      dsimp only
      split
      · exact .pure _ rfl
      · exact .error _ _
    | func _ => exact .ub
    | alias => exact .error _ _
    | ns o =>
      cases o
      · exact .error _ _
      · exact .ub

theorem evalLit_comm (t : Token) (v : Ev α) : Comm e id (evalLit t v) (evalLit (e t) v) := by
  cases v
  case ok => exact .pure _ rfl
  case ub => exact .ub
  all_goals exact .error _ _

theorem const_comm (he : KeepsMeaning e) (cfg : Cfg) (t : Token) : Comm e id (validateConst cfg t) (validateConst cfg (e t)) := by
  have h := he t
  unfold validateConst
  rw [← h.kind]
  split
  · rename_i hk
    rw [← h.int hk]
    exact (evalLit_comm t _).bind fun _ => .pure _ rfl
  · rename_i hk
    rw [← h.float hk]
    exact (evalLit_comm t _).bind fun _ => .pure _ rfl
  · rename_i hk
    rw [← h.bool hk]
    exact .pure _ rfl
  · rename_i hk
    rw [← h.rune hk]
    exact (evalLit_comm t _).bind fun _ => .pure _ rfl
  · rename_i hk
    rw [← h.str hk]
    refine (evalLit_comm t _).bind fun x => ?_
    show Comm e id (toBytes t (x.takeWhile _)) (toBytes (e t) (x.takeWhile _))
    unfold toBytes
    split
    · exact .pure _ rfl
    · exact .error _ _
  · exact .stop

theorem numeric_comm (r : AExpr) (t : Token) : Comm e (fun u => u) (isNumeric r t) (isNumeric (relabelAE e r) (e t)) := by
  unfold isNumeric
  rw [type_eq]
  split
  · exact .pure _ rfl
  · exact .error _ _

theorem restr_comm (he : KeepsMeaning e) (o : Oper) (r : AExpr) (t : Token) :
    Comm e (fun u => u) (validateRestrictions o r t) (validateRestrictions o (relabelAE e r) (e t)) := by
  have hdiv : Comm e (fun u => u) (notDivByZero r) (notDivByZero (relabelAE e r)) := by
    unfold notDivByZero
    cases r with
    | const t v =>
      simp only [relabelAE]
      rw [← (he t).kind]
      split
      · rename_i hk
        rw [← (he t).int hk]
        split
        · split
          · exact .error _ _
          · exact .pure _ rfl
        · exact .ub
        · exact .pure _ rfl
      · exact .pure _ rfl
    | ident | call | un | bin => simp only [relabelAE]; exact .pure _ rfl
  have hpow : Comm e (fun u => u) (validatePow r) (validatePow (relabelAE e r)) := by
    unfold validatePow
    rw [type_eq]
    split
    · exact .errorO _ none
    · exact .pure _ rfl
  unfold validateRestrictions
  split
  all_goals first
    | exact numeric_comm r t
    | exact hdiv.bind fun _ => numeric_comm r t
    | exact hpow.bind fun _ => numeric_comm r t
    | exact .pure _ rfl
    | skip
  all_goals first
    | (rw [type_eq]
       split
       · exact .error _ _
       · exact .pure _ rfl)
    | (rw [oper_eq]
       split
       · exact .error _ _
       · exact .pure _ rfl)
    | skip
  cases r with
  | ident t' id' ty c =>
    simp only [relabelAE, AExpr.type]
    cases ty
    · exact .error _ _
    · exact .pure _ rfl
  | const | call | un | bin => simp only [relabelAE]; exact .error _ _

theorem exprType_comm (o : Oper) (ty : Ty) : Comm e id (exprType o ty) (exprType o ty) := by
  unfold exprType
  split
  all_goals first | exact .pure _ rfl | skip
  cases ty
  · exact .ub
  · exact .pure _ rfl

theorem findFuncTok_comm (he : KeepsMeaning e) (t : Token) : Comm e id (findFuncByToken t) (findFuncByToken (e t)) := by
  unfold findFuncByToken
  refine (tokName_comm he t).bind fun name => ?_
  refine (findFunc_comm name).bind fun o => ?_
  cases o
  · exact .error _ _
  · exact .pure _ rfl

theorem funcAt_comm (id' : Nat) : Comm e id (funcAt id') (funcAt id') := by
  unfold funcAt
  refine (symAt_comm id').bind fun sym => ?_
  show Comm e id (match sym.kind with | .func f => _ | _ => _) (match sym.kind with | .func f => _ | _ => _)
  cases sym.kind
  case func => exact .pure _ rfl
  all_goals exact .ub

theorem varAt_comm (id' : Nat) : Comm e id (varAt id') (varAt id') := by
  unfold varAt
  refine (symAt_comm id').bind fun sym => ?_
  show Comm e id (match sym.kind with | .var f => _ | _ => _) (match sym.kind with | .var f => _ | _ => _)
  cases sym.kind
  case var => exact .pure _ rfl
  all_goals exact .ub

theorem count_comm (f : Func) (name : Token) (ps : Args) (n : Nat) :
    Comm e (fun u => u) (checkCount f name ps n) (checkCount f (e name) (relabelA e ps) n) := by
  unfold checkCount
  split
  · exact .error _ _
  · cases ps with
    | nil => simp only [relabelA]; exact .pure _ rfl
    | cons t x next =>
      simp only [relabelA]
      split
      · exact .error _ _
      · exact .pure _ rfl

theorem fits_comm (b : Bool) : Comm e (fun u => u) (operFits b) (operFits b) := by
  unfold operFits
  split
  · exact .pure _ rfl
  · exact .ub

mutual
theorem expr_comm (he : KeepsMeaning e) (cfg : Cfg) : ∀ x : Expr, Comm e (relabelAE e) (validateExpr cfg x) (validateExpr cfg (relabelE e x))
  | .missing => by simp only [relabelE]; unfold validateExpr; exact .ub
  | .ident t => by
    simp only [relabelE]
    unfold validateExpr
    refine (findVar_comm he t).bind fun p => ?_
    refine Comm.bind (updVar_comm p.1 _) fun _ => .pure _ ?_
    simp only [relabelAE, id]
  | .const t => by
    simp only [relabelE]
    unfold validateExpr
    refine (const_comm he cfg t).bind fun v => .pure _ ?_
    simp only [relabelAE, id]
  | .call name ps n => by
    simp only [relabelE]
    unfold validateExpr
    refine (findFuncTok_comm he name).bind fun id' => ?_
    refine (funcAt_comm id').bind fun f => ?_
    refine (updFunc_comm id' _).bind fun _ => ?_
    refine (count_comm f name ps n).bind fun _ => ?_
    refine (args_comm he cfg f.paramTypes ps).bind fun as => .pure _ ?_
    simp only [relabelAE, id]
  | .un o r => by
    simp only [relabelE]
    unfold validateExpr
    refine (fits_comm _).bind fun _ => ?_
    refine (expr_comm he cfg r).bind fun a => ?_
    rw [token_eq, type_eq, isConst_eq]
    refine (restr_comm he o a _).bind fun _ => ?_
    refine (exprType_comm o a.type).bind fun ty => .pure _ ?_
    simp only [relabelAE, id]
  | .bin o l r => by
    simp only [relabelE]
    unfold validateExpr
    refine (fits_comm _).bind fun _ => ?_
    refine (expr_comm he cfg r).bind fun a => ?_
    refine (expr_comm he cfg l).bind fun b => ?_
    refine Comm.bind (g := fun u => u) ?_ fun _ => ?_
    · unfold sameTypes
      rw [type_eq, type_eq, token_eq]
      split
      · exact .error _ _
      · exact .pure _ rfl
    · rw [token_eq, type_eq, isConst_eq, isConst_eq]
      refine (restr_comm he o a _).bind fun _ => ?_
      refine (exprType_comm o a.type).bind fun ty => .pure _ ?_
      simp only [relabelAE, id]
theorem args_comm (he : KeepsMeaning e) (cfg : Cfg) : ∀ (tys : List Ty) (as : Args),
    Comm e (relabelAA e) (validateArgs cfg tys as) (validateArgs cfg tys (relabelA e as))
  | [], .nil => by simp only [relabelA]; unfold validateArgs; exact .pure _ (by simp only [relabelAA])
  | [], .cons t x next => by simp only [relabelA]; unfold validateArgs; exact .pure _ (by simp only [relabelAA, relabelA])
  | ty :: tys, .nil => by simp only [relabelA]; unfold validateArgs; exact .ub
  | ty :: tys, .cons t x next => by
    simp only [relabelA]
    unfold validateArgs
    refine (expr_comm he cfg x).bind fun a => ?_
    rw [type_eq]
    split
    · exact .error _ _
    · exact (args_comm he cfg tys next).bind fun r => .pure _ (by simp only [relabelAA])
end

/- Statements. -/

theorem warn_comm (cfg : Cfg) (code : Code) (t : Option Token) : Comm e (fun u => u) (warn cfg code t) (warn cfg code (t.map e)) := by
  unfold warn
  refine (Comm.report code t).bind fun _ => ?_
  show Comm e _ (if cfg.werror = true then _ else _) (if cfg.werror = true then _ else _)
  split
  · exact .stop
  · exact .pure _ rfl

theorem sane_comm (t : Tree) : Comm e (fun u => u) (assertSaneChild t) (assertSaneChild (relabel e t)) := by
  cases t with
  | nil => exact .pure _ rfl
  | node st tok tokEnd child next =>
    cases child with
    | nil => simp only [relabel]; unfold assertSaneChild; exact .pure _ rfl
    | node cst ctok ctokEnd cchild cnext =>
      simp only [relabel]
      unfold assertSaneChild
      have herr : Comm e (fun u => u) (headTok ctok >>= fun t => Chk.error .errUnexpectedCodeBlock (some t) : Chk Unit)
          (headTok (ctok.map e) >>= fun t => Chk.error .errUnexpectedCodeBlock (some t)) :=
        (headTok_comm ctok).bind fun _ => .error _ _
      cases st
      case expr x =>
        cases x <;> simp only [relabelS, relabelE]
        case missing => exact .ub
        case call => exact .pure _ rfl
        all_goals exact herr
      all_goals simp only [relabelS]
      all_goals first | exact herr | exact .pure _ rfl

theorem dead_comm : ∀ t : Tree, Comm e (fun u => u) (noDeadCodeBelow t) (noDeadCodeBelow (relabel e t))
  | .nil => .pure _ rfl
  | .node st tok tokEnd child next => by
    simp only [relabel]
    unfold noDeadCodeBelow
    have herr : Comm e (fun u => u) (headTok tok >>= fun t => Chk.error .errUnreachableCode (some t) : Chk Unit)
        (headTok (tok.map e) >>= fun t => Chk.error .errUnreachableCode (some t)) :=
      (headTok_comm tok).bind fun _ => .error _ _
    cases st <;> simp only [relabelS]
    all_goals first | exact herr | exact dead_comm next

theorem missingIf_eq : ∀ l : List Stmt, notMissingIf (l.map (relabelS e)) = notMissingIf l
  | [] => rfl
  | st :: l => by
    rw [List.map_cons]
    cases st <;> simp only [relabelS, notMissingIf]
    exact missingIf_eq l

theorem needIf_comm (before : List Stmt) (tok : List Token) :
    Comm e (fun u => u) (needIf before tok) (needIf (before.map (relabelS e)) (tok.map e)) := by
  unfold needIf
  rw [missingIf_eq]
  split
  · exact .pure _ rfl
  · exact (headTok_comm tok).bind fun _ => .error _ _

theorem needBlock_comm (child : Tree) (tok : List Token) :
    Comm e (fun u => u) (needBlock child tok) (needBlock (relabel e child) (tok.map e)) := by
  unfold needBlock
  cases child <;> simp only [relabel]
  · exact (headTok_comm tok).bind fun _ => .error _ _
  · exact .pure _ rfl

theorem condition_comm (he : KeepsMeaning e) (cfg : Cfg) (x : Expr) :
    Comm e (relabelAE e) (condition cfg x) (condition cfg (relabelE e x)) := by
  unfold condition
  refine (expr_comm he cfg x).bind fun a => ?_
  refine Comm.bind (g := fun u => u) ?_ fun _ => .pure _ rfl
  unfold validateCond
  rw [type_eq, token_eq]
  split
  · exact .error _ _
  · cases a with
    | const t v =>
      cases v
      case bool b => simp only [relabelAE]; exact warn_comm cfg _ (some t)
      all_goals simp only [relabelAE]; exact .pure _ rfl
    | ident | call | un | bin => simp only [relabelAE]; exact .pure _ rfl

theorem optExpr_comm (he : KeepsMeaning e) (cfg : Cfg) (x : Expr) :
    Comm e (Option.map (relabelAE e)) (validateOptExpr cfg x) (validateOptExpr cfg (relabelE e x)) := by
  cases x
  case missing => simp only [relabelE]; unfold validateOptExpr; exact .pure _ rfl
  case ident t =>
    have := expr_comm he cfg (.ident t)
    simp only [relabelE] at this ⊢
    unfold validateOptExpr
    exact this.bind fun a => .pure _ rfl
  case const t =>
    have := expr_comm he cfg (.const t)
    simp only [relabelE] at this ⊢
    unfold validateOptExpr
    exact this.bind fun a => .pure _ rfl
  case call t as n =>
    have := expr_comm he cfg (.call t as n)
    simp only [relabelE] at this ⊢
    unfold validateOptExpr
    exact this.bind fun a => .pure _ rfl
  case un o r =>
    have := expr_comm he cfg (.un o r)
    simp only [relabelE] at this ⊢
    unfold validateOptExpr
    exact this.bind fun a => .pure _ rfl
  case bin o l r =>
    have := expr_comm he cfg (.bin o l r)
    simp only [relabelE] at this ⊢
    unfold validateOptExpr
    exact this.bind fun a => .pure _ rfl

theorem return_comm (he : KeepsMeaning e) (cfg : Cfg) (x : Expr) (tok : List Token) (next : Tree) :
    Comm e (relabelAnn e) (validateReturn cfg x tok next) (validateReturn cfg (relabelE e x) (tok.map e) (relabel e next)) := by
  unfold validateReturn
  refine (sane_comm next).bind fun _ => ?_
  refine (optExpr_comm he cfg x).bind fun o => ?_
  refine Comm.get.bind fun s => ?_
  refine (funcAt_comm s.currentFunc).bind fun f => ?_
  refine Comm.bind (g := fun u => u) ?_ fun _ => (dead_comm next).bind fun _ => .pure _ ?_
  · show Comm e _ (checkReturn (s.currentFunc == 0) f o tok) (checkReturn (s.currentFunc == 0) f (o.map (relabelAE e)) (tok.map e))
    unfold checkReturn
    cases o with
    | none =>
      simp only [Option.map_none]
      split
      · exact (headTok_comm tok).bind fun _ => .error _ _
      · exact .pure _ rfl
    | some a =>
      simp only [Option.map_some]
      rw [type_eq, token_eq]
      split
      · exact .error _ _
      · split
        · exact .error _ _
        · exact .pure _ rfl
  · cases o <;> simp only [Option.map_none, Option.map_some, relabelAnn]

theorem tail_map (l : List Token) : (l.map e).tail = l.tail.map e := List.map_tail.symm

theorem typeExpr_eq (x : Expr) : validateTypeAlias.isTypeExpr (relabelE e x) = validateTypeAlias.isTypeExpr x := by
  cases x <;> simp only [relabelE, validateTypeAlias.isTypeExpr]

theorem alias_comm (he : KeepsMeaning e) (c : Bool) (x : Expr) (tok : List Token) :
    Comm e (fun u => u) (validateTypeAlias c x tok) (validateTypeAlias c (relabelE e x) (tok.map e)) := by
  unfold validateTypeAlias
  rw [typeExpr_eq, tail_map, tail_map]
  split
  · exact (headTok_comm _).bind fun _ => .error _ _
  · split
    · exact (headTok_comm _).bind fun _ => .error _ _
    · refine (tokType_comm he _).bind fun ty => ?_
      refine (headTok_comm tok).bind fun t => ?_
      refine (tokName_comm he t).bind fun n => ?_
      refine (newSym_comm _).bind fun i => ?_
      exact mustAdd_comm i

theorem linkage_comm (cfg : Cfg) (b : Bool) (name : List Char) : Comm e id (linkageName cfg b name) (linkageName cfg b name) := by
  unfold linkageName
  split
  · exact .ofOption
  · exact .pure _ rfl

theorem makeVar_comm (ty : Ty) (name : List Char) (c : Bool) : Comm e id (makeVariable ty name c) (makeVariable ty name c) := by
  unfold makeVariable
  split
  · exact .pure _ rfl
  · exact .ub

theorem compatible_comm (a : AExpr) (ty : Ty) : Comm e (fun u => u) (compatible a ty) (compatible (relabelAE e a) ty) := by
  unfold compatible
  rw [type_eq, token_eq]
  split
  · exact .error _ _
  · exact .pure _ rfl

theorem head?_map (l : List Token) : (l.map e).head? = l.head?.map e := by cases l <;> rfl

theorem toVar_comm (he : KeepsMeaning e) (cfg : Cfg) (name : List Token) (c i x : Bool) (a : AExpr) :
    Comm e id (nodeToVar cfg name c i x a) (nodeToVar cfg (name.map e) c i x (relabelAE e a)) := by
  unfold nodeToVar
  refine Comm.bind (g := fun u => u) ?_ fun _ => ?_
  · unfold notVoidFuncAssign
    cases a <;> simp only [relabelAE]
    case call =>
      split
      · exact .error _ _
      · exact .pure _ rfl
    all_goals exact .pure _ rfl
  · refine Comm.bind (g := id) ?_ fun ty => ?_
    · unfold declaredType
      rw [type_eq, tail_map]
      split
      · exact .pure _ rfl
      · refine (tokType_comm he _).bind fun o => ?_
        cases o
        · rw [head?_map]; exact .errorO _ _
        · exact .pure _ rfl
    · refine (headTok_comm name).bind fun t => ?_
      refine (tokName_comm he t).bind fun n => ?_
      refine (makeVar_comm ty n c).bind fun v => ?_
      refine (linkage_comm cfg x n).bind fun l => ?_
      refine (newSym_comm _).bind fun id' => ?_
      exact (mustAdd_comm id').bind fun _ => .pure _ rfl

theorem var_comm (he : KeepsMeaning e) (cfg : Cfg) (name : List Token) (c i x : Bool) (y : Expr) :
    Comm e (relabelAnn e) (validateVar cfg name c i x y) (validateVar cfg (name.map e) c i x (relabelE e y)) := by
  unfold validateVar
  refine (expr_comm he cfg y).bind fun a => ?_
  refine (toVar_comm he cfg name c i x a).bind fun id' => ?_
  rw [isConst_eq]
  refine (updVar_comm id' _).bind fun _ => ?_
  refine (varAt_comm id').bind fun v => ?_
  refine (compatible_comm a v.type).bind fun _ => ?_
  refine Comm.bind (g := fun u => u) ?_ fun _ => .pure _ (by simp only [relabelAnn, id])
  unfold warnTrivial
  cases a <;> simp only [relabelAE]
  case const =>
    show Comm e _ (if v.implicitlyTyped = true then _ else _) (if v.implicitlyTyped = true then _ else _)
    split
    · exact .pure _ rfl
    · exact warn_comm cfg _ none
  all_goals exact .pure _ rfl

theorem varDef_comm (he : KeepsMeaning e) (cfg : Cfg) (name : List Token) (c i x : Bool) (y : Expr) (tok tokEnd : List Token) :
    Comm e (relabelAnn e) (validateVarDef cfg name c i x y tok tokEnd)
      (validateVarDef cfg (name.map e) c i x (relabelE e y) (tok.map e) (tokEnd.map e)) := by
  unfold validateVarDef
  rw [tail_map]
  refine (tokType_comm he _).bind fun o => ?_
  cases o with
  | some _ => exact (alias_comm he c y tok).bind fun _ => .pure _ rfl
  | none => exact var_comm he cfg name c i x y

theorem assign_comm (he : KeepsMeaning e) (cfg : Cfg) (y : Expr) (tok : List Token) :
    Comm e (relabelAnn e) (validateVarAssign cfg y tok) (validateVarAssign cfg (relabelE e y) (tok.map e)) := by
  unfold validateVarAssign
  refine (headTok_comm tok).bind fun t => ?_
  refine (findVar_comm he t).bind fun p => ?_
  show Comm e _ (if p.2.isConst = true then _ else _) (if p.2.isConst = true then _ else _)
  split
  · exact .error _ _
  · refine (updVar_comm p.1 _).bind fun _ => ?_
    refine (expr_comm he cfg y).bind fun a => ?_
    refine (compatible_comm a p.2.type).bind fun _ => ?_
    refine Comm.bind (g := fun u => u) ?_ fun _ => .pure _ rfl
    unfold notRedundant
    cases a <;> simp only [relabelAE]
    case ident t sym ty c =>
      show Comm e _ (if sym = p.1 then _ else _) (if sym = p.1 then _ else _)
      split
      · exact .error _ _
      · exact .pure _ rfl
    all_goals exact .pure _ rfl

theorem retType_comm (he : KeepsMeaning e) (o : Option (List Token)) :
    Comm e id (validateReturnType o) (validateReturnType (o.map (List.map e))) := by
  cases o with
  | none => exact .pure _ rfl
  | some l =>
    simp only [Option.map_some]
    unfold validateReturnType
    refine (tokType_comm he l).bind fun o => ?_
    cases o
    · rw [head?_map]; exact .errorO _ _
    · exact .pure _ rfl

theorem params_comm (he : KeepsMeaning e) (b : Bool) : ∀ ps : List Param,
    Comm e id (validateParams b ps) (validateParams b (ps.map (relabelParam e)))
  | [] => .pure _ rfl
  | p :: ps => by
    rw [List.map_cons]
    unfold validateParams
    simp only [relabelParam]
    refine (tokType_comm he p.type).bind fun o => ?_
    cases o with
    | none =>
      dsimp only [id]
      rw [head?_map]; exact .errorO _ _
    | some ty =>
      refine (tokName_comm he p.name).bind fun n => ?_
      refine (makeVar_comm ty n true).bind fun v => ?_
      refine (newSym_comm _).bind fun id' => ?_
      refine (addVar_comm id').bind fun b' => ?_
      show Comm e _ (if b' = true then _ else _) (if b' = true then _ else _)
      split
      · exact (params_comm he b ps).bind fun r => .pure _ rfl
      · exact .error _ _

theorem funcParams_comm (he : KeepsMeaning e) (p : FuncProto) (id' : Nat) :
    Comm e id (validateFuncParams p id') (validateFuncParams (relabelProto e p) id') := by
  unfold validateFuncParams
  show Comm e id _ (if p.numParams = 0 then _ else _)
  split
  · exact .pure _ rfl
  · refine makeChild_comm.bind fun _ => ?_
    have hp : ((relabelProto e p).params.take (relabelProto e p).numParams) = (p.params.take p.numParams).map (relabelParam e) := by
      simp only [relabelProto, List.map_take]
    rw [hp]
    refine (params_comm he p.isExternal _).bind fun ps => ?_
    refine (updFunc_comm id' _).bind fun _ => ?_
    exact restore_comm.bind fun _ => .pure _ rfl

theorem func_comm (he : KeepsMeaning e) (cfg : Cfg) (p : FuncProto) :
    Comm e id (validateFuncDecl cfg p) (validateFuncDecl cfg (relabelProto e p)) := by
  unfold validateFuncDecl
  refine Comm.bind (g := fun u => u) ?_ fun _ => ?_
  · unfold notNested
    refine isTop_comm.bind fun top => ?_
    show Comm e _ (if ((p.isExport || p.isExternal) && !top) = true then _ else _) (if ((p.isExport || p.isExternal) && !top) = true then _ else _)
    split
    · exact .error _ _
    · exact .pure _ rfl
  · refine (retType_comm he p.returnType).bind fun ret => ?_
    refine (tokName_comm he p.name).bind fun n => ?_
    refine (linkage_comm cfg p.isExport n).bind fun l => ?_
    refine (newSym_comm _).bind fun id' => ?_
    refine Comm.bind (g := fun u => u) (fun _ => rfl) fun _ => ?_
    refine (mustAdd_comm id').bind fun _ => ?_
    exact (funcParams_comm he p id').bind fun ps => .pure _ rfl

theorem returns_eq : ∀ t : Tree, returnsValue (relabel e t) = returnsValue t
  | .nil => rfl
  | .node st tok tokEnd child next => by
    simp only [relabel]
    unfold returnsValue
    cases st
    case ret x => cases x <;> simp only [relabelS, relabelE]
    all_goals simp only [relabelS]
    all_goals exact returns_eq next

theorem post_comm (child : Tree) : Comm e (fun u => u) (postValidateFunc child) (postValidateFunc (relabel e child)) := by
  unfold postValidateFunc
  refine Comm.get.bind fun s => ?_
  refine (funcAt_comm s.currentFunc).bind fun f => ?_
  show Comm e _ (if f.isExternal = true then _ else _) (if f.isExternal = true then _ else _)
  split
  · exact .pure _ rfl
  · refine Comm.bind (g := fun u => u) ?_ fun _ => fun s => ?_
    · show Comm e _ (checkReturns f child) (checkReturns f (relabel e child))
      unfold checkReturns
      rw [returns_eq]
      split
      · exact .errorO _ none
      · split
        · exact .errorO _ none
        · exact .pure _ rfl
    · unfold leaveFunc
      obtain ⟨_, _, _, _, lf, _, _⟩ := s
      cases lf <;> rfl

theorem import_comm (he : KeepsMeaning e) (cfg : Cfg) (tok : List Token) :
    Comm e (fun u => u) (validateImport cfg tok) (validateImport cfg (tok.map e)) := by
  unfold validateImport
  rw [tail_map]
  refine (headTok_comm _).bind fun t => ?_
  refine (tokName_comm he t).bind fun n => ?_
  dsimp only [id]
  split
  · exact .errorO _ none
  · split
    · exact .errorO _ none
    · exact .pure _ rfl

theorem depth_comm (d : Nat) : Comm e (fun u => u) (setDepth d) (setDepth d) := fun _ => rfl

theorem namespace_comm (he : KeepsMeaning e) (tok : List Token) : Comm e id (declareNamespace tok) (declareNamespace (tok.map e)) := by
  unfold declareNamespace
  rw [tail_map]
  refine (headTok_comm _).bind fun t => ?_
  refine (tokName_comm he t).bind fun n => ?_
  refine (newSym_comm _).bind fun id' => ?_
  exact (mustAdd_comm id').bind fun _ => .pure _ rfl

theorem closeNs_comm (id' : Nat) : Comm e (fun u => u) (closeNamespace id') (closeNamespace id') := fun s => by
  unfold closeNamespace
  show (match blockScope s with | none => _ | some scope => _) = _
  cases blockScope s with
  | none => rfl
  | some sc =>
    exact updSym_comm (e := e) (f := fun sym => { sym with kind := .ns sc }) (f' := fun sym => { sym with kind := .ns sc }) id' (fun _ => rfl) s

theorem jump_comm (code : Code) (tok : List Token) (next : Tree) :
    Comm e (fun u => u) (validateJump code tok next) (validateJump code (tok.map e) (relabel e next)) := by
  unfold validateJump
  refine Comm.get.bind fun s => ?_
  show Comm e _ (if s.whileDepth > 0 then _ else _) (if s.whileDepth > 0 then _ else _)
  split
  · exact dead_comm next
  · exact (headTok_comm tok).bind fun _ => .error _ _

theorem block_comm {m m' : Chk ATree} (h : Comm e (relabelAT e) m m') : Comm e (relabelAT e) (block m) (block m') := by
  unfold block
  refine makeChild_comm.bind fun _ => h.bind fun r => ?_
  exact resetHead_comm.bind fun _ => restore_comm.bind fun _ => makeAdjacent_comm.bind fun _ => .pure _ rfl

/-- What a statement gives, with other tokens. -/
def relabelPair (e : Token → Token) (p : Ann × ATree) : Ann × ATree := (relabelAnn e p.1, relabelAT e p.2)

theorem stmt_comm (he : KeepsMeaning e) (cfg : Cfg) (before : List Stmt) (st : Stmt) (tok tokEnd : List Token) (child next : Tree)
    {m m' : Chk ATree} (h : Comm e (relabelAT e) m m') :
    Comm e (relabelPair e) (validateStmt cfg before st tok tokEnd child next m)
      (validateStmt cfg (before.map (relabelS e)) (relabelS e st) (tok.map e) (tokEnd.map e) (relabel e child) (relabel e next) m') := by
  cases st
  case ret x =>
    simp only [relabelS, validateStmt]
    exact (return_comm he cfg x tok next).bind fun a => .pure _ rfl
  case unreachable =>
    simp only [relabelS, validateStmt]
    exact (dead_comm next).bind fun _ => .pure _ rfl
  case funcProto p =>
    simp only [relabelS, validateStmt]
    refine Comm.get.bind fun s => ?_
    refine (depth_comm 0).bind fun _ => ?_
    refine (func_comm he cfg p).bind fun r => ?_
    refine (block_comm h).bind fun body => ?_
    refine (post_comm child).bind fun _ => ?_
    exact (depth_comm s.whileDepth).bind fun _ => .pure _ rfl
  case varDef name c i x y =>
    simp only [relabelS, validateStmt]
    exact (varDef_comm he cfg name c i x y tok tokEnd).bind fun a => .pure _ rfl
  case varAssign x =>
    simp only [relabelS, validateStmt]
    exact (assign_comm he cfg x tok).bind fun a => .pure _ rfl
  case expr x =>
    have herr : Comm e (relabelPair e) (headTok tok >>= fun t => Chk.error .errNoDanglingExpr (some t) : Chk (Ann × ATree))
        (headTok (tok.map e) >>= fun t => Chk.error .errNoDanglingExpr (some t)) :=
      (headTok_comm tok).bind fun _ => .error _ _
    cases x
    case missing => simp only [relabelS, relabelE, validateStmt]; exact .ub
    case call name ps n =>
      have hc := expr_comm he cfg (.call name ps n)
      simp only [relabelE] at hc
      simp only [relabelS, relabelE, validateStmt]
      refine hc.bind fun a => .pure _ ?_
      simp only [relabelPair, relabelAnn]
      cases child <;> simp only [leaveAlone, relabel, relabelAT]
    all_goals simp only [relabelS, relabelE, validateStmt]; exact herr
  case ifs c =>
    simp only [relabelS, validateStmt]
    refine (needBlock_comm child tok).bind fun _ => ?_
    refine (condition_comm he cfg c).bind fun a => ?_
    exact (block_comm h).bind fun body => .pure _ rfl
  case elses =>
    simp only [relabelS, validateStmt]
    refine (needIf_comm before tok).bind fun _ => ?_
    refine (needBlock_comm child tok).bind fun _ => ?_
    exact (block_comm h).bind fun body => .pure _ rfl
  case elifs c =>
    simp only [relabelS, validateStmt]
    refine (needBlock_comm child tok).bind fun _ => ?_
    refine (needIf_comm before tok).bind fun _ => ?_
    refine (condition_comm he cfg c).bind fun a => ?_
    exact (block_comm h).bind fun body => .pure _ rfl
  case whiles c =>
    simp only [relabelS, validateStmt]
    refine Comm.get.bind fun s => ?_
    refine (depth_comm _).bind fun _ => ?_
    refine (needBlock_comm child tok).bind fun _ => ?_
    refine (condition_comm he cfg c).bind fun a => ?_
    refine (block_comm h).bind fun body => ?_
    refine Comm.get.bind fun s => ?_
    exact (depth_comm _).bind fun _ => .pure _ rfl
  case breaks =>
    simp only [relabelS, validateStmt]
    exact (jump_comm _ tok next).bind fun _ => .pure _ rfl
  case continues =>
    simp only [relabelS, validateStmt]
    exact (jump_comm _ tok next).bind fun _ => .pure _ rfl
  case namespaces =>
    simp only [relabelS, validateStmt]
    refine (namespace_comm he tok).bind fun id' => ?_
    refine (block_comm h).bind fun body => ?_
    exact (closeNs_comm id').bind fun _ => .pure _ rfl
  case imports =>
    simp only [relabelS, validateStmt]
    exact (import_comm he cfg tok).bind fun _ => .pure _ rfl
  all_goals simp only [relabelS, validateStmt]; exact .pure _ rfl

theorem nodes_comm (he : KeepsMeaning e) (cfg : Cfg) : ∀ (t : Tree) (before : List Stmt),
    Comm e (relabelAT e) (validateNodes cfg before t) (validateNodes cfg (before.map (relabelS e)) (relabel e t))
  | .nil, _ => by simp only [relabel]; unfold validateNodes; exact .pure _ rfl
  | .node st tok tokEnd child next, before => by
    have hs := sane_comm (e := e) (.node st tok tokEnd child next)
    simp only [relabel] at hs ⊢
    unfold validateNodes
    refine hs.bind fun _ => ?_
    refine (stmt_comm he cfg before st tok tokEnd child next (nodes_comm he cfg child [])).bind fun r => ?_
    exact (nodes_comm he cfg next (st :: before)).bind fun rest => .pure _ (by simp only [relabelAT, relabelPair])

/- Unused symbols. -/

theorem unchecked_eq : ∀ t : Tree, unusedUnchecked (relabel e t) = unusedUnchecked t
  | .nil => rfl
  | .node st tok tokEnd child next => by
    simp only [relabel]
    unfold unusedUnchecked
    cases st <;> simp only [relabelS, unchecked_eq child, unchecked_eq next]

theorem warnIf_comm (cfg : Cfg) (c err : Bool) (code : Code) (t : Option Token) :
    Comm e id (warnIf cfg c err code t) (warnIf cfg c err code (t.map e)) := by
  unfold warnIf
  split
  · exact (Comm.report code t).bind fun _ => .pure _ rfl
  · exact .pure _ rfl

theorem unusedSym_comm (cfg : Cfg) (err : Bool) (sym : Symbol) :
    Comm e id (unusedSym cfg err sym) (unusedSym cfg err (relabelSym e sym)) := by
  unfold unusedSym
  show Comm e id _ (match sym.kind with | .var v => _ | .func f => _ | _ => _)
  cases sym.kind with
  | var v => exact (warnIf_comm cfg _ err _ sym.loc).bind fun _ => warnIf_comm cfg _ _ _ sym.loc
  | func f => exact warnIf_comm cfg _ err _ sym.loc
  | alias => exact .ub
  | ns _ => exact .ub

theorem unused_comm (cfg : Cfg) : ∀ (a : ATree) (err : Bool), Comm e id (checkUnused cfg err a) (checkUnused cfg err (relabelAT e a))
  | .nil, err => .pure _ rfl
  | .unchecked t, err => by
    simp only [relabelAT]
    unfold checkUnused
    rw [unchecked_eq]
    split
    · exact .pure _ rfl
    · exact .ub
  | .node ann st tok child next, err => by
    have hsym : ∀ id', Comm e id (symAt id' >>= fun sym => unusedSym cfg err sym >>= fun err => checkUnused cfg err next)
        (symAt id' >>= fun sym => unusedSym cfg err sym >>= fun err => checkUnused cfg err (relabelAT e next)) := fun id' =>
      (symAt_comm id').bind fun sym => (unusedSym_comm cfg err sym).bind fun err' => unused_comm cfg next err'
    have hin : Comm e id (checkUnused cfg false child >>= fun inner => checkUnused cfg (err && !inner) next)
        (checkUnused cfg false (relabelAT e child) >>= fun inner => checkUnused cfg (err && !inner) (relabelAT e next)) :=
      (unused_comm cfg child false).bind fun inner => unused_comm cfg next _
    cases ann
    case varDef id' x => simp only [relabelAT, relabelAnn]; unfold checkUnused; exact hsym id'
    case func id' ps => simp only [relabelAT, relabelAnn]; unfold checkUnused; exact hsym id'
    all_goals
      cases child <;> simp only [relabelAT, relabelAnn] at hin ⊢ <;> unfold checkUnused
      case nil => exact unused_comm cfg next err
      all_goals exact hin

/-- The whole check. -/
theorem semantic_eq (he : KeepsMeaning e) (cfg : Cfg) (t : Tree) : semantic cfg (relabel e t) = relabelSRes e (semantic cfg t) := by
  unfold semantic
  cases h : setupState cfg with
  | none => rfl
  | some s =>
    have hs : relabelSS e s = s := by
      unfold setupState at h
      obtain ⟨n, _, rfl⟩ := Option.map_eq_some_iff.1 h
      rfl
    have hc : Comm e (relabelAT e) (validateAstTree cfg t) (validateAstTree cfg (relabel e t)) := by
      unfold validateAstTree
      refine (nodes_comm he cfg t []).bind fun a => ?_
      refine resetHead_comm.bind fun _ => resetHead_comm.bind fun _ => ?_
      show Comm e _ (if cfg.quiet = true then _ else _) (if cfg.quiet = true then _ else _)
      split
      · exact .pure _ rfl
      · refine (unused_comm cfg a false).bind fun err => ?_
        show Comm e _ (if err = true then _ else _) (if err = true then _ else _)
        split
        · exact .stop
        · exact .pure _ rfl
    have := hc s
    rw [hs] at this
    dsimp only
    rw [this]
    cases validateAstTree cfg t s <;> rfl

end Skull.Reform
