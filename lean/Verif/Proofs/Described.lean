import Verif.Proofs.DebugTree
/-
Which variables are described.
-/
namespace Skull.DInfo
open Spec

/- ### Steps that describe nothing -/

/-- The current function and what is global stay. -/
def LStill (m : LGen α) : Prop := ∀ s a s', m s = some (a, s') → s'.currentFunc = s.currentFunc ∧ s'.isGlobal = s.isGlobal

theorem LStill.pure (a : α) : LStill (Pure.pure a : LGen α) := by intro s b s' h; cases h; exact ⟨rfl, rfl⟩
theorem LStill.ub : LStill (LGen.ub : LGen α) := by intro s b s' h; cases h
theorem LStill.get : LStill LGen.get := by intro s b s' h; cases h; exact ⟨rfl, rfl⟩
theorem LStill.ofOption (o : Option α) : LStill (LGen.ofOption o) := by
  cases o
  · exact .ub
  · exact .pure _
theorem LStill.bind {m : LGen α} {f : α → LGen β} (hm : LStill m) (hf : ∀ a, LStill (f a)) : LStill (m >>= f) := by
  intro s b s' h
  obtain ⟨a, s1, h1, h2⟩ := LGen.bind_eq.1 h
  obtain ⟨e1, e2⟩ := hm _ _ _ h1
  obtain ⟨e3, e4⟩ := hf _ _ _ _ h2
  exact ⟨e3.trans e1, e4.trans e2⟩
theorem LStill.ite {c : Prop} [Decidable c] {m m' : LGen α} (h : LStill m) (h' : LStill m') : LStill (if c then m else m') := by
  split
  · exact h
  · exact h'
theorem LStill.emit (i : LInstr) : LStill (Skull.emit i) := by intro s b s' h; cases h; exact ⟨rfl, rfl⟩
theorem LStill.newReg : LStill Skull.newReg := by intro s b s' h; cases h; exact ⟨rfl, rfl⟩
theorem LStill.positionAt (f b : Nat) : LStill (Skull.positionAt f b) := by intro s b s' h; cases h; exact ⟨rfl, rfl⟩
theorem LStill.appendBlock (f : Nat) : LStill (Skull.appendBlock f) := by
  intro s b s' h
  unfold Skull.appendBlock at h
  split at h
  · cases h; exact ⟨rfl, rfl⟩
  · cases h
theorem LStill.currentRef : LStill Skull.currentRef := .bind .get fun _ => .ofOption _

variable {cfg : LCfg}

theorem LStill.buildBin (op a b) : LStill (buildBin cfg op a b) := by
  unfold Skull.buildBin
  split
  · exact .pure _
  · exact .bind .newReg fun _ => .bind (.emit _) fun _ => .pure _
theorem LStill.buildLoad (ty p) : LStill (buildLoad ty p) := .bind .newReg fun _ => .bind (.emit _) fun _ => .pure _
theorem LStill.buildBuiltin (f a b) : LStill (buildBuiltin f a b) := .bind .newReg fun _ => .bind (.emit _) fun _ => .pure _
theorem LStill.math (i f ty a b) : LStill (mathL cfg i f ty a b) :=
  .ite (.bind (.buildBin _ _ _) fun _ => .pure _) (.ite (.bind (.buildBin _ _ _) fun _ => .pure _) .ub)
theorem LStill.shift (o ty a b) : LStill (shiftL cfg o ty a b) := .ite (.bind (.buildBin _ _ _) fun _ => .pure _) .ub
theorem LStill.pow (ty a b) : LStill (powL ty a b) :=
  .ite (.bind (.buildBuiltin _ _ _) fun _ => .pure _) (.ite (.bind (.buildBuiltin _ _ _) fun _ => .pure _) .ub)
theorem LStill.is (ty a b) : LStill (isL cfg ty a b) :=
  .ite (.bind (.buildBin _ _ _) fun _ => .pure _) (.ite (.bind (.buildBin _ _ _) fun _ => .pure _)
    (.ite (.bind (.buildBuiltin _ _ _) fun _ => .pure _) .ub))
theorem LStill.rel (i f ty a b) : LStill (relL cfg i f ty a b) :=
  .ite (.bind (.buildBin _ _ _) fun _ => .pure _) (.ite (.bind (.buildBin _ _ _) fun _ => .pure _) .ub)
theorem LStill.logic (o ty a b) : LStill (logicL cfg o ty a b) := .bind (.buildBin _ _ _) fun _ => .pure _
theorem LStill.bin (o ty a b) : LStill (binL cfg o ty a b) := by
  cases o <;> first
    | exact .math _ _ _ _ _ | exact .shift _ _ _ _ | exact .pow _ _ _ | exact .is _ _ _ | exact .rel _ _ _ _ _ | exact .logic _ _ _ _
    | exact .bind (.is _ _ _) fun _ => .bind (.buildBin _ _ _) fun _ => .pure _ | exact .ub
theorem LStill.un (o e) : LStill (unL cfg o e) := by
  cases o <;> first | exact .math _ _ _ _ _ | exact .bind (.buildBin _ _ _) fun _ => .pure _ | exact .ub
theorem LStill.ident (id) : LStill (identL cfg id) :=
  .bind (.ofOption _) fun _ => .bind .get fun _ => .bind (.ofOption _) fun _ => .ite (.bind (.buildLoad _ _) fun _ => .pure _) (.pure _)
theorem LStill.addr (o e) : LStill (addrL cfg o e) := by
  unfold addrL
  split
  · refine .ite ?_ ?_
    · exact .bind (.ofOption _) fun _ => .bind .get fun _ => .bind (.ofOption _) fun _ => .pure _
    · exact .bind (.ofOption _) fun _ => .bind .get fun _ => .bind (.ofOption _) fun _ => .bind (.ofOption _) fun _ => .bind (.buildLoad _ _) fun _ =>
        .bind (.buildLoad _ _) fun _ => .pure _
  · exact .ub
theorem LStill.call (id as) : LStill (callL cfg id as) :=
  .bind (.ofOption _) fun _ => .bind .get fun _ => .bind (.ofOption _) fun _ => .bind .newReg fun _ => .bind (.emit _) fun _ => .pure _
theorem LStill.noop : LStill (noopL cfg) := .ite (.bind .newReg fun _ => .bind (.emit _) fun _ => .emit _) (.pure _)
theorem LStill.refs (f : LState → Nat → Option LVal) : LStill (LGen.modify fun s => { s with refs := f s }) := by
  intro s b s' h; cases h; exact ⟨rfl, rfl⟩
theorem LStill.loop (x y : Option Nat) : LStill (LGen.modify fun s => { s with whileCond := x, whileEnd := y }) := by
  intro s b s' h; cases h; exact ⟨rfl, rfl⟩
theorem LStill.spill : ∀ ps, LStill (spillParams cfg ps)
  | [] => .pure _
  | id :: ps => by
    refine .bind ?_ fun _ => LStill.spill ps
    refine .bind (.ofOption _) fun _ => .bind .get fun _ => .bind (.ofOption _) fun _ => .bind .newReg fun _ => .bind (.emit _) fun _ => .bind (.emit _) fun _ => ?_
    intro s b s' h; cases h; exact ⟨rfl, rfl⟩
theorem LStill.addFunc (sym f id) : LStill (addFuncL sym f id) := by intro s b s' h; cases h; exact ⟨rfl, rfl⟩

/-- The same, and nothing is described. -/
def Still (m : DGen α) : Prop := ∀ s a s', m s = some (a, s') →
  s'.l.currentFunc = s.l.currentFunc ∧ s'.l.isGlobal = s.l.isGlobal ∧ s'.vars = s.vars ∧ s'.globals = s.globals

theorem dbind_eq {m : DGen α} {f : α → DGen β} {s r} : (m >>= f) s = some r ↔ ∃ a s1, m s = some (a, s1) ∧ f a s1 = some r := by
  show DGen.bind m f s = some r ↔ _
  unfold DGen.bind
  constructor
  · intro h
    split at h
    · rename_i a s1 h1; exact ⟨a, s1, h1, h⟩
    · cases h
  · rintro ⟨a, s1, h1, h2⟩; rw [h1]; exact h2

theorem Still.lift {m : LGen α} (h : LStill m) : Still (DGen.lift m) := by
  intro s a s' e
  unfold DGen.lift at e
  obtain ⟨⟨b, l⟩, h1, h2⟩ := Option.map_eq_some_iff.1 e
  cases h2
  exact ⟨(h _ _ _ h1).1, (h _ _ _ h1).2, rfl, rfl⟩
theorem Still.pure (a : α) : Still (Pure.pure a : DGen α) := by intro s b s' h; cases h; exact ⟨rfl, rfl, rfl, rfl⟩
theorem Still.ub : Still (DGen.ub : DGen α) := by intro s b s' h; cases h
theorem Still.get : Still DGen.get := by intro s b s' h; cases h; exact ⟨rfl, rfl, rfl, rfl⟩
theorem Still.bind {m : DGen α} {f : α → DGen β} (hm : Still m) (hf : ∀ a, Still (f a)) : Still (m >>= f) := by
  intro s b s' h
  obtain ⟨a, s1, h1, h2⟩ := dbind_eq.1 h
  obtain ⟨e1, e2, e3, e4⟩ := hm _ _ _ h1
  obtain ⟨f1, f2, f3, f4⟩ := hf _ _ _ _ h2
  exact ⟨f1.trans e1, f2.trans e2, f3.trans e3, f4.trans e4⟩
theorem Still.ite {c : Prop} [Decidable c] {m m' : DGen α} (h : Still m) (h' : Still m') : Still (if c then m else m') := by
  split
  · exact h
  · exact h'
theorem Still.setLoc (i p) : Still (setLoc i p) := by intro s b s' h; cases h; exact ⟨rfl, rfl, rfl, rfl⟩
theorem Still.locVal (v p) : Still (locVal cfg v p) := by
  refine .ite ?_ (.pure _)
  cases v <;> first | exact .setLoc _ _ | exact .ub
theorem Still.locLast (p) : Still (locLast cfg p) := by
  refine .ite (.bind .get fun s => ?_) (.pure _)
  split
  · exact .setLoc _ _
  · exact .ub
theorem Still.forStmt (a t) : Still (forStmt a t) := by intro s b s' h; cases h; exact ⟨rfl, rfl, rfl, rfl⟩
theorem Still.nodePos (t) : Still (nodePos t) := by
  cases t
  · exact .ub
  · exact .pure _
theorem Still.scope (f : DState → DScope) : Still (DGen.modify fun s => { s with scope := f s }) := by
  intro s b s' h; cases h; exact ⟨rfl, rfl, rfl, rfl⟩

mutual
theorem still_expr : ∀ e, Still (exprD cfg e)
  | .ident _ id _ _ => by simp only [exprD]; exact .lift (.ident _)
  | .const _ v => by simp only [exprD]; exact .pure _
  | .call t as id _ => by
    simp only [exprD]
    exact .bind (.lift (.ofOption _)) fun f => .bind (still_args _ as) fun _ => .bind (.lift (.call _ _)) fun _ => .bind (.locVal _ _) fun _ => .pure _
  | .un o r _ _ => by
    simp only [exprD]
    exact .ite (.lift (.addr _ _)) (.bind (still_expr r) fun _ => .lift (.un _ _))
  | .bin o l r _ _ => by
    simp only [exprD]
    exact .bind (still_expr l) fun _ => .bind (still_expr r) fun _ => .lift (.bin _ _ _ _)
theorem still_args : ∀ n as, Still (argsD cfg n as)
  | 0, _ => by simp only [argsD]; exact .pure _
  | n + 1, .cons _ e next => by
    simp only [argsD]
    exact .bind (still_expr e) fun _ => .bind (still_args n next) fun _ => .pure _
  | n + 1, .nil => by simp only [argsD]; exact .ub
  | n + 1, .unchecked _ => by simp only [argsD]; exact .ub
end

theorem still_branch (e t f) : Still (branchD cfg e t f) :=
  .bind (.forStmt _ _) fun _ => .bind (still_expr e) fun _ => .bind (.locVal _ _) fun _ => .lift (.emit _)

theorem still_assign (id v) : Still (assignD cfg id v) :=
  .bind (.lift (.ofOption _)) fun _ => .bind (.lift .get) fun _ => .ite (.lift (.refs _)) (.bind (.lift (.ofOption _)) fun _ => .bind (.lift (.emit _)) fun _ =>
    .locLast _)

theorem still_emitAt (i tok) : Still (emitAt cfg i tok) :=
  .bind (.lift (.emit _)) fun _ => .ite (.bind (.nodePos _) fun _ => .locLast _) (.pure _)

theorem still_noop (tok) : Still (noopD cfg tok) :=
  .bind (.lift .noop) fun _ => .ite (.bind (.nodePos _) fun _ => .locLast _) (.pure _)

theorem still_close (m) : Still (closeIfD cfg m) := by
  cases m
  · exact .pure _
  · exact .bind (.lift (.positionAt _ _)) fun _ => .bind (still_branch _ _ _) fun _ => .lift (.positionAt _ _)

theorem still_next (e f x y) : Still (nextIfD cfg e f x y) :=
  .bind (.lift (.positionAt _ _)) fun _ => .bind (.lift (.appendBlock _)) fun _ => .bind (still_branch _ _ _) fun _ => .pure _

/- ### Steps that describe variables -/

/-- In the function `cf`, variables of functions are described at the lines `ls`, and others at the lines `gs`. -/
def Adds (cf : Nat) (m : DGen α) (ls gs : List Nat) : Prop := ∀ s a s', m s = some (a, s') → s.l.currentFunc = cf →
  s'.l.currentFunc = cf ∧ s'.vars.map (·.line) = s.vars.map (·.line) ++ ls ∧ s'.globals.map (·.2) = s.globals.map (·.2) ++ gs

variable {cf : Nat}

theorem Still.adds {m : DGen α} (h : Still m) : Adds cf m [] [] := by
  intro s a s' e hc
  obtain ⟨e1, _, e3, e4⟩ := h _ _ _ e
  rw [e1, e3, e4, List.append_nil, List.append_nil]
  exact ⟨hc, rfl, rfl⟩

theorem Adds.ub {ls gs} : Adds cf (DGen.ub : DGen α) ls gs := by intro s b s' h; cases h

theorem Adds.never {m : DGen α} {f : α → DGen β} {ls gs} (h : ∀ s, m s = none) : Adds cf (m >>= f) ls gs := by
  intro s b s' e
  obtain ⟨a, s1, h1, _⟩ := dbind_eq.1 e
  rw [h] at h1
  cases h1

theorem Adds.bind {m : DGen α} {f : α → DGen β} {ls gs ls' gs'} (hm : Adds cf m ls gs) (hf : ∀ a, Adds cf (f a) ls' gs') :
    Adds cf (m >>= f) (ls ++ ls') (gs ++ gs') := by
  intro s b s' h hc
  obtain ⟨a, s1, h1, h2⟩ := dbind_eq.1 h
  obtain ⟨e1, e2, e3⟩ := hm _ _ _ h1 hc
  obtain ⟨f1, f2, f3⟩ := hf _ _ _ _ h2 e1
  exact ⟨f1, by rw [f2, e2, List.append_assoc], by rw [f3, e3, List.append_assoc]⟩

theorem Adds.first {m : DGen α} {f : α → DGen β} {ls gs} (hm : Still m) (hf : ∀ a, Adds cf (f a) ls gs) : Adds cf (m >>= f) ls gs := .bind hm.adds hf

theorem Adds.then {m : DGen α} {f : α → DGen β} {ls gs} (hm : Adds cf m ls gs) (hf : ∀ a, Still (f a)) : Adds cf (m >>= f) ls gs := by
  have := Adds.bind hm fun a => (hf a).adds (cf := cf)
  rwa [List.append_nil, List.append_nil] at this

theorem symPos_line (id : Nat) : (symPos cfg id).line = lineOf cfg.syms id := by
  unfold symPos lineOf
  cases h : cfg.syms[id]? with
  | none => rfl
  | some sym => cases h' : sym.loc <;> simp [h', Token.pos]

theorem adds_describe (hd : cfg.debug = true) {id : Nat} {s s' : DState} {g : Bool} (hg : s.l.isGlobal id = g) (h : describe cfg id s = some ((), s')) :
    s'.l.currentFunc = s.l.currentFunc ∧ s'.vars.map (·.line) = s.vars.map (·.line) ++ (if g then [] else [lineOf cfg.syms id]) ∧
      s'.globals.map (·.2) = s.globals.map (·.2) ++ (if g then [lineOf cfg.syms id] else []) := by
  unfold describe at h
  rw [hd, if_pos rfl] at h
  obtain ⟨s1, s2, h1, h⟩ := dbind_eq.1 h
  cases h1
  rw [hg] at h
  cases g with
  | true =>
    rw [if_pos rfl] at h
    rcases hr : s.l.refs id with _ | v
    · rw [hr] at h; cases h
    · cases v <;> rw [hr] at h <;> first
        | (cases h; exact ⟨rfl, by simp, by simp [symPos_line]⟩)
        | cases h
  | false =>
    rw [if_neg (by simp)] at h
    cases h
    refine ⟨rfl, by simp [symPos_line], by simp⟩

theorem adds_setup (hd : cfg.debug = true) (id : Nat) (v : LVal) :
    Adds cf (setupVarD cfg id v) (if cf = 0 then [] else [lineOf cfg.syms id]) (if cf = 0 then [lineOf cfg.syms id] else []) := by
  intro s a s' h hc
  unfold setupVarD at h
  obtain ⟨var, s1, h1, h⟩ := dbind_eq.1 h
  obtain ⟨a1, a2, a3, a4⟩ := (Still.lift (LStill.ofOption _)) _ _ _ h1
  obtain ⟨l, s2, h2, h⟩ := dbind_eq.1 h
  have hl : l = s1.l ∧ s2 = s1 := by cases h2; exact ⟨rfl, rfl⟩
  obtain ⟨rfl, rfl⟩ := hl
  have hcl : s2.l.currentFunc = cf := a1.trans hc
  by_cases h0 : cf = 0
  · rw [if_pos (hcl.trans h0)] at h
    obtain ⟨_, s3, h3, h⟩ := dbind_eq.1 h
    have key : s3.l.isGlobal id = true ∧ s3.l.currentFunc = s2.l.currentFunc ∧ s3.vars = s2.vars ∧ s3.globals = s2.globals := by
      unfold globalVarD at h3
      obtain ⟨_, s4, h4, h3⟩ := dbind_eq.1 h3
      cases h4
      obtain ⟨b1, b2, b3, b4⟩ := Still.ite (.pure _) (still_assign _ _) _ _ _ h3
      refine ⟨by rw [b2]; simp, b1, b3, b4⟩
    obtain ⟨k1, k2, k3, k4⟩ := key
    obtain ⟨c1, c2, c3⟩ := adds_describe hd k1 h
    rw [c2, c3, k3, k4, a3, a4]
    simp only [h0, if_true]
    exact ⟨c1.trans (k2.trans (hcl.trans h0)), trivial, trivial⟩
  · rw [if_neg (by rw [hcl]; exact h0)] at h
    obtain ⟨_, s3, h3, h⟩ := dbind_eq.1 h
    have key : s3.l.isGlobal id = false ∧ s3.l.currentFunc = s2.l.currentFunc ∧ s3.vars = s2.vars ∧ s3.globals = s2.globals := by
      unfold localVarD at h3
      obtain ⟨_, s4, h4, h3⟩ := dbind_eq.1 h3
      cases h4
      obtain ⟨b1, b2, b3, b4⟩ := Still.bind (.lift .get) (fun _ => .ite (still_assign _ _) (.bind (.lift .newReg) fun _ => .bind (.lift (.emit _)) fun _ =>
        .bind (.lift (.refs _)) fun _ => still_assign _ _)) _ _ _ h3
      refine ⟨by rw [b2]; simp, b1, b3, b4⟩
    obtain ⟨k1, k2, k3, k4⟩ := key
    obtain ⟨c1, c2, c3⟩ := adds_describe hd k1 h
    rw [c2, c3, k3, k4, a3, a4]
    simp only [h0, if_false]
    exact ⟨c1.trans (k2.trans hcl), rfl, rfl⟩

/- ### Statements -/

def Gives (m : DGen α) (P : α → Prop) : Prop := ∀ s a s', m s = some (a, s') → P a

theorem Gives.bind {m : DGen α} {f : α → DGen β} {P} (hf : ∀ a, Gives (f a) P) : Gives (m >>= f) P := by
  intro s b s' h
  obtain ⟨a, s1, _, h2⟩ := dbind_eq.1 h
  exact hf _ _ _ _ h2
theorem Gives.pure {a : α} {P : α → Prop} (h : P a) : Gives (Pure.pure a) P := by intro s b s' e; cases e; exact h
theorem Gives.ub {P : α → Prop} : Gives (DGen.ub : DGen α) P := by intro s b s' e; cases e

theorem simple_ends (ann : Ann) (stmt : Stmt) (tok : List Token) : Gives (simpleD cfg ann stmt tok) (fun r => r.isSome = endsBlock stmt) := by
  cases stmt with
  | varDef =>
    cases ann with
    | varDef => exact .bind fun _ => .bind fun _ => .pure rfl
    | none => exact .pure rfl
    | _ => exact .ub
  | varAssign =>
    cases ann with
    | varAssign => exact .bind fun _ => .bind fun _ => .pure rfl
    | _ => exact .ub
  | ret =>
    cases ann with
    | none => exact .bind fun _ => .pure rfl
    | expr => exact .bind fun _ => .bind fun _ => .pure rfl
    | _ => exact .ub
  | expr =>
    cases ann with
    | expr e =>
      cases e with
      | call => exact .bind fun _ => .pure rfl
      | _ => exact .ub
    | _ => exact .ub
  | noop => exact .bind fun _ => .pure rfl
  | _ => intro s a s' h; cases h; try rfl

theorem still_simple (ann : Ann) (stmt : Stmt) (tok : List Token) (h : ∀ id e, ann = .varDef id e → ∀ a b c d x, stmt ≠ .varDef a b c d x) :
    Still (simpleD cfg ann stmt tok) := by
  cases stmt with
  | varDef =>
    cases ann with
    | varDef => exact (h _ _ rfl _ _ _ _ _ rfl).elim
    | none => exact .pure _
    | _ => exact .ub
  | varAssign =>
    cases ann with
    | varAssign => exact .bind (still_expr _) fun _ => .bind (still_assign _ _) fun _ => .pure _
    | _ => exact .ub
  | ret =>
    cases ann with
    | none => exact .bind (still_emitAt _ _) fun _ => .pure _
    | expr => exact .bind (still_expr _) fun _ => .bind (still_emitAt _ _) fun _ => .pure _
    | _ => exact .ub
  | expr =>
    cases ann with
    | expr e =>
      cases e with
      | call => exact .bind (still_expr _) fun _ => .pure _
      | _ => exact .ub
    | _ => exact .ub
  | noop => exact .bind (still_noop _) fun _ => .pure _
  | unreachable => exact .lift (.bind (.emit _) fun _ => .pure _)
  | breaks => exact .lift (.bind .get fun _ => .bind (.emit _) fun _ => .pure _)
  | continues => exact .lift (.bind .get fun _ => .bind (.emit _) fun _ => .pure _)
  | imports => exact .lift (.pure _)
  | comment => exact .lift (.pure _)
  | _ => exact .lift .ub

theorem adds_plain {ann : Ann} {stmt : Stmt} {tok : List Token} {dg : DGen (Option (Option Ty))} {l g l' g' : List Nat} (hm : Adds cf (simpleD cfg ann stmt tok) l g)
    (hl : endsBlock stmt = true → l = [] ∧ g = []) (hn : Adds cf dg l' g') :
    Adds cf (forStmt ann tok >>= fun _ => simpleD cfg ann stmt tok >>= fun r => match r with | some ty => pure (some ty) | none => dg)
      (if endsBlock stmt then [] else l ++ l') (if endsBlock stmt then [] else g ++ g') := by
  refine .first (.forStmt _ _) fun _ => ?_
  intro s a s' h hc
  obtain ⟨r, s1, h1, h2⟩ := dbind_eq.1 h
  have hr := simple_ends _ _ _ _ _ _ h1
  obtain ⟨e1, e2, e3⟩ := hm _ _ _ h1 hc
  cases r with
  | some ty =>
    rw [← hr]
    obtain ⟨rfl, rfl⟩ := hl hr.symm
    cases h2
    exact ⟨e1, e2, e3⟩
  | none =>
    rw [← hr]
    obtain ⟨f1, f2, f3⟩ := hn _ _ _ h2 e1
    exact ⟨f1, by rw [f2, e2]; simp, by rw [f3, e3]; simp⟩

theorem adds_scoped {tok : List Token} {body : DGen (Option (Option Ty))} {l g : List Nat} (h : Adds cf body l g) : Adds cf (scopedD cfg tok body) l g := by
  unfold scopedD
  split
  · exact .first (.nodePos _) fun _ => .first .get fun _ => .first (.scope _) fun _ => .then h fun _ => .bind (.scope _) fun _ => .pure _
  · exact h

theorem adds_block {tok : List Token} {body : DGen (Option (Option Ty))} {target : Nat} {l g : List Nat} (h : Adds cf body l g) :
    Adds cf (codeBlockD cfg tok body target) l g := by
  refine .then (adds_scoped h) fun r => ?_
  cases r
  · exact .lift (.emit _)
  · exact .pure _

theorem adds_while {e : AExpr} {tok : List Token} {body : DGen (Option (Option Ty))} {l g : List Nat} (h : Adds cf body l g) : Adds cf (whileD cfg e tok body) l g :=
  .first (.lift .currentRef) fun _ => .first (.lift (.appendBlock _)) fun _ => .first (.lift (.appendBlock _)) fun _ => .first (.lift (.appendBlock _)) fun _ =>
    .first (.lift (.loop _ _)) fun _ => .first (.lift (.emit _)) fun _ => .first (.lift (.positionAt _ _)) fun _ => .first (still_branch _ _ _) fun _ =>
    .first (.lift (.positionAt _ _)) fun _ => .then (adds_block h) fun _ => .bind (.lift (.positionAt _ _)) fun _ => .lift (.loop _ _)

/-- What a function describes. -/
def funcLines (syms : List Symbol) (id : Nat) (params : List Nat) (body : List Nat) : List Nat :=
  match (syms[id]?).map Symbol.kind with
  | some (.func f) => if f.isExternal then [] else List.replicate (params.take f.numParams).length (lineOf syms id) ++ body
  | _ => []

theorem LStill.setParams (ps : List Nat) : LStill (setParams ps) := by intro s b s' h; cases h; exact ⟨rfl, rfl⟩
theorem LStill.debugParams (ps : List Nat) : LStill (debugParams cfg ps) := .ite (.spill _) (.pure _)

theorem adds_function (hd : cfg.debug = true) {id : Nat} {params : List Nat} {body : DGen (Option (Option Ty))} {l : List Nat} (h : Adds id body l []) :
    Adds cf (functionD cfg id params body) (funcLines cfg.syms id params l) [] := by
  intro s a s' e0 hc
  unfold functionD at e0
  obtain ⟨⟨sym, f⟩, s1, h1, e⟩ := dbind_eq.1 e0
  clear e0
  have hf : cfg.func id = some (sym, f) ∧ s1 = s := by
    unfold DGen.lift at h1
    obtain ⟨⟨b, l⟩, h2, h3⟩ := Option.map_eq_some_iff.1 h1
    unfold LGen.ofOption at h2
    cases hg : cfg.func id with
    | none => rw [hg] at h2; cases h2
    | some p => rw [hg] at h2; cases h2; cases h3; exact ⟨rfl, rfl⟩
  obtain ⟨hf, rfl⟩ := hf
  have hk : (cfg.syms[id]?).map Symbol.kind = some (.func f) := by
    unfold LCfg.func at hf
    cases hs : cfg.syms[id]? with
    | none => rw [hs] at hf; cases hf
    | some y =>
      rw [hs] at hf
      cases hy : y.kind <;> simp [hy] at hf
      rw [Option.map_some, hy, hf.2]
  unfold funcLines
  rw [hk]
  obtain ⟨ref, s2, h2, e⟩ := dbind_eq.1 e
  obtain ⟨a1, a2, a3, a4⟩ := Still.lift (.addFunc _ _ _) _ _ _ h2
  cases hx : f.isExternal with
  | true =>
    rw [hx, if_pos rfl] at e
    cases e
    exact ⟨a1.trans hc, by rw [a3]; simp [hx], by rw [a4]; simp⟩
  | false =>
    rw [hx, if_neg (by simp)] at e
    obtain ⟨_, s3, h3, e⟩ := dbind_eq.1 e
    obtain ⟨b1, b2, b3, b4⟩ := Still.lift (.setParams _) _ _ _ h3
    obtain ⟨old, s4, h4, e⟩ := dbind_eq.1 e
    cases h4
    obtain ⟨entry, s5, h5, e⟩ := dbind_eq.1 e
    obtain ⟨c1, c2, c3, c4⟩ := Still.lift (.appendBlock _) _ _ _ h5
    obtain ⟨_, s6, h6, e⟩ := dbind_eq.1 e
    obtain ⟨d1, d2, d3, d4⟩ := Still.lift (.positionAt _ _) _ _ _ h6
    obtain ⟨_, s7, h7, e⟩ := dbind_eq.1 e
    cases h7
    obtain ⟨_, s8, h8, e⟩ := dbind_eq.1 e
    cases h8
    obtain ⟨_, s9, h9, e⟩ := dbind_eq.1 e
    unfold describeParams at h9
    rw [hd, if_pos rfl] at h9
    cases h9
    obtain ⟨_, s10, h10, e⟩ := dbind_eq.1 e
    obtain ⟨e1, e2, e3, e4⟩ := Still.lift (.debugParams _) _ _ _ h10
    obtain ⟨r, s11, h11, e⟩ := dbind_eq.1 e
    obtain ⟨f1, f2, f3⟩ := h _ _ _ h11 e1
    obtain ⟨_, s12, h12, e⟩ := dbind_eq.1 e
    cases h12
    obtain ⟨g1, g2, g3, g4⟩ := Still.bind (.scope _) (fun _ => .ite (.bind (.lift (.emit _)) fun _ => .lift (.positionAt _ _)) (.lift (.positionAt _ _))) _ _ _ e
    refine ⟨g1.trans (b1.trans (a1.trans hc)), ?_, ?_⟩
    · rw [g3]
      show s11.vars.map _ = _
      rw [f2, e3]
      simp [d3, c3, b3, a3, hx, symPos_line]
    · rw [g4]
      show s11.globals.map _ = _
      rw [f3, e4]
      simp [d4, c4, b4, a4]

theorem adds_tree (hd : cfg.debug = true) : ∀ (t : ATree) (mode : LMode) (cf : Nat), 0 ∉ t.defs →
    Adds cf (genTreeD cfg mode t) (localLines cfg.syms (cf != 0) t) (if cf = 0 then globalLines cfg.syms t else [])
  | .nil, mode, cf, _ => by
    simp only [genTreeD, localLines, globalLines, ite_self]
    exact Still.adds (.bind (still_close _) fun _ => .pure _)
  | .unchecked _, mode, cf, _ => by
    simp only [genTreeD]
    exact .ub
  | .node ann stmt tok child next, mode, cf, h0 => by
    rw [defs_node] at h0
    have hc := fun cf mode => adds_tree hd child mode cf (fun h => h0 (by simp [h]))
    have hn := fun mode => adds_tree hd next mode cf (fun h => h0 (by simp [h]))
    have gl : ∀ x y : List Nat, (if cf = 0 then x ++ y else []) = (if cf = 0 then x else []) ++ (if cf = 0 then y else []) := by
      intro x y; split <;> simp
    have stmts : Adds cf (genTreeD cfg .stmts (.node ann stmt tok child next)) (localLines cfg.syms (cf != 0) (.node ann stmt tok child next))
        (if cf = 0 then globalLines cfg.syms (.node ann stmt tok child next) else []) := by
      have plain : ∀ (hm : Still (simpleD cfg ann stmt tok)),
          Adds cf (forStmt ann tok >>= fun _ => simpleD cfg ann stmt tok >>= fun r => match r with | some ty => pure (some ty) | none => genTreeD cfg .stmts next)
            (if endsBlock stmt then [] else localLines cfg.syms (cf != 0) next)
            (if endsBlock stmt then [] else (if cf = 0 then globalLines cfg.syms next else [])) :=
        fun hm => adds_plain hm.adds (fun _ => ⟨rfl, rfl⟩) (hn .stmts)
      cases stmt with
      | ifs c =>
        cases ann with
        | expr e =>
          simp only [genTreeD, localLines, globalLines, endsBlock, Bool.false_eq_true, if_false, gl]
          exact .first (still_close _) fun _ => .first (.lift .currentRef) fun _ => .first (.lift .get) fun _ => .first (.lift (.appendBlock _)) fun _ =>
            .first (.lift (.appendBlock _)) fun _ => .first (.lift (.positionAt _ _)) fun _ => .bind (adds_block (hc _ _)) fun _ => hn _
        | _ => simp only [genTreeD]; exact .first (still_close _) fun _ => .ub
      | whiles c =>
        cases ann with
        | expr e =>
          simp only [genTreeD, localLines, globalLines, endsBlock, Bool.false_eq_true, if_false, gl]
          exact .first (still_close _) fun _ => .bind (adds_while (hc _ _)) fun _ => hn _
        | _ => simp only [genTreeD]; exact .first (still_close _) fun _ => .ub
      | funcProto p =>
        cases ann with
        | func id params =>
          have hid : id ≠ 0 := fun h => h0 (by simp [Ann.defs, h])
          have := adds_function (cf := cf) (params := params) hd (hc id .stmts |> fun h => by rwa [if_neg hid] at h)
          simp only [genTreeD, localLines, globalLines, endsBlock, Bool.false_eq_true, if_false, List.nil_append]
          refine .first (still_close _) fun _ => ?_
          have := Adds.bind this fun _ => hn .stmts
          rw [show (id != 0) = true by simp [hid]] at this
          exact this
        | _ => simp only [genTreeD]; exact .first (still_close _) fun _ => .ub
      | namespaces =>
        simp only [genTreeD, localLines, globalLines, endsBlock, Bool.false_eq_true, if_false, gl]
        exact .first (still_close _) fun _ => .bind (adds_scoped (hc _ _)) fun _ => hn _
      | varDef =>
        cases ann with
        | varDef id e =>
          have hm : Adds cf (simpleD cfg (.varDef id e) (.varDef ‹_› ‹_› ‹_› ‹_› ‹_›) tok) _ _ :=
            .first (still_expr e) fun v => .then (adds_setup hd id v.val) fun _ => .pure _
          have := adds_plain hm (by simp [endsBlock]) (hn .stmts)
          simp only [genTreeD, localLines, globalLines, endsBlock, Bool.false_eq_true, if_false, gl] at this ⊢
          refine .first (still_close _) fun _ => ?_
          have e : (if (cf != 0) = true then [lineOf cfg.syms id] else []) = (if cf = 0 then [] else [lineOf cfg.syms id]) := by
            by_cases h : cf = 0 <;> simp [h]
          rw [e]
          exact this
        | _ =>
          have := plain (still_simple _ _ _ (by simp))
          simp only [genTreeD, localLines, globalLines, endsBlock, Bool.false_eq_true, if_false, List.nil_append] at this ⊢
          exact .first (still_close _) fun _ => this
      | elifs c => simp only [genTreeD]; exact .first (still_close _) fun _ => .first (.forStmt _ _) fun _ => .never fun _ => rfl
      | elses => simp only [genTreeD]; exact .first (still_close _) fun _ => .first (.forStmt _ _) fun _ => .never fun _ => rfl
      | _ =>
        have := plain (still_simple _ _ _ (by simp))
        simp only [genTreeD, localLines, globalLines, endsBlock, Bool.false_eq_true, if_false, if_true, List.nil_append, ite_self] at this ⊢
        exact .first (still_close _) fun _ => this
    cases mode with
    | stmts => exact stmts
    | afterIf e f entry b fin =>
      by_cases hs : stmt ≠ .comment ∧ stmt ≠ .elses ∧ ∀ c, stmt ≠ .elifs c
      · rw [tree_after hs]
        exact .first (still_close _) fun _ => stmts
      · cases stmt with
        | comment =>
          simp only [genTreeD, localLines, globalLines, endsBlock, Bool.false_eq_true, if_false, List.nil_append]
          exact hn _
        | elses =>
          simp only [genTreeD, localLines, globalLines, endsBlock, Bool.false_eq_true, if_false, gl]
          exact .first (still_next _ _ _ _) fun _ => .first (.lift (.positionAt _ _)) fun _ => .bind (adds_block (hc _ _)) fun _ =>
            .first (.lift (.positionAt _ _)) fun _ => hn _
        | elifs c =>
          cases ann with
          | expr e =>
            simp only [genTreeD, localLines, globalLines, endsBlock, Bool.false_eq_true, if_false, gl]
            exact .first (still_next _ _ _ _) fun _ => .first (.lift (.appendBlock _)) fun _ => .first (.lift (.positionAt _ _)) fun _ =>
              .bind (adds_block (hc _ _)) fun _ => hn _
          | _ => simp only [genTreeD]; exact .ub
        | _ => exact (hs ⟨by simp, by simp, by simp⟩).elim

theorem described {t : ATree} {name : List Char} {s : DState} (hd : cfg.debug = true) (h0 : 0 ∉ t.defs) (h : codegenD cfg name t = some s) :
    Described cfg.syms t s := by
  unfold codegenD at h
  obtain ⟨⟨u, s1⟩, h1, h2⟩ := Option.map_eq_some_iff.1 h
  cases h2
  have all : Adds 0 (genModuleD cfg t) (localLines cfg.syms (0 != 0) t) (if 0 = 0 then globalLines cfg.syms t else []) := by
    refine .then (adds_tree hd t .stmts 0 h0) fun r => ?_
    cases r
    · exact .bind (.forStmt _ _) fun _ => still_emitAt _ _
    · exact .pure _
  obtain ⟨_, e1, e2⟩ := all _ _ _ h1 rfl
  exact ⟨e1, e2⟩

end Skull.DInfo
