import Verif.Model.CodegenLLVM
import Verif.Spec.Flow
/-
The code of expressions: instructions appended to the current block, with new numbers for their results.
-/
namespace Skull

namespace LGen

theorem bind_eq {α β : Type} {m : LGen α} {f : α → LGen β} {s : LState} {r : β × LState} :
    (m >>= f) s = some r ↔ ∃ a s', m s = some (a, s') ∧ f a s' = some r := by
  show LGen.bind m f s = some r ↔ _
  unfold LGen.bind
  cases h : m s with
  | none => simp
  | some p =>
    obtain ⟨a, s'⟩ := p
    constructor
    · intro h'; exact ⟨a, s', rfl, h'⟩
    · rintro ⟨a', s'', h1, h2⟩; cases h1; exact h2

theorem pure_eq {α : Type} {a b : α} {s s' : LState} : (pure a : LGen α) s = some (b, s') ↔ a = b ∧ s = s' := by
  show some (a, s) = some (b, s') ↔ _
  simp

theorem ub_eq {α : Type} {s : LState} {r : α × LState} : (LGen.ub : LGen α) s = some r ↔ False := by
  simp [LGen.ub]

theorem get_eq {s s' : LState} {a : LState} : LGen.get s = some (a, s') ↔ s = a ∧ s = s' := by
  simp only [LGen.get, Option.some.injEq, Prod.mk.injEq]

theorem modify_eq {f : LState → LState} {s s' : LState} {a : Unit} : LGen.modify f s = some (a, s') ↔ s' = f s := by
  simp only [LGen.modify, Option.some.injEq, Prod.mk.injEq, true_and]
  exact eq_comm

theorem ofOption_eq {α : Type} {o : Option α} {s s' : LState} {a : α} : LGen.ofOption o s = some (a, s') ↔ o = some a ∧ s = s' := by
  cases o with
  | none => simp [LGen.ofOption, LGen.ub]
  | some b => 
    simp only [LGen.ofOption, pure_eq, Option.some.injEq]

theorem bind_ofOption {α β : Type} {o : Option α} {f : α → LGen β} {s : LState} {r : β × LState} :
    (LGen.ofOption o >>= f) s = some r ↔ ∃ a, o = some a ∧ f a s = some r := by
  rw [bind_eq]
  constructor
  · rintro ⟨a, s', h1, h2⟩
    obtain ⟨h3, rfl⟩ := ofOption_eq.1 h1
    exact ⟨a, h3, h2⟩
  · rintro ⟨a, h1, h2⟩
    exact ⟨a, s, ofOption_eq.2 ⟨h1, rfl⟩, h2⟩

theorem bind_get {β : Type} {f : LState → LGen β} {s : LState} {r : β × LState} :
    (LGen.get >>= f) s = some r ↔ f s s = some r := Iff.rfl

theorem bind_modify {β : Type} {g : LState → LState} {f : Unit → LGen β} {s : LState} {r : β × LState} :
    (LGen.modify g >>= f) s = some r ↔ f () (g s) = some r := Iff.rfl

end LGen

/-- Instructions appended where the builder is; `n` is the next free number. -/
def LState.gen (s : LState) (is : List LInstr) (n : Nat) : LState :=
  { s with
    funcs := s.funcs.modify s.curFn fun f => { f with blocks := f.blocks.modify s.curBlock (· ++ is) }
    nextReg := n }

theorem modify_modify {α : Type} (f g : α → α) : ∀ (l : List α) (i : Nat), (l.modify i f).modify i g = l.modify i (fun x => g (f x))
  | [], i => by simp
  | a :: l, 0 => by simp
  | a :: l, i + 1 => by simp [modify_modify f g l i]

theorem modify_id {α : Type} {f : α → α} (hf : ∀ x, f x = x) : ∀ (l : List α) (i : Nat), l.modify i f = l
  | [], i => by simp
  | a :: l, 0 => by simp [hf]
  | a :: l, i + 1 => by simp [modify_id hf l i]

namespace LState

theorem gen_nil (s : LState) : s.gen [] s.nextReg = s := by
  unfold gen
  rw [modify_id]
  intro f
  rw [modify_id]
  simp

theorem gen_gen (s : LState) (is js : List LInstr) (n m : Nat) : (s.gen is n).gen js m = s.gen (is ++ js) m := by
  unfold gen
  simp only [modify_modify, List.append_assoc]

@[simp] theorem gen_globals (s : LState) (is n) : (s.gen is n).globals = s.globals := rfl
@[simp] theorem gen_curFn (s : LState) (is n) : (s.gen is n).curFn = s.curFn := rfl
@[simp] theorem gen_curBlock (s : LState) (is n) : (s.gen is n).curBlock = s.curBlock := rfl
@[simp] theorem gen_nextReg (s : LState) (is n) : (s.gen is n).nextReg = n := rfl
@[simp] theorem gen_refs (s : LState) (is n) : (s.gen is n).refs = s.refs := rfl
@[simp] theorem gen_isGlobal (s : LState) (is n) : (s.gen is n).isGlobal = s.isGlobal := rfl
@[simp] theorem gen_spilled (s : LState) (is n) : (s.gen is n).spilled = s.spilled := rfl
@[simp] theorem gen_funcRef (s : LState) (is n) : (s.gen is n).funcRef = s.funcRef := rfl
@[simp] theorem gen_currentFunc (s : LState) (is n) : (s.gen is n).currentFunc = s.currentFunc := rfl
@[simp] theorem gen_whileCond (s : LState) (is n) : (s.gen is n).whileCond = s.whileCond := rfl
@[simp] theorem gen_whileEnd (s : LState) (is n) : (s.gen is n).whileEnd = s.whileEnd := rfl

end LState

theorem emit_eq {i : LInstr} {s s' : LState} {u : Unit} : emit i s = some (u, s') ↔ s' = s.gen [i] s.nextReg := by
  unfold emit
  rw [LGen.modify_eq]
  rfl

theorem newReg_eq {s s' : LState} {r : Nat} : newReg s = some (r, s') ↔ r = s.nextReg ∧ s' = s.gen [] (s.nextReg + 1) := by
  have : s.gen [] (s.nextReg + 1) = { s with nextReg := s.nextReg + 1 } := by
    have := congrArg (fun s : LState => { s with nextReg := s.nextReg + 1 }) s.gen_nil
    exact this
  rw [this]
  simp only [newReg, Option.some.injEq, Prod.mk.injEq]
  constructor <;> rintro ⟨h1, h2⟩ <;> exact ⟨h1.symm, h2.symm⟩

theorem bind_emit {β : Type} {i : LInstr} {f : Unit → LGen β} {s : LState} {r : β × LState} :
    (emit i >>= f) s = some r ↔ f () (s.gen [i] s.nextReg) = some r := Iff.rfl

theorem bind_newReg {β : Type} {f : Nat → LGen β} {s : LState} {r : β × LState} :
    (newReg >>= f) s = some r ↔ f s.nextReg (s.gen [] (s.nextReg + 1)) = some r := by
  rw [LGen.bind_eq]
  constructor
  · rintro ⟨a, s', h1, h2⟩
    obtain ⟨rfl, rfl⟩ := newReg_eq.1 h1
    exact h2
  · intro h
    exact ⟨_, _, newReg_eq.2 ⟨rfl, rfl⟩, h⟩

/- ### The code of expressions, as a relation -/

/-- The code of an operation on two values: nothing if LLVM knows the value, or one instruction. -/
inductive BinCode (cfg : LCfg) (op : LOp) (a b : LVal) (n : Nat) : List LInstr → LVal → Nat → Prop
  | fold {v} : cfg.fold op a b = some v → BinCode cfg op a b n [] v n
  | instr : cfg.fold op a b = none → BinCode cfg op a b n [.bin n op a b] (.reg n) (n + 1)

theorem buildBin_code {cfg op a b s v s'} (h : buildBin cfg op a b s = some (v, s')) :
    ∃ is n, BinCode cfg op a b s.nextReg is v n ∧ s' = s.gen is n := by
  unfold buildBin at h
  cases hf : cfg.fold op a b with
  | some w =>
    rw [hf] at h
    obtain ⟨rfl, rfl⟩ := LGen.pure_eq.1 h
    exact ⟨[], _, .fold hf, s.gen_nil.symm⟩
  | none =>
    rw [hf] at h
    obtain ⟨r, s1, h1, h⟩ := LGen.bind_eq.1 h
    obtain ⟨u, s2, h2, h⟩ := LGen.bind_eq.1 h
    obtain ⟨rfl, rfl⟩ := LGen.pure_eq.1 h
    obtain ⟨rfl, rfl⟩ := newReg_eq.1 h1
    cases emit_eq.1 h2
    exact ⟨_, _, .instr hf, by rw [LState.gen_gen]; rfl⟩

theorem buildLoad_code {ty p s v s'} (h : buildLoad ty p s = some (v, s')) :
    v = .reg s.nextReg ∧ s' = s.gen [.load s.nextReg ty p] (s.nextReg + 1) := by
  unfold buildLoad at h
  obtain ⟨r, s1, h1, h⟩ := LGen.bind_eq.1 h
  obtain ⟨u, s2, h2, h⟩ := LGen.bind_eq.1 h
  obtain ⟨rfl, rfl⟩ := LGen.pure_eq.1 h
  obtain ⟨rfl, rfl⟩ := newReg_eq.1 h1
  cases emit_eq.1 h2
  exact ⟨rfl, by rw [LState.gen_gen]; rfl⟩

theorem buildBuiltin_code {f a b s v s'} (h : buildBuiltin f a b s = some (v, s')) :
    v = .reg s.nextReg ∧ s' = s.gen [.builtin s.nextReg f a b] (s.nextReg + 1) := by
  unfold buildBuiltin at h
  obtain ⟨r, s1, h1, h⟩ := LGen.bind_eq.1 h
  obtain ⟨u, s2, h2, h⟩ := LGen.bind_eq.1 h
  obtain ⟨rfl, rfl⟩ := LGen.pure_eq.1 h
  obtain ⟨rfl, rfl⟩ := newReg_eq.1 h1
  cases emit_eq.1 h2
  exact ⟨rfl, by rw [LState.gen_gen]; rfl⟩

/-- Which instruction an operator on two operands of a type is. -/
def opFor : Oper → Option Ty → Option LOp
  | .add, some (.prim .int) => some .add
  | .sub, some (.prim .int) => some .sub
  | .mult, some (.prim .int) => some .mul
  | .div, some (.prim .int) => some .sdiv
  | .mod, some (.prim .int) => some .srem
  | .lshift, some (.prim .int) => some .shl
  | .rshift, some (.prim .int) => some .lshr
  | .add, some (.prim .float) => some .fadd
  | .sub, some (.prim .float) => some .fsub
  | .mult, some (.prim .float) => some .fmul
  | .div, some (.prim .float) => some .fdiv
  | .mod, some (.prim .float) => some .frem
  | .is, some (.prim .int) | .is, some (.prim .rune) | .is, some (.prim .bool) => some .ieq
  | .is, some (.prim .float) => some .foeq
  | .lessThan, some (.prim .int) => some .islt
  | .gtrThan, some (.prim .int) => some .isgt
  | .lessThanEq, some (.prim .int) => some .isle
  | .gtrThanEq, some (.prim .int) => some .isge
  | .lessThan, some (.prim .float) => some .folt
  | .gtrThan, some (.prim .float) => some .fogt
  | .lessThanEq, some (.prim .float) => some .fole
  | .gtrThanEq, some (.prim .float) => some .foge
  | .and, _ => some .and
  | .or, _ => some .or
  | .xor, _ => some .xor
  | _, _ => none

/-- Which function of the run time an operator is. -/
def builtinFor : Oper → Option Ty → Option LBuiltin
  | .pow, some (.prim .int) => some .intPow
  | .pow, some (.prim .float) => some .floatPow
  | .is, some (.prim .str) => some .strcmp
  | _, _ => none

/-- The type the generator gives to the result. -/
def resultFor : Oper → Option Ty → Option Ty
  | .is, _ | .isnt, _ | .lessThan, _ | .gtrThan, _ | .lessThanEq, _ | .gtrThanEq, _ => some (.prim .bool)
  | _, ty => ty

/-- The code of an operator on two values. -/
inductive OpCode (cfg : LCfg) : Oper → Option Ty → LVal → LVal → Nat → List LInstr → LVal → Nat → Prop
  | bin {o ty a b n op is v m} : opFor o ty = some op → BinCode cfg op a b n is v m → OpCode cfg o ty a b n is v m
  | builtin {o ty a b n f} : builtinFor o ty = some f → OpCode cfg o ty a b n [.builtin n f a b] (.reg n) (n + 1)
  | isnt {ty a b n is v m js w k} : OpCode cfg .is ty a b n is v m → BinCode cfg .xor v (.bool true) m js w k →
      OpCode cfg .isnt ty a b n (is ++ js) w k

theorem mathL_code {cfg iop fop ty a b s x s'} (h : mathL cfg iop fop ty a b s = some (x, s')) :
    ∃ op is n, (ty = some (.prim .int) ∧ op = iop ∨ ty = some (.prim .float) ∧ op = fop) ∧
      BinCode cfg op a b s.nextReg is x.val n ∧ x.ty = ty ∧ s' = s.gen is n := by
  unfold mathL at h
  split at h
  · rename_i ht
    obtain ⟨v, s1, h1, h⟩ := LGen.bind_eq.1 h
    obtain ⟨rfl, rfl⟩ := LGen.pure_eq.1 h
    obtain ⟨is, n, h2, h3⟩ := buildBin_code h1
    exact ⟨iop, is, n, .inl ⟨ht, rfl⟩, h2, rfl, h3⟩
  · split at h
    · rename_i ht
      obtain ⟨v, s1, h1, h⟩ := LGen.bind_eq.1 h
      obtain ⟨rfl, rfl⟩ := LGen.pure_eq.1 h
      obtain ⟨is, n, h2, h3⟩ := buildBin_code h1
      exact ⟨fop, is, n, .inr ⟨ht, rfl⟩, h2, rfl, h3⟩
    · exact (LGen.ub_eq.1 h).elim

theorem relL_code {cfg iop fop ty a b s x s'} (h : relL cfg iop fop ty a b s = some (x, s')) :
    ∃ op is n, (ty = some (.prim .int) ∧ op = iop ∨ ty = some (.prim .float) ∧ op = fop) ∧
      BinCode cfg op a b s.nextReg is x.val n ∧ x.ty = some (.prim .bool) ∧ s' = s.gen is n := by
  unfold relL at h
  split at h
  · rename_i ht
    obtain ⟨v, s1, h1, h⟩ := LGen.bind_eq.1 h
    obtain ⟨rfl, rfl⟩ := LGen.pure_eq.1 h
    obtain ⟨is, n, h2, h3⟩ := buildBin_code h1
    exact ⟨iop, is, n, .inl ⟨ht, rfl⟩, h2, rfl, h3⟩
  · split at h
    · rename_i ht
      obtain ⟨v, s1, h1, h⟩ := LGen.bind_eq.1 h
      obtain ⟨rfl, rfl⟩ := LGen.pure_eq.1 h
      obtain ⟨is, n, h2, h3⟩ := buildBin_code h1
      exact ⟨fop, is, n, .inr ⟨ht, rfl⟩, h2, rfl, h3⟩
    · exact (LGen.ub_eq.1 h).elim

theorem shiftL_code {cfg op ty a b s x s'} (h : shiftL cfg op ty a b s = some (x, s')) :
    ∃ is n, ty = some (.prim .int) ∧ BinCode cfg op a b s.nextReg is x.val n ∧ x.ty = ty ∧ s' = s.gen is n := by
  unfold shiftL at h
  split at h
  · rename_i ht
    obtain ⟨v, s1, h1, h⟩ := LGen.bind_eq.1 h
    obtain ⟨rfl, rfl⟩ := LGen.pure_eq.1 h
    obtain ⟨is, n, h2, h3⟩ := buildBin_code h1
    exact ⟨is, n, ht, h2, ht.symm, h3⟩
  · exact (LGen.ub_eq.1 h).elim

theorem logicL_code {cfg op ty a b s x s'} (h : logicL cfg op ty a b s = some (x, s')) :
    ∃ is n, BinCode cfg op a b s.nextReg is x.val n ∧ x.ty = ty ∧ s' = s.gen is n := by
  unfold logicL at h
  obtain ⟨v, s1, h1, h⟩ := LGen.bind_eq.1 h
  obtain ⟨rfl, rfl⟩ := LGen.pure_eq.1 h
  obtain ⟨is, n, h2, h3⟩ := buildBin_code h1
  exact ⟨is, n, h2, rfl, h3⟩

theorem powL_code {cfg ty a b s x s'} (h : powL ty a b s = some (x, s')) :
    ∃ is n, OpCode cfg .pow ty a b s.nextReg is x.val n ∧ x.ty = ty ∧ s' = s.gen is n := by
  unfold powL at h
  split at h
  · rename_i ht
    obtain ⟨v, s1, h1, h⟩ := LGen.bind_eq.1 h
    obtain ⟨rfl, rfl⟩ := LGen.pure_eq.1 h
    obtain ⟨rfl, h3⟩ := buildBuiltin_code h1
    exact ⟨_, _, .builtin (by rw [ht]; rfl), rfl, h3⟩
  · split at h
    · rename_i ht
      obtain ⟨v, s1, h1, h⟩ := LGen.bind_eq.1 h
      obtain ⟨rfl, rfl⟩ := LGen.pure_eq.1 h
      obtain ⟨rfl, h3⟩ := buildBuiltin_code h1
      exact ⟨_, _, .builtin (by rw [ht]; rfl), rfl, h3⟩
    · exact (LGen.ub_eq.1 h).elim

theorem isL_code {cfg ty a b s x s'} (h : isL cfg ty a b s = some (x, s')) :
    ∃ is n, OpCode cfg .is ty a b s.nextReg is x.val n ∧ x.ty = some (.prim .bool) ∧ s' = s.gen is n := by
  unfold isL at h
  split at h
  · rename_i ht
    obtain ⟨v, s1, h1, h⟩ := LGen.bind_eq.1 h
    obtain ⟨rfl, rfl⟩ := LGen.pure_eq.1 h
    obtain ⟨is, n, h2, h3⟩ := buildBin_code h1
    exact ⟨_, _, .bin (by rcases ht with ht | ht | ht <;> rw [ht] <;> rfl) h2, rfl, h3⟩
  · split at h
    · rename_i ht
      obtain ⟨v, s1, h1, h⟩ := LGen.bind_eq.1 h
      obtain ⟨rfl, rfl⟩ := LGen.pure_eq.1 h
      obtain ⟨is, n, h2, h3⟩ := buildBin_code h1
      exact ⟨_, _, .bin (by rw [ht]; rfl) h2, rfl, h3⟩
    · split at h
      · rename_i ht
        obtain ⟨v, s1, h1, h⟩ := LGen.bind_eq.1 h
        obtain ⟨rfl, rfl⟩ := LGen.pure_eq.1 h
        obtain ⟨rfl, h3⟩ := buildBuiltin_code h1
        exact ⟨_, _, .builtin (by rw [ht]; rfl), rfl, h3⟩
      · exact (LGen.ub_eq.1 h).elim

theorem binL_code {cfg o ty a b s x s'} (h : binL cfg o ty a b s = some (x, s')) :
    ∃ is n, OpCode cfg o ty a b s.nextReg is x.val n ∧ x.ty = resultFor o ty ∧ s' = s.gen is n := by
  unfold binL at h
  have math : ∀ {iop fop}, mathL cfg iop fop ty a b s = some (x, s') → opFor o (some (.prim .int)) = some iop →
      opFor o (some (.prim .float)) = some fop → (∀ t, resultFor o t = t) →
      ∃ is n, OpCode cfg o ty a b s.nextReg is x.val n ∧ x.ty = resultFor o ty ∧ s' = s.gen is n := by
    intro iop fop h h1 h2 h3
    obtain ⟨op, is, n, h4, h5, h6, h7⟩ := mathL_code h
    refine ⟨is, n, .bin ?_ h5, by rw [h3]; exact h6, h7⟩
    rcases h4 with ⟨rfl, rfl⟩ | ⟨rfl, rfl⟩
    · exact h1
    · exact h2
  have rel : ∀ {iop fop}, relL cfg iop fop ty a b s = some (x, s') → opFor o (some (.prim .int)) = some iop →
      opFor o (some (.prim .float)) = some fop → (∀ t, resultFor o t = some (.prim .bool)) →
      ∃ is n, OpCode cfg o ty a b s.nextReg is x.val n ∧ x.ty = resultFor o ty ∧ s' = s.gen is n := by
    intro iop fop h h1 h2 h3
    obtain ⟨op, is, n, h4, h5, h6, h7⟩ := relL_code h
    refine ⟨is, n, .bin ?_ h5, by rw [h3]; exact h6, h7⟩
    rcases h4 with ⟨rfl, rfl⟩ | ⟨rfl, rfl⟩
    · exact h1
    · exact h2
  cases o <;> simp only at h
  case add => exact math h rfl rfl (fun _ => rfl)
  case sub => exact math h rfl rfl (fun _ => rfl)
  case mult => exact math h rfl rfl (fun _ => rfl)
  case div => exact math h rfl rfl (fun _ => rfl)
  case mod => exact math h rfl rfl (fun _ => rfl)
  case lshift =>
    obtain ⟨is, n, ht, h2, h3, h4⟩ := shiftL_code h
    exact ⟨is, n, .bin (by rw [ht]; rfl) h2, h3, h4⟩
  case rshift =>
    obtain ⟨is, n, ht, h2, h3, h4⟩ := shiftL_code h
    exact ⟨is, n, .bin (by rw [ht]; rfl) h2, h3, h4⟩
  case pow => exact powL_code h
  case is => exact isL_code h
  case isnt =>
    unfold isNotL at h
    obtain ⟨e, s1, h1, h⟩ := LGen.bind_eq.1 h
    obtain ⟨v, s2, h2, h⟩ := LGen.bind_eq.1 h
    obtain ⟨rfl, rfl⟩ := LGen.pure_eq.1 h
    obtain ⟨is, n, h3, h4, rfl⟩ := isL_code h1
    obtain ⟨js, m, h5, rfl⟩ := buildBin_code h2
    exact ⟨_, _, .isnt h3 h5, h4, LState.gen_gen ..⟩
  case lessThan => exact rel h rfl rfl (fun _ => rfl)
  case gtrThan => exact rel h rfl rfl (fun _ => rfl)
  case lessThanEq => exact rel h rfl rfl (fun _ => rfl)
  case gtrThanEq => exact rel h rfl rfl (fun _ => rfl)
  case and =>
    obtain ⟨is, n, h2, h3, h4⟩ := logicL_code h
    exact ⟨is, n, .bin rfl h2, h3, h4⟩
  case or =>
    obtain ⟨is, n, h2, h3, h4⟩ := logicL_code h
    exact ⟨is, n, .bin rfl h2, h3, h4⟩
  case xor =>
    obtain ⟨is, n, h2, h3, h4⟩ := logicL_code h
    exact ⟨is, n, .bin rfl h2, h3, h4⟩
  all_goals exact (LGen.ub_eq.1 h).elim

/-- The zero that a number is subtracted from. -/
def zeroFor (ty : Option Ty) : LVal := if ty = some (.prim .int) then .int 0 else .float 0

/-- What the generator knows of variables and functions. -/
structure LEnv where
  refs : Nat → Option LVal
  isGlobal : Nat → Bool
  spilled : Nat → Bool
  funcRef : Nat → Option Nat

def LState.env (s : LState) : LEnv := ⟨s.refs, s.isGlobal, s.spilled, s.funcRef⟩

/-- Whether the generator takes a variable to be constant. -/
def LEnv.isConst (R : LEnv) (id : Nat) (v : Variable) : Bool := v.isConst && !R.spilled id

mutual
/-- The code of an expression, its value and type, and the next free number. -/
inductive ECode (cfg : LCfg) (R : LEnv) : Nat → AExpr → List LInstr → LExpr → Nat → Prop
  | load {n t id ty c v p} : cfg.var id = some v → R.refs id = some p → (R.isGlobal id || !R.isConst id v) = true →
      ECode cfg R n (.ident t id ty c) [.load n v.type p] ⟨some v.type, .reg n⟩ (n + 1)
  | value {n t id ty c v p} : cfg.var id = some v → R.refs id = some p → (R.isGlobal id || !R.isConst id v) = false →
      ECode cfg R n (.ident t id ty c) [] ⟨some v.type, p⟩ n
  | const {n t v} : ECode cfg R n (.const t v) [] ⟨some v.type, genConstL v⟩ n
  | call {n t args id ty sym f is as m ref} : cfg.func id = some (sym, f) → ACode cfg R n f.numParams args is as m →
      R.funcRef id = some ref →
      ECode cfg R n (.call t args id ty) (is ++ [.call m ref as]) ⟨some f.returnType, .reg m⟩ (m + 1)
  | ref {n t id ty c ty' c' v p} : cfg.var id = some v → R.refs id = some p →
      ECode cfg R n (.un .ref (.ident t id ty c) ty' c') [] ⟨v.type.inner?, p⟩ n
  | deref {n t id ty c ty' c' v p inner} : cfg.var id = some v → R.refs id = some p → v.type.inner? = some inner →
      ECode cfg R n (.un .deref (.ident t id ty c) ty' c') [.load n v.type p, .load (n + 1) inner (.reg n)]
        ⟨some inner, .reg (n + 1)⟩ (n + 2)
  | not {n r ty c is x m js v k} : ECode cfg R n r is x m → BinCode cfg .xor x.val (.bool true) m js v k →
      ECode cfg R n (.un .not r ty c) (is ++ js) ⟨some (.prim .bool), v⟩ k
  | neg {n r ty c is x m js v k} : ECode cfg R n r is x m → OpCode cfg .sub x.ty (zeroFor x.ty) x.val m js v k →
      ECode cfg R n (.un .unaryNeg r ty c) (is ++ js) ⟨x.ty, v⟩ k
  | bin {n o l r ty c is x m js y k ks v j} : ECode cfg R n l is x m → ECode cfg R m r js y k →
      OpCode cfg o y.ty x.val y.val k ks v j → ECode cfg R n (.bin o l r ty c) (is ++ js ++ ks) ⟨resultFor o y.ty, v⟩ j
/-- The code of the arguments. -/
inductive ACode (cfg : LCfg) (R : LEnv) : Nat → Nat → AArgs → List LInstr → List LVal → Nat → Prop
  | nil {n args} : ACode cfg R n 0 args [] [] n
  | cons {n k t e next is x m js vs j} : ECode cfg R n e is x m → ACode cfg R m k next js vs j →
      ACode cfg R n (k + 1) (.cons t e next) (is ++ js) (x.val :: vs) j
end

@[simp] theorem LState.gen_env (s : LState) (is n) : (s.gen is n).env = s.env := rfl

theorem identL_code {cfg id t ty c s x s'} (h : identL cfg id s = some (x, s')) :
    ∃ is n, ECode cfg s.env s.nextReg (.ident t id ty c) is x n ∧ s' = s.gen is n := by
  unfold identL at h
  obtain ⟨v, h1, h⟩ := LGen.bind_ofOption.1 h
  rw [LGen.bind_get] at h
  obtain ⟨p, h3, h⟩ := LGen.bind_ofOption.1 h
  split at h
  · rename_i hc
    obtain ⟨y, s4, h4, h⟩ := LGen.bind_eq.1 h
    obtain ⟨rfl, rfl⟩ := LGen.pure_eq.1 h
    obtain ⟨rfl, h5⟩ := buildLoad_code h4
    exact ⟨_, _, .load h1 h3 hc, h5⟩
  · rename_i hc
    obtain ⟨rfl, rfl⟩ := LGen.pure_eq.1 h
    exact ⟨[], _, .value h1 h3 (Bool.eq_false_iff.2 hc), (LState.gen_nil _).symm⟩

theorem addrL_code {cfg o r ty c s x s'} (ho : o = .ref ∨ o = .deref) (h : addrL cfg o r s = some (x, s')) :
    ∃ is n, ECode cfg s.env s.nextReg (.un o r ty c) is x n ∧ s' = s.gen is n := by
  unfold addrL at h
  split at h
  · split at h
    · rename_i ho; subst ho
      unfold refL at h
      obtain ⟨v, h1, h⟩ := LGen.bind_ofOption.1 h
      rw [LGen.bind_get] at h
      obtain ⟨p, h3, h⟩ := LGen.bind_ofOption.1 h
      obtain ⟨rfl, rfl⟩ := LGen.pure_eq.1 h
      exact ⟨[], _, .ref h1 h3, (LState.gen_nil _).symm⟩
    · rename_i ho'
      cases ho.resolve_left ho'
      unfold derefL at h
      obtain ⟨v, h1, h⟩ := LGen.bind_ofOption.1 h
      rw [LGen.bind_get] at h
      obtain ⟨p, h3, h⟩ := LGen.bind_ofOption.1 h
      obtain ⟨inner, h4, h⟩ := LGen.bind_ofOption.1 h
      obtain ⟨q, s5, h5, h⟩ := LGen.bind_eq.1 h
      obtain ⟨y, s6, h6, h⟩ := LGen.bind_eq.1 h
      obtain ⟨rfl, rfl⟩ := LGen.pure_eq.1 h
      obtain ⟨rfl, rfl⟩ := buildLoad_code h5
      obtain ⟨rfl, rfl⟩ := buildLoad_code h6
      exact ⟨_, _, .deref h1 h3 h4, by rw [LState.gen_gen]; rfl⟩
  · exact (LGen.ub_eq.1 h).elim

mutual
theorem genExprL_code {cfg : LCfg} : ∀ (e : AExpr) {s : LState} {x : LExpr} {s' : LState}, genExprL cfg e s = some (x, s') →
    ∃ is n, ECode cfg s.env s.nextReg e is x n ∧ s' = s.gen is n
  | .ident t id ty c, s, x, s', h => by
    simp only [genExprL] at h
    exact identL_code h
  | .const t v, s, x, s', h => by
    simp only [genExprL] at h
    obtain ⟨rfl, rfl⟩ := LGen.pure_eq.1 h
    exact ⟨[], _, .const, (LState.gen_nil _).symm⟩
  | .call t args id ty, s, x, s', h => by
    simp only [genExprL] at h
    obtain ⟨⟨sym, f⟩, h1, h⟩ := LGen.bind_ofOption.1 h
    obtain ⟨as, s2, h2, h⟩ := LGen.bind_eq.1 h
    obtain ⟨is, m, h3, rfl⟩ := genArgsL_code _ args h2
    unfold callL at h
    obtain ⟨f', h4, h⟩ := LGen.bind_ofOption.1 h
    cases h1.symm.trans h4
    rw [LGen.bind_get] at h
    obtain ⟨ref, h6, h⟩ := LGen.bind_ofOption.1 h
    rw [bind_newReg, bind_emit] at h
    obtain ⟨rfl, rfl⟩ := LGen.pure_eq.1 h
    refine ⟨_, _, .call h1 h3 h6, ?_⟩
    simp only [LState.gen_gen, LState.gen_nextReg, List.nil_append, List.append_assoc]
  | .un o r ty c, s, x, s', h => by
    simp only [genExprL] at h
    split at h
    · rename_i ho
      exact addrL_code ho h
    · rename_i ho
      obtain ⟨y, s1, h1, h⟩ := LGen.bind_eq.1 h
      obtain ⟨is, m, h2, rfl⟩ := genExprL_code r h1
      unfold unL at h
      split at h
      · obtain ⟨v, s2, h3, h⟩ := LGen.bind_eq.1 h
        obtain ⟨rfl, rfl⟩ := LGen.pure_eq.1 h
        obtain ⟨js, k, h4, rfl⟩ := buildBin_code h3
        exact ⟨_, _, .not h2 h4, LState.gen_gen ..⟩
      · obtain ⟨op, js, k, h3, h4, h5, rfl⟩ := mathL_code h
        obtain ⟨xt, xv⟩ := x
        simp only at h4 h5
        subst h5
        refine ⟨_, _, .neg h2 (.bin ?_ h4), LState.gen_gen ..⟩
        rcases h3 with ⟨h3, rfl⟩ | ⟨h3, rfl⟩ <;> rw [h3] <;> rfl
      · exact (LGen.ub_eq.1 h).elim
  | .bin o l r ty c, s, x, s', h => by
    simp only [genExprL] at h
    obtain ⟨y, s1, h1, h⟩ := LGen.bind_eq.1 h
    obtain ⟨is, m, h2, rfl⟩ := genExprL_code l h1
    obtain ⟨z, s2, h3, h⟩ := LGen.bind_eq.1 h
    obtain ⟨js, k, h4, rfl⟩ := genExprL_code r h3
    obtain ⟨ks, j, h5, h6, rfl⟩ := binL_code h
    obtain ⟨xt, xv⟩ := x
    simp only at h6
    subst h6
    refine ⟨_, _, .bin h2 h4 h5, ?_⟩
    simp only [LState.gen_gen, List.append_assoc]

theorem genArgsL_code {cfg : LCfg} : ∀ (k : Nat) (as : AArgs) {s : LState} {vs : List LVal} {s' : LState},
    genArgsL cfg k as s = some (vs, s') → ∃ is n, ACode cfg s.env s.nextReg k as is vs n ∧ s' = s.gen is n
  | 0, as, s, vs, s', h => by
    have h : (pure [] : LGen (List LVal)) s = some (vs, s') := by cases as <;> exact h
    obtain ⟨rfl, rfl⟩ := LGen.pure_eq.1 h
    exact ⟨[], _, .nil, (LState.gen_nil _).symm⟩
  | k + 1, .nil, s, vs, s', h => by simp only [genArgsL] at h; exact (LGen.ub_eq.1 h).elim
  | k + 1, .unchecked _, s, vs, s', h => by simp only [genArgsL] at h; exact (LGen.ub_eq.1 h).elim
  | k + 1, .cons t e next, s, vs, s', h => by
    simp only [genArgsL] at h
    obtain ⟨y, s1, h1, h⟩ := LGen.bind_eq.1 h
    obtain ⟨is, m, h2, rfl⟩ := genExprL_code e h1
    obtain ⟨ws, s2, h3, h⟩ := LGen.bind_eq.1 h
    obtain ⟨js, j, h4, rfl⟩ := genArgsL_code k next h3
    obtain ⟨rfl, rfl⟩ := LGen.pure_eq.1 h
    exact ⟨_, _, .cons h2 h4, LState.gen_gen ..⟩
end

/-- The number of the result. -/
def LInstr.dst : LInstr → Option Nat
  | .bin r .. | .load r .. | .alloca r _ | .call r .. | .builtin r .. => some r
  | _ => none

/-- Straight code: no jumps, and the results have numbers from `n` up to `m`. -/
structure Straight (n : Nat) (is : List LInstr) (m : Nat) : Prop where
  le : n ≤ m
  noTerm : ∀ i ∈ is, i.isTerm = false
  range : ∀ i ∈ is, ∀ r, i.dst = some r → n ≤ r ∧ r < m

theorem Straight.nil {n : Nat} : Straight n [] n := ⟨Nat.le_refl _, by simp, by simp⟩

theorem Straight.append {n m k : Nat} {is js : List LInstr} (h1 : Straight n is m) (h2 : Straight m js k) : Straight n (is ++ js) k := by
  refine ⟨Nat.le_trans h1.le h2.le, ?_, ?_⟩
  · intro i hi
    rcases List.mem_append.1 hi with hi | hi
    · exact h1.noTerm i hi
    · exact h2.noTerm i hi
  · intro i hi r hr
    rcases List.mem_append.1 hi with hi | hi
    · have := h1.range i hi r hr; have := h2.le; omega
    · have := h2.range i hi r hr; have := h1.le; omega

theorem Straight.one {n : Nat} {i : LInstr} (h1 : i.isTerm = false) (h2 : i.dst = some n) : Straight n [i] (n + 1) := by
  refine ⟨by omega, by simpa using h1, ?_⟩
  intro j hj r hr
  simp only [List.mem_singleton] at hj
  subst hj
  rw [h2] at hr
  cases hr
  omega

theorem Straight.store {n : Nat} {v p : LVal} : Straight n [.store v p] n :=
  ⟨Nat.le_refl _, by simp [LInstr.isTerm], by simp [LInstr.dst]⟩

theorem BinCode.straight {cfg op a b n is v m} (h : BinCode cfg op a b n is v m) : Straight n is m := by
  cases h with
  | fold => exact .nil
  | instr => exact .one rfl rfl

theorem OpCode.straight {cfg o ty a b n is v m} (h : OpCode cfg o ty a b n is v m) : Straight n is m := by
  induction h with
  | bin _ h => exact h.straight
  | builtin => exact .one rfl rfl
  | isnt _ h ih => exact ih.append h.straight

mutual
theorem ECode.straight {cfg R n e is x m} : ECode cfg R n e is x m → Straight n is m
  | .load .. => .one rfl rfl
  | .value .. => .nil
  | .const => .nil
  | .call _ h _ => h.straight.append (.one rfl rfl)
  | .ref .. => .nil
  | .deref .. => .append (m := n + 1) (.one rfl rfl) (is := [_]) (.one rfl rfl)
  | .not h h' => h.straight.append h'.straight
  | .neg h h' => h.straight.append h'.straight
  | .bin h h' h'' => (h.straight.append h'.straight).append h''.straight
theorem ACode.straight {cfg R n k as is vs m} : ACode cfg R n k as is vs m → Straight n is m
  | .nil => .nil
  | .cons h h' => h.straight.append h'.straight
end

end Skull
