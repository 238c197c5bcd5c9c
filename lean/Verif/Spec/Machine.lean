import Verif.Spec.Run
import Verif.Spec.Flow
import Verif.Model.Runtime
/-
What LLVM code does, as far as the back end uses it (https://llvm.org/docs/LangRef.html).

A poison value, an uninitialised cell and undefined behaviour are not told apart: code that comes to one does not run on.
-/
namespace Skull.Spec

/-- Values of instructions: those of programs, the address of a global, and the address of a cell made by `alloca`. -/
inductive MVal
  | val (v : Val)
  | global (g : Nat)
  | addr (a : Nat)
  deriving DecidableEq

/-- Globals, the cells that were made so far, how many of them there are, and the world. -/
structure Mem (ω : Type) where
  glob : Nat → Option MVal
  cells : Nat → Option MVal
  next : Nat
  world : ω

/-- Results of instructions. -/
abbrev Regs := Nat → Option MVal

def Regs.set (regs : Regs) (r : Nat) (v : MVal) : Regs := fun i => if i = r then some v else regs i

/-- The value of a constant. -/
def constVal : LVal → Option Val
  | .int i => some (.int i)
  | .float b => some (.float b)
  | .bool b => some (.bool b)
  | .rune r => some (.rune r)
  | .str s => some (.str s)
  | _ => none

/-- The value of an operand. -/
def operand (regs : Regs) (ps : List MVal) : LVal → Option MVal
  | .global g => some (.global g)
  | .param i => ps[i]?
  | .reg r => regs r
  | v => (constVal v).map .val

def operands (regs : Regs) (ps : List MVal) : List LVal → Option (List MVal)
  | [] => some []
  | v :: vs =>
    match operand regs ps v, operands regs ps vs with
    | some x, some xs => some (x :: xs)
    | _, _ => none

/-- Operations: `add nsw`, `sub nsw`, `mul nsw`, `sdiv exact`, `srem`, `shl`, `lshr`, and so on.  Comparisons of floats are ordered. -/
def machBin (F : Floats) : LOp → Val → Val → Option Val
  | .add, .int a, .int b => int64 (a + b)
  | .sub, .int a, .int b => int64 (a - b)
  | .mul, .int a, .int b => int64 (a * b)
  | .sdiv, .int a, .int b => if b = 0 ∨ a.tmod b ≠ 0 then none else int64 (a.tdiv b)
  | .srem, .int a, .int b => if b = 0 ∨ int64 (a.tdiv b) = none then none else some (.int (a.tmod b))
  | .shl, .int a, .int b => if 0 ≤ b ∧ b < 64 then some (.int (wrap64 (a * 2 ^ b.toNat))) else none
  | .lshr, .int a, .int b => if 0 ≤ b ∧ b < 64 then some (.int (wrap64 (a % 2 ^ 64 / 2 ^ b.toNat))) else none
  | .fadd, .float a, .float b => some (.float (F.add a b))
  | .fsub, .float a, .float b => some (.float (F.sub a b))
  | .fmul, .float a, .float b => some (.float (F.mul a b))
  | .fdiv, .float a, .float b => some (.float (F.div a b))
  | .frem, .float a, .float b => some (.float (F.rem a b))
  | .and, .bool a, .bool b => some (.bool (a && b))
  | .or, .bool a, .bool b => some (.bool (a || b))
  | .xor, .bool a, .bool b => some (.bool (a != b))
  | .ieq, .int a, .int b => some (.bool (a = b))
  | .ieq, .bool a, .bool b => some (.bool (a = b))
  | .ieq, .rune a, .rune b => some (.bool (a = b))
  | .islt, .int a, .int b => some (.bool (a < b))
  | .isgt, .int a, .int b => some (.bool (b < a))
  | .isle, .int a, .int b => some (.bool (a ≤ b))
  | .isge, .int a, .int b => some (.bool (b ≤ a))
  | .foeq, .float a, .float b => some (.bool (F.eq a b))
  | .folt, .float a, .float b => some (.bool (F.lt a b))
  | .fogt, .float a, .float b => some (.bool (F.gt a b))
  | .fole, .float a, .float b => some (.bool (F.le a b))
  | .foge, .float a, .float b => some (.bool (F.ge a b))
  | _, _, _ => none

/-- The functions of the run time: `_int_pow` (see `C52_shim`), the intrinsic `llvm.pow`, and `_strcmp` (see `C53_shim`), which tells
whether two strings are the same. -/
def machBuiltin (F : Floats) : LBuiltin → Val → Val → Option Val
  | .intPow, .int a, .int b => match cIntPow a b with | .done v => some (.int v) | _ => none
  | .floatPow, .float a, .float b => some (.float (F.pow a b))
  | .strcmp, .str a, .str b => some (.bool (a = b))
  | _, _, _ => none

/-- Reading a cell or a global. -/
def Mem.read {ω : Type} (m : Mem ω) : MVal → Option MVal
  | .global g => m.glob g
  | .addr a => m.cells a
  | .val _ => none

/-- Writing to a cell or a global. -/
def Mem.write {ω : Type} (m : Mem ω) (x : MVal) : MVal → Option (Mem ω)
  | .global g => some { m with glob := fun i => if i = g then some x else m.glob i }
  | .addr a => if a < m.next then some { m with cells := fun i => if i = a then some x else m.cells i } else none
  | .val _ => none

/-- Instructions that are no calls and no jumps. -/
def step {ω : Type} (F : Floats) (ps : List MVal) (regs : Regs) (m : Mem ω) : LInstr → Option (Regs × Mem ω)
  | .bin r op a b =>
    match operand regs ps a, operand regs ps b with
    | some (.val x), some (.val y) => match machBin F op x y with | some z => some (regs.set r (.val z), m) | none => none
    | _, _ => none
  | .builtin r f a b =>
    match operand regs ps a, operand regs ps b with
    | some (.val x), some (.val y) => match machBuiltin F f x y with | some z => some (regs.set r (.val z), m) | none => none
    | _, _ => none
  | .load r _ p =>
    match operand regs ps p with
    | some q => match m.read q with | some x => some (regs.set r x, m) | none => none
    | none => none
  | .store v p =>
    match operand regs ps v, operand regs ps p with
    | some x, some q => match m.write x q with | some m => some (regs, m) | none => none
    | _, _ => none
  | .alloca r _ =>
    some (regs.set r (.addr m.next), { m with cells := fun i => if i = m.next then none else m.cells i, next := m.next + 1 })
  | _ => none

/-- Instructions that are no calls and no jumps, one after the other. -/
def steps {ω : Type} (F : Floats) (ps : List MVal) : List LInstr → Regs → Mem ω → Option (Regs × Mem ω)
  | [], regs, m => some (regs, m)
  | i :: is, regs, m => match step F ps regs m i with | some (regs, m) => steps F ps is regs m | none => none

mutual
/-- `IRun F ext M f code regs ps m v m'`: the instructions `code` of function `f` with parameters `ps`, and what follows them, run
until the function returns `v`. -/
inductive IRun {ω : Type} (F : Floats) (ext : List Char → List Val → ω → Option (Val × ω)) (M : List LFunc) :
    Nat → List LInstr → Regs → List MVal → Mem ω → Option Val → Mem ω → Prop
  | step {f i rest regs ps m regs' m' v m''} : step F ps regs m i = some (regs', m') →
      IRun F ext M f rest regs' ps m' v m'' → IRun F ext M f (i :: rest) regs ps m v m''
  | call {f r g args vs rest regs ps m x m' v m''} : operands regs ps args = some vs → ICall F ext M g vs m x m' →
      IRun F ext M f rest (regs.set r x) ps m' v m'' → IRun F ext M f (.call r g args :: rest) regs ps m v m''
  | br {f b code rest regs ps m v m'} : blockOf M f b = some code → IRun F ext M f code regs ps m v m' →
      IRun F ext M f (.br (some b) :: rest) regs ps m v m'
  | condBr {f c t e b code rest regs ps m v m'} : operand regs ps c = some (.val (.bool b)) →
      blockOf M f (if b then t else e) = some code → IRun F ext M f code regs ps m v m' →
      IRun F ext M f (.condBr c t e :: rest) regs ps m v m'
  | ret {f c rest regs ps m v} : operand regs ps c = some (.val v) → IRun F ext M f (.ret c :: rest) regs ps m (some v) m
  | retVoid {f rest regs ps m} : IRun F ext M f (.retVoid :: rest) regs ps m none m
/-- `ICall F ext M g vs m x m'`: a call of function `g`. -/
inductive ICall {ω : Type} (F : Floats) (ext : List Char → List Val → ω → Option (Val × ω)) (M : List LFunc) :
    Nat → List MVal → Mem ω → MVal → Mem ω → Prop
  | value {g x code vs m v m'} : M[g]? = some x → x.params.length = vs.length → x.ret ≠ .prim .void → blockOf M g 0 = some code →
      IRun F ext M g code (fun _ => none) vs m (some v) m' → ICall F ext M g vs m (.val v) m'
  | void {g x code vs m m'} : M[g]? = some x → x.params.length = vs.length → x.ret = .prim .void → blockOf M g 0 = some code →
      IRun F ext M g code (fun _ => none) vs m none m' → ICall F ext M g vs m (.val .unit) m'
  | external {g x vs m v w} : M[g]? = some x → x.blocks = [] → ext x.name vs m.world = some (v, w) →
      ICall F ext M g (vs.map .val) m (.val v) { m with world := w }
end

/-- The variables among `ids` have the values that `ρ` says, where the generator in state `s` has put them; `n` is the number of the next
result. -/
def Holds {ω : Type} (cfg : LCfg) (refs : Nat → Option LVal) (isGlobal spilled : Nat → Bool) (n : Nat) (ρ : Nat → Option Val) (ids : List Nat) (ps : List MVal)
    (regs : Regs) (m : Mem ω) : Prop :=
  ∀ id ∈ ids, ∀ v var p, ρ id = some v → cfg.var id = some var → refs id = some p →
    (∀ r, p = .reg r → r < n) ∧
    if isGlobal id || !(var.isConst && !spilled id) then ∃ q, operand regs ps p = some q ∧ m.read q = some (.val v) else operand regs ps p = some (.val v)

/-- What LLVM's constant folder may do: only operations on constants have a known value, a constant, which is the value of the operation
if that has one. -/
def FoldSound (F : Floats) (fold : LOp → LVal → LVal → Option LVal) : Prop :=
  ∀ op a b v, fold op a b = some v → a.isConstant = true ∧ b.isConstant = true ∧ v.isConstant = true ∧
    ∀ x y z, constVal a = some x → constVal b = some y → machBin F op x y = some z → constVal v = some z

/-- The globals when the program starts. -/
def initMem {ω : Type} (G : List LGlobal) (w : ω) : Mem ω where
  glob i := ((G[i]?).bind fun g => constVal g.init).map .val
  cells _ := none
  next := 0
  world := w

/-- The program runs, and its main function returns `i`. -/
def RunsTo {ω : Type} (F : Floats) (ext : List Char → List Val → ω → Option (Val × ω)) (M : List LFunc) (G : List LGlobal) (w : ω)
    (i : Int) (w' : ω) : Prop :=
  ∃ m', ICall F ext M 0 [] (initMem G w) (.val (.int i)) m' ∧ m'.world = w'

end Skull.Spec
