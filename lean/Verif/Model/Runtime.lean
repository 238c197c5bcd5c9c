/-
The run time functions that compiled programs call: `_strcmp` and `_int_pow`.

The C back end writes them as C text (codegen/c/write.c), the LLVM back end links the IR in skull/shim.ll.

Bytes are `UInt8`.  The memory a `char *` points into is the list of the bytes from the pointer to the end of the object; reading
past it is undefined.  `none` is undefined behaviour (also signed overflow); loops have fuel and running out of it is `timeout`.
-/
namespace Skull

/-- The outcome of running C or IR code. -/
inductive Run (α : Type) where
  | done (a : α)
  | ub
  | timeout
deriving DecidableEq, Repr

/-! ### The C texts (codegen/c/write.c:98-121) -/

/-- `*p` -/
def derefByte : List UInt8 → Option UInt8
  | [] => none
  | c :: _ => some c

/-- codegen/c/write.c:100-106, the loop: `while (*a && *b) { if (*a != *b) return 0; a++; b++; }`, then line 108,
`return !*a && !*b;`.  Each iteration moves both pointers one byte. -/
def cStrcmp (a b : List UInt8) : Run Bool :=
  match a with
  | [] => .ub
  | x :: a' =>
    if x = 0 then
      -- loop ends; `!*a` holds, so `!*b` is evaluated
      match derefByte b with
      | none => .ub
      | some y => .done (y == 0)
    else
      match derefByte b with
      | none => .ub
      | some y =>
        if y = 0 then .done false       -- loop ends; `!*a` is false
        else if x ≠ y then .done false
        else cStrcmp a' (b.drop 1)

/-- `int64_t` values. -/
def inI64 (v : Int) : Bool := decide (-(2 ^ 63 : Int) ≤ v) && decide (v < (2 ^ 63 : Int))

/-- codegen/c/write.c:119, `for (int64_t i = 1; i < exp; i++) result *= base;`, and line 120.  Signed overflow is undefined. -/
def cIntPowLoop (base exp : Int) : Nat → Int → Int → Run Int
  | 0, _, _ => .timeout
  | fuel + 1, i, result =>
    if i < exp then
      if inI64 (result * base) then
        if inI64 (i + 1) then cIntPowLoop base exp fuel (i + 1) (result * base) else .ub
      else .ub
    else .done result

/-- codegen/c/write.c:117-121. -/
def cIntPow (base exp : Int) : Run Int := cIntPowLoop base exp (exp.toNat + 1) 1 base

/-! ### The IR (skull/shim.ll) -/

/-- A value of the IR: an integer or truth value of any width, read as a signed number (`i1 true` is 1), the address of an
`alloca`, or a position in one of the argument strings. -/
inductive ShimVal where
  | int (v : Int)
  | slot (n : Nat)
  | str (which : Bool) (rest : List UInt8)
deriving DecidableEq, Repr

/-- An operand: a register or a constant. -/
inductive ShimOp where
  | reg (n : Nat)
  | const (v : Int)
deriving DecidableEq, Repr

/-- The instructions that occur in skull/shim.ll. -/
inductive ShimInstr where
  | alloca (dst : Nat)
  | store (v : ShimOp) (ptr : Nat)
  | load (dst ptr : Nat)
  | sext (dst src : Nat)
  | icmpNe (dst : Nat) (a b : ShimOp)
  | icmpSlt (dst : Nat) (a b : ShimOp)
  | gep1 (dst src : Nat)                                -- getelementptr inbounds i8, i8* src, i32 1
  | mulNsw (dst : Nat) (a b : ShimOp)
  | addNsw (dst : Nat) (a b : ShimOp)
  | xorTrue (dst src : Nat)
  | phi (dst : Nat) (arms : List (Nat × ShimOp))        -- label, value
deriving DecidableEq, Repr

inductive ShimTerm where
  | br (l : Nat)
  | condBr (c : Nat) (t f : Nat)
  | ret (r : Nat)
deriving DecidableEq, Repr

structure ShimBlock where
  label : Nat
  body : List ShimInstr
  term : ShimTerm
deriving DecidableEq, Repr

structure ShimState where
  regs : Nat → Option ShimVal
  slots : Nat → Option ShimVal

def setAt (f : Nat → Option ShimVal) (n : Nat) (v : ShimVal) : Nat → Option ShimVal := fun m => if m = n then some v else f m

def ShimState.set (s : ShimState) (n : Nat) (v : ShimVal) : ShimState := { s with regs := setAt s.regs n v }

def shimOp (s : ShimState) : ShimOp → Option ShimVal
  | .reg n => s.regs n
  | .const v => some (.int v)

/-- A signed byte as a number: `sext i8`. -/
def signedByte (c : UInt8) : Int := if c.toNat < 128 then c.toNat else (c.toNat : Int) - 256

def shimInts (s : ShimState) (a b : ShimOp) : Option (Int × Int) :=
  match shimOp s a, shimOp s b with
  | some (.int x), some (.int y) => some (x, y)
  | _, _ => none

/-- One instruction; `none` is undefined behaviour.  `nsw` overflow makes poison, which is treated as undefined here. -/
def shimStep (prev : Nat) (s : ShimState) : ShimInstr → Option ShimState
  | .alloca d => some (s.set d (.slot d))
  | .store v p =>
    match shimOp s v, s.regs p with
    | some x, some (.slot n) => some { s with slots := setAt s.slots n x }
    | _, _ => none
  | .load d p =>
    match s.regs p with
    | some (.slot n) =>
      match s.slots n with
      | some x => some (s.set d x)
      | none => none
    | some (.str _ (c :: _)) => some (s.set d (.int (signedByte c)))
    | _ => none
  | .sext d r =>
    match s.regs r with
    | some (.int x) => some (s.set d (.int x))
    | _ => none
  | .icmpNe d a b =>
    match shimInts s a b with
    | some (x, y) => some (s.set d (.int (if x ≠ y then 1 else 0)))
    | none => none
  | .icmpSlt d a b =>
    match shimInts s a b with
    | some (x, y) => some (s.set d (.int (if x < y then 1 else 0)))
    | none => none
  | .gep1 d r =>
    match s.regs r with
    | some (.str w (_ :: rest)) => some (s.set d (.str w rest))
    | _ => none
  | .mulNsw d a b =>
    match shimInts s a b with
    | some (x, y) => if inI64 (x * y) then some (s.set d (.int (x * y))) else none
    | none => none
  | .addNsw d a b =>
    match shimInts s a b with
    | some (x, y) => if inI64 (x + y) then some (s.set d (.int (x + y))) else none
    | none => none
  | .xorTrue d r =>
    match s.regs r with
    | some (.int x) => some (s.set d (.int (if x = 0 then 1 else 0)))
    | _ => none
  | .phi d arms =>
    match arms.lookup prev with
    | none => none
    | some o =>
      match shimOp s o with
      | some x => some (s.set d x)
      | none => none

def shimBody (prev : Nat) : ShimState → List ShimInstr → Option ShimState
  | s, [] => some s
  | s, i :: is =>
    match shimStep prev s i with
    | none => none
    | some s' => shimBody prev s' is

/-- Run from the block with the given label; `fuel` bounds the number of blocks entered. -/
def shimRun (blocks : List ShimBlock) : Nat → (prev cur : Nat) → ShimState → Run ShimVal
  | 0, _, _, _ => .timeout
  | fuel + 1, prev, cur, s =>
    match blocks.find? (fun b => b.label == cur) with
    | none => .ub
    | some b =>
      match shimBody prev s b.body with
      | none => .ub
      | some s' =>
        match b.term with
        | .br l => shimRun blocks fuel cur l s'
        | .condBr c t f =>
          match s'.regs c with
          | some (.int v) => shimRun blocks fuel cur (if v ≠ 0 then t else f) s'
          | _ => .ub
        | .ret r =>
          match s'.regs r with
          | some v => .done v
          | none => .ub

/-- A call: registers 0 and 1 hold the arguments, the entry block has label 2. -/
def shimCall (blocks : List ShimBlock) (fuel : Nat) (a b : ShimVal) : Run ShimVal :=
  shimRun blocks fuel 2 2 { regs := setAt (setAt (fun _ => none) 0 a) 1 b, slots := fun _ => none }

/-- skull/shim.ll:3-73. -/
def shimStrcmp : List ShimBlock := [
  ⟨2, [.alloca 3, .alloca 4, .alloca 5, .store (.reg 0) 4, .store (.reg 1) 5], .br 6⟩,
  ⟨6, [.load 7 4, .load 8 7, .sext 9 8, .icmpNe 10 (.reg 9) (.const 0)], .condBr 10 11 16⟩,
  ⟨11, [.load 12 5, .load 13 12, .sext 14 13, .icmpNe 15 (.reg 14) (.const 0)], .br 16⟩,
  ⟨16, [.phi 17 [(6, .const 0), (11, .reg 15)]], .condBr 17 18 32⟩,
  ⟨18, [.load 19 4, .load 20 19, .sext 21 20, .load 22 5, .load 23 22, .sext 24 23, .icmpNe 25 (.reg 21) (.reg 24)],
    .condBr 25 26 27⟩,
  ⟨26, [.store (.const 0) 3], .br 43⟩,
  ⟨27, [.load 28 4, .gep1 29 28, .store (.reg 29) 4, .load 30 5, .gep1 31 30, .store (.reg 31) 5], .br 6⟩,
  ⟨32, [.load 33 4, .load 34 33, .icmpNe 35 (.reg 34) (.const 0)], .condBr 35 41 36⟩,
  ⟨36, [.load 37 5, .load 38 37, .icmpNe 39 (.reg 38) (.const 0), .xorTrue 40 39], .br 41⟩,
  ⟨41, [.phi 42 [(32, .const 0), (36, .reg 40)], .store (.reg 42) 3], .br 43⟩,
  ⟨43, [.load 44 3], .ret 44⟩]

/-- skull/shim.ll:77-111. -/
def shimIntPow : List ShimBlock := [
  ⟨2, [.alloca 3, .alloca 4, .alloca 5, .alloca 6, .store (.reg 0) 3, .store (.reg 1) 4, .load 7 3, .store (.reg 7) 5,
    .store (.const 1) 6], .br 8⟩,
  ⟨8, [.load 9 6, .load 10 4, .icmpSlt 11 (.reg 9) (.reg 10)], .condBr 11 12 19⟩,
  ⟨12, [.load 13 3, .load 14 5, .mulNsw 15 (.reg 14) (.reg 13), .store (.reg 15) 5], .br 16⟩,
  ⟨16, [.load 17 6, .addNsw 18 (.reg 17) (.const 1), .store (.reg 18) 6], .br 8⟩,
  ⟨19, [.load 20 5], .ret 20⟩]

end Skull
