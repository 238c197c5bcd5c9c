import Verif.Spec.Machine
/-
How a process ends: `_start` runs until `exit` is called.
-/
namespace Skull.Spec

/-- The code runs until `exit` is called with `i`; `w` is the world at that time. -/
inductive IExit {ω : Type} (F : Floats) (ext : List Char → List Val → ω → Option (Val × ω)) (M : List LFunc) :
    Nat → List LInstr → Regs → List MVal → Mem ω → Int → ω → Prop
  | step {f i rest regs ps m regs' m' j w} : step F ps regs m i = some (regs', m') →
      IExit F ext M f rest regs' ps m' j w → IExit F ext M f (i :: rest) regs ps m j w
  | call {f r g args vs rest regs ps m x m' j w} : operands regs ps args = some vs → ICall F ext M g vs m x m' →
      IExit F ext M f rest (regs.set r x) ps m' j w → IExit F ext M f (.call r g args :: rest) regs ps m j w
  | inside {f r g x args vs code rest regs ps m j w} : operands regs ps args = some vs → M[g]? = some x →
      x.params.length = vs.length → blockOf M g 0 = some code → IExit F ext M g code (fun _ => none) vs m j w →
      IExit F ext M f (.call r g args :: rest) regs ps m j w
  | exit {f r g x args rest regs ps m j} : operands regs ps args = some [.val (.int j)] → M[g]? = some x → x.blocks = [] →
      x.name = "exit".toList → IExit F ext M f (.call r g args :: rest) regs ps m j m.world
  | br {f b code rest regs ps m j w} : blockOf M f b = some code → IExit F ext M f code regs ps m j w →
      IExit F ext M f (.br (some b) :: rest) regs ps m j w
  | condBr {f c t e b code rest regs ps m j w} : operand regs ps c = some (.val (.bool b)) →
      blockOf M f (if b then t else e) = some code → IExit F ext M f code regs ps m j w →
      IExit F ext M f (.condBr c t e :: rest) regs ps m j w

/-- The process that begins at `_start` calls `exit` with `i`. -/
def Exits {ω : Type} (F : Floats) (ext : List Char → List Val → ω → Option (Val × ω)) (M : List LFunc) (G : List LGlobal) (w : ω)
    (i : Int) (w' : ω) : Prop :=
  ∃ g x code, M[g]? = some x ∧ x.name = "_start".toList ∧ blockOf M g 0 = some code ∧
    IExit F ext M g code (fun _ => none) [] (initMem G w) i w'

end Skull.Spec
