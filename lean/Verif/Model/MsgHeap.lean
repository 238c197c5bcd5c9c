import Verif.Model.ContHeap
import Verif.Model.Errors
/-
skull/common/errors.c with the memory that it allocates.  What messages say is that of `Model/Errors`.

The texts that messages point to but do not own (names of types and variables, text of tokens, constants) are left out.
-/
namespace Skull.MsgHeap
open Skull
open Skull.ContHeap (M alloc use free ofOption HVec makeVectorH vectorPushH freeVectorH)

/-- errors.h:95-106 `Message`, and the block of `real`, if it has one. -/
structure MsgH where
  m : Message
  real : Option Nat := none

/-- errors.c:236-245: `message_stringify` sets `real`. -/
def setsReal (m : Message) : Bool :=
  m.var.isSome || m.type.isSome || m.str32.isSome || m.i != 0 || (m.tok.isSome && m.real.isNone && m.str.isNone)

/-- errors.c:235-246 `message_stringify`. -/
def stringifyH (x : MsgH) : M MsgH :=
  if setsReal x.m then do
    let b ← alloc
    use b
    pure ⟨messageStringify x.m, some b⟩
  else pure ⟨messageStringify x.m, x.real⟩

/-- `msg->real || msg->str`, after `message_stringify`. -/
def hasText (m : Message) : Bool := (messageStringify m).real.isSome || (messageStringify m).str.isSome

/-- errors.c:134-142, as `stringifyAll`. -/
def stringifyAllH : List MsgH → M (List MsgH)
  | [] => fun _ => none
  | x :: rest => do
    let y ← stringifyH x
    if hasText x.m then do
      let ys ← stringifyAllH rest
      pure (y :: ys)
    else pure []

def useOpt : Option Nat → M Unit
  | none => pure ()
  | some b => use b

def freeOpt : Option Nat → M Unit
  | none => pure ()
  | some b => free b

/-- The texts are read in errors.c:192-224. -/
def useReals : List MsgH → M Unit
  | [] => pure ()
  | x :: xs => do
    useOpt x.real
    useReals xs

/-- errors.c:169-172. -/
def freeReals : List MsgH → M Unit
  | [] => pure ()
  | x :: xs => do
    freeOpt x.real
    freeReals xs

/-- errors.c:177-190 `get_location_str`; NULL if there is no place. -/
def locationH (m : Message) : M (Option Nat) :=
  if (locationStr m).isEmpty then pure none
  else do
    let b ← alloc
    use b
    pure (some b)

def firstMsg : List MsgH → Message
  | [] => ({} : Message)
  | x :: _ => x.m

/-- errors.c:127-175 `fmt_message_internal` on `(Message[]){ msgs, {0} }` (errors.h:117, 122): the text, and its block. -/
def fmtInternalH (color : Bool) (filename : List UInt8) (kind : DiagKind) (code : Code) (msgs : List MsgH) : M (List UInt8 × Nat) := do
  let ms ← stringifyAllH (msgs ++ [⟨{}, none⟩])
  let pre ← alloc
  use pre
  let loc ← locationH (firstMsg msgs)
  useReals ms
  let err ← alloc
  use err
  let text ← ofOption (fmtMessage color filename kind code (msgs.map (·.m)))
  use pre
  useOpt loc
  use err
  let out ← alloc
  use out
  free pre
  freeOpt loc
  free err
  freeReals ms
  pure (text, out)

/-- `error_msgs`: the messages so far, with their texts. -/
abbrev Errs := Option (HVec (List UInt8 × Nat))

/-- errors.c:118-119. -/
def errsH : Errs → M (HVec (List UInt8 × Nat))
  | none => makeVectorH _
  | some v => pure v

/-- errors.c:114-120 `fmt_message`. -/
def fmtMessageH (color : Bool) (filename : List UInt8) (kind : DiagKind) (code : Code) (msgs : List MsgH) (errs : Errs) : M Errs := do
  let msg ← fmtInternalH color filename kind code msgs
  let v ← errsH errs
  let v ← vectorPushH v msg
  pure (some v)

/-- errors.c:263. -/
def printH (quiet : Bool) (b : Nat) : M Unit := if quiet then pure () else use b

/-- errors.c:262-265 `write_error_msg`. -/
def writeErrorH (quiet : Bool) (msg : List UInt8 × Nat) : M Unit := do
  printH quiet msg.2
  free msg.2

/-- errors.c:248-253 `write_and_free_errors`. -/
def writeAndFreeH (quiet : Bool) : Errs → M Unit
  | none => pure ()
  | some v => freeVectorH (some (writeErrorH quiet)) v

end Skull.MsgHeap
