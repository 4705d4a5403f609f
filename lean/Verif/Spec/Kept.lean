import Verif.Lineproto.Writer

/-!
# How much of what is written a writer keeps back (specification)
-/

namespace Verif.Spec.Kept

open Verif.Lineproto

/-- The size of the buffer: what was asked for, or else 4096 bytes. -/
def capacity (size : Int) : Nat := if 0 < size then size.toNat else 4096

/-- A line, a flush or raw bytes. -/
def Sends : WOp → Prop
  | .line _ | .flush | .write _ => True
  | _ => False

/-- The bytes a call gives to the writer. -/
def given : WOp → Bytes
  | .line l => l
  | .write p => p
  | _ => []

/-- The number of bytes kept back after a call, when `held` bytes were kept back before it. A line is kept if it fits. If not, and nothing was kept
back, it is sent at once; otherwise the buffer is filled and sent, and what is left of the line is kept if it fits and sent at once if not. -/
def after (cap held : Nat) : WOp → Nat
  | .line l =>
    if held + l.length ≤ cap then held + l.length
    else if held = 0 then 0
    else if held + l.length - cap ≤ cap then held + l.length - cap
    else 0
  | _ => 0

/-- The number of bytes kept back after some calls. -/
def kept (cap : Nat) (ops : List WOp) : Nat := ops.foldl (after cap) 0

end Verif.Spec.Kept
