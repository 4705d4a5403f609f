import Verif.Adc.Conn
import Verif.Nmdc.Memory

/-!
# `adc.Reader` with its memory

The reader over `Verif/Lineproto/Memory.lean`: which results are windows on the line, and which are copies.

* The messages with a `[]byte` field are `RawMessage` (`adc/messages.go:59-62`) and `GetPassword` (`adc/hub.go:68-70`).  Their
  `UnmarshalADC` makes a new array (`adc/messages.go:77-80`, `adc/hub.go:84-89`).
* `ReadPacketRaw` returns a `RawMessage` whose data is a part of the line (`adc/packets.go:86-88`); it ends where the delimiter of the
  line is.
* Errors hold no slices.
-/

namespace Verif.Adc.Mem

open Verif.Go Verif.Lineproto Verif.Lineproto.Mem Verif.Nmdc.Mem

/-- The contents of the `[]byte` field of a message. -/
def dataOf : Msg → Option Bytes
  | .raw _ d => some d
  | .getPassword d => some d
  | _ => none

/-- The message with other contents of its `[]byte` field. -/
def withData (d : Bytes) : Msg → Msg
  | .raw typ _ => .raw typ d
  | .getPassword _ => .getPassword d
  | m => m

/-- The message of a result. -/
def outMsg : Out → Msg
  | .packet p => p.message
  | .message m => m

/-- The result with another message. -/
def outWith (m : Msg) : Out → Out
  | .packet p => .packet (p.setMessage m)
  | .message _ => .message m

/-- A result: what it was when it was returned, and where its bytes are. -/
structure MOut where
  out : Out
  data : Option Win

/-- What the result says when it is looked at in the memory `h`. -/
def MOut.seen (h : Heap) (o : MOut) : Out :=
  match o.data with
  | none => o.out
  | some w => outWith (withData (w.bytes h) (outMsg o.out)) o.out

variable {Z : Type}

/-- A reader, `adc/reader.go:18-23`; see `AReader`. -/
structure MAReader (Z : Type) where
  lines : MReader Z
  onKeepAlive : Nat → Option Err := fun _ => none

/-- `readPacket`, `adc/reader.go:82-100`; `k` counts the lines of the call.  `seen` are the arrays of the lines that were read, the
last one first. -/
def MAReader.readPacketLine (I : Inflater Z) (W : World) :
    Nat → Nat → MAReader Z → Heap → List Nat → Exec (Except Err Slice × MAReader Z × Heap × List Nat)
  | 0, _, _, _, _ => .timeout
  | fuel + 1, k, r, h, seen =>
    match r.lines.readLine I W fuel h with
    | .panic => .panic
    | .timeout => .timeout
    | .val ((s, some e), lr, h') => .val (.error e, { r with lines := lr }, h', arrs s ++ seen)
    | .val ((none, none), lr, h') => .val (.error (.other 130), { r with lines := lr }, h', seen)
    | .val ((some s, none), lr, h') =>
      if (s.bytes h').getLast? ≠ some lineDelim then .val (.error (.other 130), { r with lines := lr }, h', s.arr :: seen)
      else if (s.bytes h').length > 1 then .val (.ok s, { r with lines := lr }, h', s.arr :: seen)
      else
        match r.onKeepAlive k with
        | some e => .val (.error e, { r with lines := lr }, h', s.arr :: seen)
        | none => MAReader.readPacketLine I W fuel (k + 1) { r with lines := lr } h' (s.arr :: seen)

/-- Where the bytes of the result are: in the line for `ReadPacketRaw`, else in a new array. -/
def place (c : Call) (s : Slice) (h : Heap) (out : Out) : MOut × Heap :=
  match dataOf (outMsg out) with
  | none => (⟨out, none⟩, h)
  | some d =>
    if c matches .raw then (⟨out, some ⟨s.arr, (s.bytes h).length - 1 - d.length, d.length⟩⟩, h)
    else
      match h.alloc d with
      | (a, h') => (⟨out, some ⟨a, 0, d.length⟩⟩, h')

variable [ParseFloat]

/-- A call of the reader, `adc/reader.go:26-71`; see `AReader.read`. -/
def MAReader.read (I : Inflater Z) (W : World) (c : Call) (room fuel : Nat) (r : MAReader Z) (h : Heap) :
    Exec (Except Err MOut × MAReader Z × Heap × List Nat) :=
  match r.readPacketLine I W fuel 0 h [] with
  | .panic => .panic
  | .timeout => .timeout
  | .val (.error e, r', h', seen) => .val (.error e, r', h', seen)
  | .val (.ok s, r', h', seen) =>
    match c.decode room (s.bytes h') with
    | .ok out => .val (.ok (place c s h' out).1, r', (place c s h' out).2, seen)
    | .err e => .val (.error e, r', h', seen)
    | .panic => .panic

end Verif.Adc.Mem
