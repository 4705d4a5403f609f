import Verif.Lineproto.Writer
import Verif.Lineproto.ReaderOps
import Verif.Adc.Packets

/-!
# ADC connections: `adc/writer.go` and `adc/reader.go`

The reader hands out slices of its buffer; how much of the buffer is free after the line is given to each call (`room`), see
`decodePacketRaw`.
-/

namespace Verif.Adc

open Verif.Go Verif.Lineproto

section writer

variable {D : Type} (C : Deflater D)

/-- `lineDelim`, `adc/packets.go:9`. -/
def lineDelim : Byte := c!"\n"

/-- `WriteKeepAlive`, `adc/writer.go:39-41`. The state of the writer is that of the embedded line writer: the buffer `mbuf` is reset
before each use. -/
def writeKeepAlive (w : Writer D) : Exec (Option Err × Writer D) := w.writeLine C [lineDelim]

/-- `WritePacket`, `adc/writer.go:43-50`. -/
def writePacket (p : Packet) (w : Writer D) : Exec (Option Err × Writer D) :=
  match p.marshal with
  | .panic => .panic
  | .err e => .val (some e, w)
  | .ok l => w.writeLine C l

/-- The destinations of `WriteInfo`, `WriteHub`, ..., `adc/writer.go:57-108`, and of the streams, `adc/writer.go:110-234`. -/
inductive Dest where
  | info
  | hub
  | client
  | broadcast (frm : SID)
  | direct (frm to : SID)
  | echo (frm to : SID)
  | feature (frm : SID) (sel : List FeatureSel)

/-- The packet that is written, `adc/writer.go:57-108`. -/
def Dest.packet (msg : Msg) : Dest → Packet
  | .info => .info msg
  | .hub => .hub msg
  | .client => .client msg
  | .broadcast frm => .broadcast frm msg
  | .direct frm to => .direct frm to msg
  | .echo frm to => .echo frm to msg
  | .feature frm sel => .feature frm sel msg

/-- The calls a user of the writer can make. `Flush`, `EnableZlibLevel`, `DisableZlib` and `Close` are those of the line writer. -/
inductive AOp where
  | keepAlive
  | packet (p : Packet)
  /-- `WriteInfo` and so on, or `WriteMessage` of a stream. -/
  | message (d : Dest) (msg : Msg)
  | flush
  | zOn (lvl : Int)
  | zOff
  | close

/-- One call and its error. -/
def aStep (op : AOp) (w : Writer D) : Exec (Option Err × Writer D) :=
  match op with
  | .keepAlive => writeKeepAlive C w
  | .packet p => writePacket C p w
  | .message d msg => writePacket C (d.packet msg) w
  | .flush => w.flush C
  | .zOn lvl => w.enableZlib C lvl
  | .zOff => w.disableZlib C
  | .close => w.close C

/-- A history of calls with their errors. -/
def aRun : List AOp → Writer D → Exec (List (Option Err) × Writer D)
  | [], w => .val ([], w)
  | op :: ops, w =>
    match aStep C op w with
    | .panic => .panic
    | .timeout => .timeout
    | .val (e, w) =>
      match aRun ops w with
      | .panic => .panic
      | .timeout => .timeout
      | .val (es, w) => .val (e :: es, w)

end writer

section reader

variable {Z : Type} (I : Inflater Z)

/-- `Reader`, `adc/reader.go:18-23`. `OnKeepAlive` is the list of its results, by the number of the line within a call; a callback
that is nil or always succeeds is `fun _ => none`. -/
structure AReader (Z : Type) where
  lines : Reader Z
  onKeepAlive : Nat → Option Err := fun _ => none

/-- `NewReader`, `adc/reader.go:11-15`. -/
def newAReader (s : Src) : AReader Z := { lines := newReader s lineDelim }

/-- `readPacket`, `adc/reader.go:82-100`; `k` counts the lines of the call. -/
def AReader.readPacketLine : Nat → Nat → AReader Z → Exec (Except Err Bytes × AReader Z)
  | 0, _, _ => .timeout
  | fuel + 1, k, r =>
    match r.lines.readLine I fuel with
    | .panic => .panic
    | .timeout => .timeout
    | .val ((_, some e), lr) => .val (.error e, { r with lines := lr })
    | .val ((s, none), lr) =>
      if s.getLast? ≠ some lineDelim then .val (.error (.other 130), { r with lines := lr })
      else if s.length > 1 then .val (.ok s, { r with lines := lr })
      else
        match r.onKeepAlive k with
        | some e => .val (.error e, { r with lines := lr })
        | none => AReader.readPacketLine fuel (k + 1) { r with lines := lr }

/-- The reading calls. -/
inductive Call where
  /-- `ReadPacket`, `adc/reader.go:26-32` -/
  | packet
  /-- `ReadPacketRaw`, `adc/reader.go:35-41` -/
  | raw
  /-- `ReadInfo`, `adc/reader.go:43-56` -/
  | info
  /-- `ReadClient`, `adc/reader.go:58-71` -/
  | client

/-- What they return. -/
inductive Out where
  | packet (p : Packet)
  | message (m : Msg)

variable [ParseFloat]

/-- What the calls do with a line: `adc/reader.go:31`, `40`, `48-55`, `63-70`. -/
def Call.decode (room : Nat) (line : Bytes) : Call → Res Out
  | .packet => do let p ← decodePacket room line; .ok (.packet p)
  | .raw => do let p ← decodePacketRaw room line; .ok (.packet p)
  | .info => do
    let p ← decodePacketRaw room line
    match p with
    | .info msg => do let m ← decodeMessage msg; .ok (.message m)
    | _ => .err (.other 131)
  | .client => do
    let p ← decodePacketRaw room line
    match p with
    | .client msg => do let m ← decodeMessage msg; .ok (.message m)
    | _ => .err (.other 132)

/-- A call of the reader. -/
def AReader.read (c : Call) (room fuel : Nat) (r : AReader Z) : Exec (Except Err Out × AReader Z) :=
  match r.readPacketLine I fuel 0 with
  | .panic => .panic
  | .timeout => .timeout
  | .val (.error e, r') => .val (.error e, r')
  | .val (.ok line, r') =>
    match c.decode room line with
    | .ok out => .val (.ok out, r')
    | .err e => .val (.error e, r')
    | .panic => .panic

end reader

end Verif.Adc
