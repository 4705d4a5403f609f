import Verif.Adc.Own
import Verif.Adc.Conn

/-!
# Reading packets with messages of the caller's own types (`adc/reader.go`)

`Adc/Conn` models the calls of the reader for the messages of the library.  Here the map of registered types may hold types of the caller,
whose methods may panic; a program may recover from that and go on reading.
-/

namespace Verif.Adc

open Verif.Go Verif.Lineproto Verif.Registry

/-- What the calls return: a packet, given by its address and its message, or a message. -/
inductive OwnOut (U : Type) : Type 1 where
  | packet (a : Address) (m : OwnMsg U)
  | message (m : OwnMsg U)

/-- How a call ends that a program may recover from. -/
inductive OwnEnd (U : Type) : Type 1 where
  | returned (out : OwnOut U)
  | failed (e : Err)
  | panicked

section
variable [ParseFloat] [ParseFloat32] {U : Type} (types : U → OwnType) (reg : Reg MsgType (Msg ⊕ U))

/-- `DecodeMessage` and what is returned after it, `adc/packets.go:80-83`, `adc/reader.go:52-55` and `67-70`. -/
def decodedAs (m : Msg) (out : OwnMsg U → OwnOut U) : OwnEnd U :=
  match decodeMessageOf types reg (.lib m) with
  | (m, .ok _) => .returned (out m)
  | (_, .err e) => .failed e
  | (_, .panic) => .panicked

/-- What a call makes of the raw packet: `adc/reader.go:31` with `adc/packets.go:80-83`, `adc/reader.go:40`, `48-55`, `63-70`. -/
def Call.ofPacket (p : Packet) : Call → OwnEnd U
  | .packet => decodedAs types reg p.message (.packet p.address)
  | .raw => .returned (.packet p.address (.lib p.message))
  | .info =>
    match p with
    | .info msg => decodedAs types reg msg .message
    | _ => .failed (.other 131)
  | .client =>
    match p with
    | .client msg => decodedAs types reg msg .message
    | _ => .failed (.other 132)

/-- A call of the reader, `adc/reader.go:25-79`.  The line is read before the message is decoded, so the reader is the same however the
decoding ends. -/
def AReader.readOf {Z : Type} (I : Inflater Z) (c : Call) (room fuel : Nat) (r : AReader Z) : Exec (OwnEnd U × AReader Z) :=
  match r.readPacketLine I fuel 0 with
  | .panic => .panic
  | .timeout => .timeout
  | .val (.error e, r') => .val (.failed e, r')
  | .val (.ok line, r') =>
    match decodePacketRaw room line with
    | .err e => .val (.failed e, r')
    | .panic => .val (.panicked, r')
    | .ok p => .val (c.ofPacket types reg p, r')

end

end Verif.Adc
