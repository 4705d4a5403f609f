import Verif.Adc.Packets

/-!
# ADC packets as values that are used again (`adc/packets.go`)

`Adc/Packets` treats a packet as something that is decoded once and always has a message.  Here a packet is a Go value: its message
may be nil, and the methods of the interface `Packet` are called on it one after the other.
-/

namespace Verif.Adc

open Verif.Go Verif.Tiger

/-- The fields of a packet besides the message: `adc/packets.go:134-136`, `194`, `259-262`, `342-346`, `442`, `532-534`, `604-608`,
`728-731`. -/
inductive Address where
  | info
  | hub
  | broadcast (id : SID)
  | direct (id to : SID)
  | echo (id to : SID)
  | client
  | feature (id : SID) (sel : List FeatureSel)
  | udp (id : CID)
deriving DecidableEq

/-- A packet; a nil message is `none`. -/
structure PacketVal where
  address : Address
  msg : Option Msg

/-- `Kind`, `adc/packets.go:138-140`, `196-198`, `264-266`, `348-350`, `444-446`, `536-538`, `610-612`, `733-735`. -/
def Address.kind : Address → Byte
  | .info => c!"I"
  | .hub => c!"H"
  | .broadcast .. => c!"B"
  | .direct .. => c!"D"
  | .echo .. => c!"E"
  | .client => c!"C"
  | .feature .. => c!"F"
  | .udp .. => c!"U"

/-- `Source` of the packets that are a `PeerPacket`, `adc/packets.go:268-270`, `352-354`, `448-450`, `614-616`. -/
def Address.source : Address → Option SID
  | .broadcast id | .direct id _ | .echo id _ | .feature id _ => some id
  | _ => none

/-- `Target` of the packets that are a `TargetPacket`, `adc/packets.go:356-358`, `452-454`. -/
def Address.target : Address → Option SID
  | .direct _ to | .echo _ to => some to
  | _ => none

/-- The packet of `Adc/Packets` with this address and this message. -/
def Address.packet (m : Msg) : Address → Packet
  | .info => .info m
  | .hub => .hub m
  | .broadcast id => .broadcast id m
  | .direct id to => .direct id to m
  | .echo id to => .echo id to m
  | .client => .client m
  | .feature id sel => .feature id sel m
  | .udp id => .udp id m

/-- The address of a packet of `Adc/Packets`. -/
def Packet.address : Packet → Address
  | .info _ => .info
  | .hub _ => .hub
  | .broadcast id _ => .broadcast id
  | .direct id to _ => .direct id to
  | .echo id to _ => .echo id to
  | .client _ => .client
  | .feature id sel _ => .feature id sel
  | .udp id _ => .udp id

/-- A packet of `Adc/Packets` as a value. -/
def Packet.val (p : Packet) : PacketVal := ⟨p.address, some p.message⟩

/-- How a call on a packet ends: a panic, or an error value (`none` for nil) and the packet afterwards. -/
inductive Ended where
  | panic
  | done (err : Option Err) (p : PacketVal)

/-- `SetMessage`, e.g. `adc/packets.go:146-148`. -/
def PacketVal.setMessage (p : PacketVal) (m : Option Msg) : PacketVal := { p with msg := m }

/-- `MarshalPacketADC`: what is in the buffer afterwards, `adc/packets.go:158-180`, `216-238`, `288-313`, `376-408`, `472-504`,
`556-578`, `634-673`, `753-778`. The call of `Cmd` on a nil message panics. The length of the buffer is compared before and after the
payload; if it has not grown, the last byte becomes the delimiter. What is in the buffer after an error is in `Adc/Buffer`. -/
def PacketVal.marshalTo (buf : Bytes) (p : PacketVal) : Res Bytes :=
  match p.msg with
  | none => .panic
  | some m =>
    let head := buf ++ (p.address.kind :: m.cmd.bytes ++ (p.address.packet m).header)
    match m.marshal with
    | .panic => .panic
    | .err e => .err e
    | .ok payload =>
      let full := head ++ payload
      if head.length = full.length then .ok (full.set (head.length - 1) c!"\n") else .ok (full ++ b!"\n")

/-- The loop over the selectors, `adc/packets.go:693-720`, with the selectors that are in `p.Sel` when it is left. -/
def selFill (room : Nat) (sel : List FeatureSel) (data : Bytes) (i : Nat) : List FeatureSel × Res Bytes :=
  match h : data[i]? with
  | none => (sel, .ok data)
  | some c =>
    if c = c!"+" ∨ c = c!"-" then
      match selAt room data i with
      | .panic => (sel, .panic)
      | .err e => (sel, .err e)
      | .ok fea =>
        let sel := sel ++ [⟨fea, c == c!"+"⟩]
        if i + 4 + 1 = data.length then (sel, .ok []) else selFill room sel data (i + 4 + 1)
    else if c = c!" " then
      let data := data.drop i
      if 0 + 1 = data.length then (sel, .ok []) else selFill room sel data (0 + 1)
    else (sel, .ok (data.drop i))
termination_by data.length - i
decreasing_by
  · have := (List.getElem?_eq_some_iff.mp h).1; omega
  · have := (List.getElem?_eq_some_iff.mp h).1; rw [List.length_drop]; omega

/-- `UnmarshalPacketADC` of the packets that assign no field before the last check: the packet stays as it is on an error. In
`BroadcastPacket`, `DirectPacket` and `EchoPacket` the ids are assigned first, but reading them from four bytes cannot fail; a
`UDPPacket` keeps its id if the text is not base32, `adc/types/types.go:123-130`. -/
def PacketVal.replaced (p : PacketVal) : Res Packet → Ended
  | .panic => .panic
  | .err e => .done (some e) p
  | .ok q => .done none q.val

/-- `UnmarshalPacketADC` of `FeaturePacket`, `adc/packets.go:675-726`. -/
def PacketVal.unmarshalFeature (room : Nat) (name : MsgType) (data : Bytes) (p : PacketVal) : Ended :=
  if data.length < 4 then .done (some (.other 121)) p
  else if data.getLast? ≠ some c!"\n" then .done (some (.other 120)) p
  else if badSep data 4 then .done (some (.other 122)) p
  else match SID.unmarshal (data.take 4) with
    | .panic => .panic
    | .err e => .done (some e) p
    | .ok id =>
      match selFill (room + 1) [] (payloadAfter data.dropLast 4) 0 with
      | (_, .panic) => .panic
      | (sel, .err e) => .done (some e) ⟨.feature id sel, p.msg⟩
      | (sel, .ok rest) => .done none ⟨.feature id sel, some (.raw name rest)⟩

/-- `UnmarshalPacketADC` called on a packet: `adc/packets.go:182-192`, `240-252`, `315-334`, `410-434`, `506-530`, `580-592`,
`675-726`, `780-800`. -/
def PacketVal.unmarshal (room : Nat) (name : MsgType) (data : Bytes) (p : PacketVal) : Ended :=
  match p.address with
  | .info => p.replaced (unmarshalInfo name data)
  | .hub => p.replaced (unmarshalHub name data)
  | .client => p.replaced (unmarshalClient name data)
  | .broadcast _ => p.replaced (unmarshalBroadcast name data)
  | .direct .. => p.replaced (unmarshalPair name data .direct)
  | .echo .. => p.replaced (unmarshalPair name data .echo)
  | .udp _ => p.replaced (unmarshalUdp name data)
  | .feature .. => p.unmarshalFeature room name data

section
variable [ParseFloat]

/-- `DecodeMessage`, `adc/packets.go:46-62`: the message is assigned only if decoding succeeded; a nil message is no raw message. -/
def PacketVal.decode (p : PacketVal) : Ended :=
  match p.msg with
  | some (.raw typ data) =>
    match unmarshalMessage typ data with
    | .panic => .panic
    | .err e => .done (some e) p
    | .ok m => .done none { p with msg := some m }
  | _ => .done none p

/-- `DecodeMessageTo`, `adc/packets.go:64-72`: what the target holds afterwards. The packet is passed by its message only and stays
as it is; a nil message is no raw message. -/
def PacketVal.decodeTo (p : PacketVal) (to : Msg) : Res Msg :=
  match p.msg with
  | some m => decodeMessageTo m to
  | none => .err (.other 114)

/-- The calls that can be made on a packet. -/
inductive POp where
  | setMessage (m : Option Msg)
  | decode
  | decodeTo (to : Msg)
  | marshal (buf : Bytes)
  | unmarshal (room : Nat) (name : MsgType) (data : Bytes)

/-- The error of a result, for calls whose value does not matter here. -/
def endOf (p : PacketVal) {α : Type} : Res α → Ended
  | .panic => .panic
  | .err e => .done (some e) p
  | .ok _ => .done none p

/-- One call. -/
def PacketVal.step (p : PacketVal) : POp → Ended
  | .setMessage m => .done none (p.setMessage m)
  | .decode => p.decode
  | .decodeTo to => endOf p (p.decodeTo to)
  | .marshal buf => endOf p (p.marshalTo buf)
  | .unmarshal room name data => p.unmarshal room name data

/-- A history of calls: the packet afterwards and the errors, `none` if a call panicked. -/
def PacketVal.run : PacketVal → List POp → Option (List (Option Err) × PacketVal)
  | p, [] => some ([], p)
  | p, op :: ops =>
    match p.step op with
    | .panic => none
    | .done e q => (q.run ops).map (fun r => (e :: r.1, r.2))

end

end Verif.Adc
