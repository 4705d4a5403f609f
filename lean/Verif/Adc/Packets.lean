import Verif.Adc.Messages

/-!
# ADC packets (`adc/packets.go`)

A packet has a message; `Adc/PacketVal` has packets with `Msg == nil`.  Payloads are values: that the raw
payload aliases the line is left out.
-/

namespace Verif.Adc

open Verif.Go Verif.Tiger

/-- `FeatureSel`, `adc/packets.go:599-602`. -/
structure FeatureSel where
  fea : Feature
  sel : Bool
deriving DecidableEq

/-- The packets: `adc/packets.go:134-136`, `194`, `259-262`, `342-346`, `442`, `532-534`, `604-608`, `728-731`. -/
inductive Packet where
  | info (msg : Msg)
  | hub (msg : Msg)
  | broadcast (id : SID) (msg : Msg)
  | direct (id to : SID) (msg : Msg)
  | echo (id to : SID) (msg : Msg)
  | client (msg : Msg)
  | feature (id : SID) (sel : List FeatureSel) (msg : Msg)
  | udp (id : CID) (msg : Msg)

/-- `Kind`, `adc/packets.go:11-20`. -/
def Packet.kind : Packet → Byte
  | .info _ => c!"I"
  | .hub _ => c!"H"
  | .broadcast .. => c!"B"
  | .direct .. => c!"D"
  | .echo .. => c!"E"
  | .client _ => c!"C"
  | .feature .. => c!"F"
  | .udp .. => c!"U"

/-- `Message`, e.g. `adc/packets.go:142-144`. -/
def Packet.message : Packet → Msg
  | .info m | .hub m | .broadcast _ m | .direct _ _ m | .echo _ _ m | .client m | .feature _ _ m | .udp _ m => m

/-- `SetMessage`, e.g. `adc/packets.go:146-148`. -/
def Packet.setMessage (m : Msg) : Packet → Packet
  | .info _ => .info m
  | .hub _ => .hub m
  | .broadcast id _ => .broadcast id m
  | .direct id to _ => .direct id to m
  | .echo id to _ => .echo id to m
  | .client _ => .client m
  | .feature id sel _ => .feature id sel m
  | .udp id _ => .udp id m

/-- One feature selector, `adc/packets.go:648-660`. -/
def FeatureSel.marshal (f : FeatureSel) : Bytes := (if f.sel then b!"+" else b!"-") ++ f.fea.bytes ++ b!" "

/-- What is written between the name of the command and its payload; the text ends with a space: `adc/packets.go:292-300`,
`380-395`, `476-491`, `638-660`, `757-765`. -/
def Packet.header : Packet → Bytes
  | .info _ | .hub _ | .client _ => b!" "
  | .broadcast id _ => b!" " ++ id.bytes ++ b!" "
  | .direct id to _ | .echo id to _ => b!" " ++ id.bytes ++ b!" " ++ to.bytes ++ b!" "
  | .feature id sel _ => b!" " ++ id.bytes ++ b!" " ++ (sel.map FeatureSel.marshal).flatten
  | .udp id _ => b!" " ++ id.base32 ++ b!" "

/-- The end of every `MarshalPacketADC`, e.g. `adc/packets.go:169-179`: with an empty payload the last byte of the header becomes
the line delimiter. -/
def finishLine (header payload : Bytes) : Bytes :=
  if payload.length = 0 then header.dropLast ++ b!"\n" else header ++ payload ++ b!"\n"

/-- `MarshalPacketADC` into an empty buffer: `adc/packets.go:158-180`, `216-238`, `288-313`, `376-408`, `472-504`, `556-578`,
`634-673`, `753-778`. -/
def Packet.marshal (p : Packet) : Res Bytes := do
  let payload ← p.message.marshal
  .ok (finishLine (p.kind :: p.message.cmd.bytes ++ p.header) payload)

/-- `UnmarshalPacketADC` of `InfoPacket`, `adc/packets.go:182-192`. Empty data is sliced out of range. -/
def unmarshalInfo (name : MsgType) (data : Bytes) : Res Packet :=
  if data.length ≠ 0 ∧ data.getLast? ≠ some c!"\n" then .err (.other 120)
  else if data.length = 0 then .panic
  else .ok (.info (.raw name data.dropLast))

/-- `UnmarshalPacketADC` of `HubPacket`, `adc/packets.go:240-252`. -/
def unmarshalHub (name : MsgType) (data : Bytes) : Res Packet :=
  if data.length < 1 then .err (.other 121)
  else if data.getLast? ≠ some c!"\n" then .err (.other 120)
  else .ok (.hub (.raw name data.dropLast))

/-- `UnmarshalPacketADC` of `ClientPacket`, `adc/packets.go:580-592`. -/
def unmarshalClient (name : MsgType) (data : Bytes) : Res Packet :=
  if data.length < 1 then .err (.other 121)
  else if data.getLast? ≠ some c!"\n" then .err (.other 120)
  else .ok (.client (.raw name data.dropLast))

/-- The separator at position `n`, e.g. `adc/packets.go:320`: a space or the line delimiter, or the data is not longer than `n`. -/
def badSep (data : Bytes) (n : Nat) : Prop := data.length > n ∧ data[n]? ≠ some c!" " ∧ data[n]? ≠ some c!"\n"

instance (data : Bytes) (n : Nat) : Decidable (badSep data n) := by unfold badSep; exact inferInstance

/-- The rest after the separator at position `n`, e.g. `adc/packets.go:327-331`; `data` is without the delimiter. -/
def payloadAfter (data : Bytes) (n : Nat) : Bytes := if data.length > n + 1 then data.drop (n + 1) else []

/-- `UnmarshalPacketADC` of `BroadcastPacket`, `adc/packets.go:315-334`. The slice `data[0:4]`, taken after the delimiter was cut
off, may reach over the length into the capacity: it is taken from the data with delimiter. -/
def unmarshalBroadcast (name : MsgType) (data : Bytes) : Res Packet :=
  if data.length < 4 then .err (.other 121)
  else if data.getLast? ≠ some c!"\n" then .err (.other 120)
  else if badSep data 4 then .err (.other 122)
  else do
    let id ← SID.unmarshal (data.take 4)
    .ok (.broadcast id (.raw name (payloadAfter data.dropLast 4)))

/-- The common part of `UnmarshalPacketADC` of `DirectPacket` and `EchoPacket`, `adc/packets.go:410-434` and `506-530`; see
`unmarshalBroadcast` for the slices. -/
def unmarshalPair (name : MsgType) (data : Bytes) (mk : SID → SID → Msg → Packet) : Res Packet :=
  if data.length < 9 then .err (.other 121)
  else if data.getLast? ≠ some c!"\n" then .err (.other 120)
  else if data[4]? ≠ some c!" " then .err (.other 122)
  else if badSep data 9 then .err (.other 122)
  else do
    let id ← SID.unmarshal (data.take 4)
    let to ← SID.unmarshal ((data.drop 5).take 4)
    .ok (mk id to (.raw name (payloadAfter data.dropLast 9)))

/-- One selector, `adc/packets.go:694-709`: the feature at position `i`. In the error message `data[i:i+5]` may reach over the
length; it panics beyond the capacity, which is `room` more than the length. -/
def selAt (room : Nat) (data : Bytes) (i : Nat) : Res Feature :=
  if h : data.length - i < 5 then
    if i + 5 > data.length + room then .panic else .err (.other 123)
  else .ok ⟨(data.drop (i + 1)).take 4, by rw [List.length_take, List.length_drop]; omega⟩

/-- The loop over the selectors, `adc/packets.go:693-720`. -/
def selLoop (room : Nat) (sel : List FeatureSel) (data : Bytes) (i : Nat) : Res (List FeatureSel × Bytes) :=
  match h : data[i]? with
  | none => .ok (sel, data)
  | some c =>
    if c = c!"+" ∨ c = c!"-" then
      match selAt room data i with
      | .panic => .panic
      | .err e => .err e
      | .ok fea =>
        let sel := sel ++ [⟨fea, c == c!"+"⟩]
        if i + 4 + 1 = data.length then .ok (sel, []) else selLoop room sel data (i + 4 + 1)
    else if c = c!" " then
      let data := data.drop i
      if 0 + 1 = data.length then .ok (sel, []) else selLoop room sel data (0 + 1)
    else .ok (sel, data.drop i)
termination_by data.length - i
decreasing_by
  · have := (List.getElem?_eq_some_iff.mp h).1; omega
  · have := (List.getElem?_eq_some_iff.mp h).1; rw [List.length_drop]; omega

/-- `UnmarshalPacketADC` of `FeaturePacket`, `adc/packets.go:675-726`; `room` is the capacity of the data beyond its length. -/
def unmarshalFeature (room : Nat) (name : MsgType) (data : Bytes) : Res Packet :=
  if data.length < 4 then .err (.other 121)
  else if data.getLast? ≠ some c!"\n" then .err (.other 120)
  else if badSep data 4 then .err (.other 122)
  else do
    let id ← SID.unmarshal (data.take 4)
    let (sel, rest) ← selLoop (room + 1) [] (payloadAfter data.dropLast 4) 0
    .ok (.feature id sel (.raw name rest))

/-- `UnmarshalPacketADC` of `UDPPacket`, `adc/packets.go:780-800`; see `unmarshalBroadcast` for the slices. -/
def unmarshalUdp (name : MsgType) (data : Bytes) : Res Packet :=
  if data.length < 39 then .err (.other 121)
  else if data.getLast? ≠ some c!"\n" then .err (.other 120)
  else if badSep data 39 then .err (.other 122)
  else
    match Hash.fromBase32 (data.take 39) with
    | .panic => .panic
    | .err _ => .err (.other 124)
    | .ok id => .ok (.udp id (.raw name (payloadAfter data.dropLast 39)))

/-- The switch over the kinds, `adc/packets.go:97-116`, and the call of `UnmarshalPacketADC`, `adc/packets.go:128`. -/
def unmarshalKind (room : Nat) (kind : Byte) (name : MsgType) (data : Bytes) : Option (Res Packet) :=
  if kind = c!"I" then some (unmarshalInfo name data)
  else if kind = c!"H" then some (unmarshalHub name data)
  else if kind = c!"E" then some (unmarshalPair name data .echo)
  else if kind = c!"D" then some (unmarshalPair name data .direct)
  else if kind = c!"B" then some (unmarshalBroadcast name data)
  else if kind = c!"F" then some (unmarshalFeature room name data)
  else if kind = c!"C" then some (unmarshalClient name data)
  else if kind = c!"U" then some (unmarshalUdp name data)
  else none

/-- `DecodePacketRaw`, `adc/packets.go:88-132`; `room` is the capacity of the line beyond its length. -/
def decodePacketRaw (room : Nat) (p : Bytes) : Res Packet :=
  if h : p.length < 5 then .err (.other 125)
  else if (0 : Byte) ∈ p then .err (.other 126)
  else
    let kind := p[0]'(by omega)
    let name : MsgType := ⟨(p.drop 1).take 3, by rw [List.length_take, List.length_drop]; omega⟩
    match unmarshalKind room kind name (if p[4]? = some c!" " then p.drop 5 else p.drop 4) with
    | none => .err (.other 127)
    | some r =>
      if p.getLast? ≠ some c!"\n" then .err (.other 128)
      else if p[4]? ≠ some c!" " ∧ p[4]? ≠ some c!"\n" then .err (.other 129)
      else r

section
variable [ParseFloat]

/-- `DecodePacket`, `adc/packets.go:75-84`. -/
def decodePacket (room : Nat) (p : Bytes) : Res Packet := do
  let m ← decodePacketRaw room p
  let msg ← decodeMessage m.message
  .ok (m.setMessage msg)

end

end Verif.Adc
