import Verif.Adc.Conn
import Verif.Adc.PacketVal

/-!
# Writing any message

`Adc/Marshal` and `Adc/Messages` give what the messages of the library write.  A program may define messages of its own: a type with a
method `MarshalADC`, which is given the buffer of the packet, or a struct, whose fields may have such methods.  Here encoding is modelled
as it happens in the buffer, for messages of any type, and also if it fails halfway.  A buffer is its contents.
-/

namespace Verif.Adc

open Verif.Go Verif.Lineproto

/-- A call that is given a buffer: how it ends, and what is in the buffer then.  `MarshalADC`, `adc/marshal.go:34-36`. -/
abbrev Put := Bytes → Res Unit × Bytes

/-- `buf.Write` of a text. -/
def Put.text (b : Bytes) : Put := fun buf => (.ok (), buf ++ b)

/-- `marshalValue` of a value of one of the types of the library, `adc/marshal.go:161-195`: it writes nothing if it fails. -/
def Put.value (k : Kind) (v : k.T) : Put := fun buf =>
  match marshalValue k v with
  | .ok b => (.ok (), buf ++ b)
  | .err e => (.err e, buf)
  | .panic => (.panic, buf)

/-- The contents of a field: one value, which may have its own method, or the elements of a slice. -/
inductive Content where
  | one (f : Put)
  | many (fs : List Put)

/-- A field of a struct with a tag: the tag, whether it is required, what `isZero` says (`none` if the values cannot be compared, and it
panics), and the contents. -/
structure AnyField where
  tag : Bytes
  req : Bool
  zero : Option Bool
  content : Content

/-- `adc/marshal.go:241-244`. -/
def AnyField.omit (f : AnyField) : Bool := if f.req then false else f.tag != b!"#"

/-- The loop over a slice, `adc/marshal.go:256-262`; the flag is `first` afterwards. -/
def manyInto (tag : Bytes) : List Put → Bool → Bytes → Res Unit × Bytes × Bool
  | [], first, buf => (.ok (), buf, first)
  | f :: fs, first, buf =>
    match f (buf ++ writeTag first tag) with
    | (.ok _, buf) => manyInto tag fs false buf
    | (r, buf) => (r, buf, false)

/-- One field, `adc/marshal.go:248-269`. -/
def AnyField.into (f : AnyField) (first : Bool) (buf : Bytes) : Res Unit × Bytes × Bool :=
  match f.content with
  | .one g =>
    match g (buf ++ writeTag first f.tag) with
    | (r, buf) => (r, buf, false)
  | .many gs => manyInto f.tag gs first buf

/-- The loop over the fields, `adc/marshal.go:233-271`. -/
def fieldsInto : List AnyField → Bool → Put
  | [], _, buf => (.ok (), buf)
  | f :: fs, first, buf =>
    match (if f.omit then f.zero else some false) with
    | none => (.panic, buf)
    | some true => fieldsInto fs first buf
    | some false =>
      match f.into first buf with
      | (.ok _, buf, first) => fieldsInto fs first buf
      | (r, buf, _) => (r, buf)

/-- A value of the interface `Message`, `adc/messages.go:20-24`: the name that `Cmd` returns, `none` if the call panics, and what
`Marshal` does with it, `adc/marshal.go:207-272`. -/
structure AnyMsg where
  cmd : Option MsgType
  put : Put

/-- A nil message, `adc/marshal.go:208-210`. -/
def AnyMsg.nil : AnyMsg := ⟨none, fun buf => (.ok (), buf)⟩

/-- A message with a method, `adc/marshal.go:211-213`. -/
def AnyMsg.own (cmd : MsgType) (f : Put) : AnyMsg := ⟨some cmd, f⟩

/-- A struct or a pointer to one, `adc/marshal.go:214-272`. -/
def AnyMsg.struct (cmd : MsgType) (fs : List AnyField) : AnyMsg := ⟨some cmd, fieldsInto fs true⟩

/-- Anything else, `adc/marshal.go:218-220`. -/
def AnyMsg.other (cmd : MsgType) : AnyMsg := ⟨some cmd, fun buf => (.err (.other 116), buf)⟩

/-- The contents of a field of one of the types of the library: slices are written element by element, unless they have no tag,
`adc/marshal.go:255`. -/
def anyContent (tag : Bytes) : (k : Kind) → k.T → Content
  | .slice k, vs => if tag ≠ b!"#" then .many (List.map (Put.value k) vs) else .one (fun buf => (.err (.other 105), buf))
  | k, v => .one (Put.value k v)

/-- A field of one of the structs of the library. -/
def Fld.any (f : Fld) (v : f.kind.T) : AnyField := ⟨f.tag, f.req, some (isZero f.kind v), anyContent f.tag f.kind v⟩

/-- The fields of one of the structs of the library. -/
def anyFields : (fs : List Fld) → Row fs → List AnyField
  | [], _ => []
  | f :: fs, (v, row) => f.any v :: anyFields fs row

/-- The messages of the library. -/
def Msg.any : Msg → AnyMsg
  | .struct t row => .struct (Msg.struct t row).cmd (anyFields t.fields row)
  | m => .own m.cmd fun buf =>
    match m.marshal with
    | .ok b => (.ok (), buf ++ b)
    | .err e => (.err e, buf)
    | .panic => (.panic, buf)

/-- What is written before the payload, e.g. `adc/packets.go:160-167`. -/
def Address.lead (a : Address) (cmd : MsgType) : Bytes := a.kind :: cmd.bytes ++ (a.packet (.raw cmd [])).header

/-- `MarshalPacketADC` of a packet with this address and this message, `adc/packets.go:158-180`, `216-238`, `288-313`, `376-408`,
`472-504`, `556-578`, `634-673`, `753-778`. -/
def Address.marshalAny (a : Address) (m : AnyMsg) : Put := fun buf =>
  match m.cmd with
  | none => (.panic, buf)
  | some cmd =>
    match m.put (buf ++ a.lead cmd) with
    | (.ok _, full) =>
      if (buf ++ a.lead cmd).length = full.length then (.ok (), full.set ((buf ++ a.lead cmd).length - 1) c!"\n")
      else (.ok (), full ++ b!"\n")
    | (r, full) => (r, full)

section writer

variable {D : Type} (C : Deflater D)

/-- `Writer`, `adc/writer.go:32-37`: the contents of its buffer and the line writer. -/
structure AnyWriter (D : Type) where
  mbuf : Bytes
  w : Writer D

/-- How a call ends that a program may recover from. -/
inductive Ending where
  | returned (e : Option Err)
  | panicked
deriving DecidableEq, Repr

/-- `WritePacket`, `adc/writer.go:43-50`; `Reset` leaves nothing of the buffer. -/
def AnyWriter.writePacket (a : Address) (m : AnyMsg) (w : AnyWriter D) : Exec (Ending × AnyWriter D) :=
  match a.marshalAny m (w.mbuf.take 0) with
  | (.panic, b) => .val (.panicked, { w with mbuf := b })
  | (.err e, b) => .val (.returned (some e), { w with mbuf := b })
  | (.ok _, b) =>
    match w.w.writeLine C b with
    | .panic => .panic
    | .timeout => .timeout
    | .val (e, lw) => .val (.returned e, ⟨b, lw⟩)

/-- The calls a program makes: it writes a packet with any message, or does one of the other things. -/
inductive AnyOp where
  | packet (a : Address) (m : AnyMsg)
  | keepAlive
  | flush
  | zOn (lvl : Int)
  | zOff
  | close

/-- One call. -/
def AnyWriter.step (w : AnyWriter D) : AnyOp → Exec (Ending × AnyWriter D)
  | .packet a m => w.writePacket C a m
  | .keepAlive => onLines (writeKeepAlive C w.w)
  | .flush => onLines (w.w.flush C)
  | .zOn lvl => onLines (w.w.enableZlib C lvl)
  | .zOff => onLines (w.w.disableZlib C)
  | .close => onLines (w.w.close C)
where
  /-- A call of the line writer. -/
  onLines (r : Exec (Option Err × Writer D)) : Exec (Ending × AnyWriter D) :=
    match r with
    | .panic => .panic
    | .timeout => .timeout
    | .val (e, lw) => .val (.returned e, { w with w := lw })

/-- A sequence of calls: how they end, and the writer afterwards. -/
def AnyWriter.run (w : AnyWriter D) : List AnyOp → Exec (List Ending × AnyWriter D)
  | [] => .val ([], w)
  | op :: ops =>
    match w.step C op with
    | .panic => .panic
    | .timeout => .timeout
    | .val (r, w) =>
      match AnyWriter.run w ops with
      | .panic => .panic
      | .timeout => .timeout
      | .val (rs, w) => .val (r :: rs, w)

end writer

end Verif.Adc
