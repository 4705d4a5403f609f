import Verif.Adc.PacketVal
import Verif.Tiger.HashVar

/-!
# The receiver of `Unmarshal` (`adc/marshal.go`, `adc/messages.go`, `adc/files.go`, `adc/hub.go`, `adc/types.go`)

`Unmarshal` is given a pointer: it assigns field by field, and what it has assigned stays when it fails.  The decoders of the other files give
the value of a call that succeeds; here they are written a second time so that they give the value behind the pointer in every case.
-/

namespace Verif.Adc

open Verif.Go Verif.Tiger

/-- A variable that is assigned only if the call succeeds. -/
def assigned {α : Type} (cur : α) : Res α → α × Res Unit
  | .ok v => (v, .ok ())
  | .err e => (cur, .err e)
  | .panic => (cur, .panic)

/-- The result of a call whose variable is looked at only if the call succeeds. -/
def value {α : Type} : α × Res Unit → Res α
  | (v, .ok _) => .ok v
  | (_, .err e) => .err e
  | (_, .panic) => .panic

/-- The loop of `Path.UnmarshalADC`, `adc/types.go:292-298`: every element is appended to the variable at once. -/
def Path.fillLoop (p : Path) : List Bytes → Path × Res Unit
  | [] => (p, .ok ())
  | a :: arr =>
    match String.unmarshal a with
    | .ok path => Path.fillLoop (p ++ [path]) arr
    | .err e => (p, .err e)
    | .panic => (p, .panic)

/-- `Path.UnmarshalADC`, `adc/types.go:290-300`. -/
def Path.fill (data : Bytes) (cur : Path) : Path × Res Unit := Path.fillLoop cur (split data c!"/")

section
variable [ParseFloat]

/-- `unmarshalValue`, `adc/marshal.go:43-96`. Only `tiger.Hash` and `Path` are changed by a call that fails; a pointer is set when what it points
to has been read. -/
def fillValue (s : Bytes) : (k : Kind) → k.T → k.T × Res Unit
  | .tth, cur => Hash.setBuffer cur s
  | .path, cur => Path.fill s cur
  | k, cur => assigned cur (unmarshalValue s k cur)

/-- A field with a tag, `adc/marshal.go:127-156`; a slice is set when all its elements have been read. -/
def fillTagged (vals : List Bytes) : (k : Kind) → k.T → k.T × Res Unit
  | .slice k, cur => if vals.length > 0 then assigned cur (unmarshalSlice k vals) else (cur, .ok ())
  | k, cur =>
    match vals with
    | [] => (cur, .ok ())
    | v :: rest =>
      if k.custom then fillValue v k cur
      else if rest.length > 0 then (cur, .err (.other 104))
      else fillValue v k cur

/-- The loop of `Unmarshal`, `adc/marshal.go:114-157`. -/
def fillFields : (fs : List Fld) → List Bytes → Row fs → Row fs × Res Unit
  | [], _, _ => ((), .ok ())
  | f :: fs, sub, (cur, row) =>
    if f.tag = b!"#" then
      match sub with
      | [] => ((cur, row), .panic)
      | v :: sub =>
        match fillValue v f.kind cur with
        | (x, .ok _) => ((x, (fillFields fs sub row).1), (fillFields fs sub row).2)
        | (x, r) => ((x, row), r)
    else
      match fillTagged (taggedVals f.tag sub) f.kind cur with
      | (x, .ok _) => ((x, (fillFields fs sub row).1), (fillFields fs sub row).2)
      | (x, r) => ((x, row), r)

/-- `Unmarshal` into a struct, `adc/marshal.go:99-159`. -/
def fillRow (fs : List Fld) (s : Bytes) (cur : Row fs) : Row fs × Res Unit := fillFields fs (split s c!" ") cur

/-- The loops of `adc/types.go:137-150` on the map. -/
def modFill (m : FeaList) (st : Bool) : List Bytes → FeaList × Res Unit
  | [] => (m, .ok ())
  | name :: names =>
    match Feature.unmarshal name with
    | .ok fea => modFill (m.assign fea st) st names
    | .err e => (m, .err e)
    | .panic => (m, .panic)

/-- `ModFeatures.UnmarshalADC`, `adc/types.go:122-152`: a nil map is made first, `adc/types.go:132-136`. -/
def ModFeatures.fill (s : Bytes) (cur : ModFeatures) : ModFeatures × Res Unit :=
  match unmarshalRow modFields s (Row.zero modFields) with
  | .err e => (cur, .err e)
  | .panic => (cur, .panic)
  | .ok out =>
    match modFill cur.entries false out.2.1 with
    | (m, .ok _) => (some (modFill m true out.1).1, (modFill m true out.1).2)
    | (m, r) => (some m, r)

end

/-- `Status.UnmarshalADC`, `adc/messages.go:218-231`: nothing is assigned before the number has been read. -/
def Status.fill (s : Bytes) (cur : Status) : Status × Res Unit := assigned cur (Status.unmarshal s)

/-- `Fields.UnmarshalADC`, `adc/messages.go:127-148`: the list is cut to length 0 first. -/
def Fields.fill (data : Bytes) : Fields × Res Unit := assigned [] (Fields.unmarshal data)

/-- `GetPassword.UnmarshalADC`, `adc/hub.go:84-89`: the new salt is assigned first. -/
def GetPassword.fill (data : Bytes) : Bytes × Res Unit :=
  let salt := List.replicate (data.length * 5 / 8) 0
  ((Base32.into salt data).1,
    match (Base32.into salt data).2 with
    | .ok _ => .ok ()
    | .err e => .err e
    | .panic => .panic)

/-- What `strconv.ParseInt` returns beside an error: 0, or the nearest number of 64 bits if the number is out of range. -/
def parseIntBeside (s : Bytes) : Int :=
  if parseInt s 64 = .err errRange then (if s.head? = some c!"-" then -(2 ^ 63) else 2 ^ 63 - 1) else 0

/-- `GetRequest.UnmarshalADC`, `adc/files.go:59-105`; the numbers are assigned before the error is looked at. -/
def GetRequest.fill (data : Bytes) (m : GetRequest) : GetRequest × Res Unit :=
  match indexByte data c!" " with
  | none => (m, .err (.other 108))
  | some i =>
    let m := { m with typ := unescape (data.take i) }
    let data := data.drop (i + 1)
    match indexByte data c!" " with
    | none => (m, .err (.other 109))
    | some i =>
      let m := { m with path := unescape (data.take i) }
      let data := data.drop (i + 1)
      match indexByte data c!" " with
      | none => (m, .err (.other 110))
      | some i =>
        let start := data.take i
        let data := data.drop (i + 1)
        match parseInt start 64 with
        | .panic => (m, .panic)
        | .err _ => ({ m with start := parseIntBeside start }, .err (.other 111))
        | .ok n =>
          let m := { m with start := n }
          let (length, data) := match indexByte data c!" " with
            | none => (data, [])
            | some i => (data.take i, data.drop (i + 1))
          match parseInt length 64 with
          | .panic => (m, .panic)
          | .err _ => ({ m with bytes := parseIntBeside length }, .err (.other 112))
          | .ok n =>
            let m := { m with bytes := n }
            if data.length > 0 then
              if data ≠ b!"ZL1" then (m, .err (.other 113))
              else ({ m with compressed := true }, .ok ())
            else (m, .ok ())

section
variable [ParseFloat]

/-- A message around what was assigned. -/
def wrap {α : Type} (f : α → Msg) (x : α × Res Unit) : Msg × Res Unit := (f x.1, x.2)

/-- `Unmarshal` into the message behind a pointer, `adc/marshal.go:99-159`, with the methods `UnmarshalADC` of the messages. -/
def Msg.fill (data : Bytes) : Msg → Msg × Res Unit
  | .raw typ _ => (.raw typ data, .ok ())
  | .supported f => wrap .supported (ModFeatures.fill data f)
  | .status s => wrap .status (Status.fill data s)
  | .zon => (.zon, .ok ())
  | .zoff => (.zoff, .ok ())
  | .get r => wrap .get (GetRequest.fill data r)
  | .snd r => wrap .snd (GetRequest.fill data r)
  | .sidAssign id => wrap .sidAssign (assigned id (SID.unmarshal data))
  | .getPassword _ => wrap .getPassword (GetPassword.fill data)
  | .infoMod _ => wrap .infoMod (Fields.fill data)
  | .struct t row => wrap (.struct t) (fillRow t.fields data row)

/-- `DecodeMessageTo`, `adc/packets.go:64-72`: what the target holds afterwards. -/
def PacketVal.fillTo (p : PacketVal) (to : Msg) : Msg × Res Unit :=
  match p.msg with
  | some (.raw typ data) => if to.cmd ≠ typ then (to, .err (.other 115)) else to.fill data
  | _ => (to, .err (.other 114))

end

end Verif.Adc
