import Verif.Nmdc.Simple

/-!
# `MyINFO` (`nmdc/msg_user.go`)
-/

namespace Verif.Nmdc

open Verif.Go

/-- A Go `map[string]string`: pairs with distinct keys. The order of the list is the order of the insertions; the language
leaves the order of an iteration open, so whoever iterates is given the order. A nil map and an empty map are both `[]`. -/
abbrev StrMap := List (Bytes × Bytes)

/-- `m[k] = v`. -/
def StrMap.set (m : StrMap) (k v : Bytes) : StrMap :=
  if m.any (·.1 = k) then m.map (fun e => if e.1 = k then (k, v) else e) else m ++ [(k, v)]

/-- `m[k]`. -/
def StrMap.get (m : StrMap) (k : Bytes) : Option Bytes := (m.find? (·.1 = k)).map (·.2)

/-- `nmdc/msg_user.go:101-115`; counts are Go `int`, the share size is 64-bit unsigned. -/
structure MyINFO where
  name : Bytes := []
  desc : Bytes := []
  client : Software := {}
  mode : Byte := 0
  hubsNormal : Int := 0
  hubsRegistered : Int := 0
  hubsOperator : Int := 0
  slots : Int := 0
  extra : StrMap := []
  conn : Bytes := []
  flag : Byte := 0
  email : Bytes := []
  shareSize : Nat := 0
deriving DecidableEq, Repr

/-- The tag between `<` and `>`, `nmdc/msg_user.go:130-165`; `order` is the order in which the map is iterated. The
separator of the extra fields is always a comma: `bi[0]` still holds the comma of `",M:"` when `bi` was moved by `append`. -/
def MyINFO.tag (m : MyINFO) (order : StrMap) : Bytes :=
  m.client.name ++ b!" V:" ++ m.client.version ++ b!",M:" ++ [if m.mode ≠ 0 ∧ m.mode ≠ c!" " then m.mode else c!" "] ++
    b!",H:" ++ itoa m.hubsNormal ++ b!"/" ++ itoa m.hubsRegistered ++ b!"/" ++ itoa m.hubsOperator ++
    b!",S:" ++ itoa m.slots ++ order.flatMap (fun e => b!"," ++ e.1 ++ b!":" ++ e.2)

/-- `nmdc/msg_user.go:121-193`. -/
def MyINFO.marshal (enc : Codec) (order : StrMap) (m : MyINFO) : Res Bytes := do
  let n ← Name.marshal enc m.name
  let d ← Str.marshal enc m.desc
  let c ← Str.marshal enc m.conn
  let e ← Str.marshal enc m.email
  pure (b!"$ALL " ++ n ++ b!" " ++ d ++ b!"<" ++ m.tag order ++ b!">$ $" ++ c ++ [if m.flag = 0 then 1 else m.flag] ++ b!"$" ++ e ++
    b!"$" ++ utoa m.shareSize ++ b!"$")

/-- `string(c)` of a byte `c`: the UTF-8 text of that code point, `nmdc/msg_user.go:386`. -/
def byteString (c : Byte) : Bytes :=
  if c < 0x80 then [c] else [0xC0 ||| (c >>> (6 : Byte)), 0x80 ||| (c &&& (0x3F : Byte))]

/-- `nmdc/msg_user.go:336-339`. -/
def upperKey (c : Byte) : Byte := if c > c!"Z" then c - 32 else c

/-- The hub counts, `nmdc/msg_user.go:350-376`. -/
def MyINFO.hubs (m : MyINFO) (val : Bytes) : Res MyINFO :=
  if val.length = 0 then .ok { m with hubsNormal := 1 }
  else if (indexByte val c!"/").isNone then do
    let a ← mapErr (atoiTrim val) (.other 80)
    .ok { m with hubsNormal := a }
  else
    match splitN val c!"/" 3 with
    | some [x, y, z] => do
      let a ← mapErr (atoiTrim x) (.other 80)
      let b ← mapErr (atoiTrim y) (.other 81)
      let c ← mapErr (atoiTrim z) (.other 82)
      .ok { m with hubsNormal := a, hubsRegistered := b, hubsOperator := c }
    | _ => .err (.other 83)

/-- The `switch` over one-letter keys, `nmdc/msg_user.go:340-387`. -/
def MyINFO.letter (m : MyINFO) (key : Byte) (val : Bytes) : Res MyINFO :=
  if key = c!"V" then .ok { m with client := { m.client with version := val } }
  else if key = c!"M" then .ok { m with mode := match val with | [c] => c | _ => 0 }
  else if key = c!"H" then m.hubs val
  else if key = c!"S" then do
    let a ← mapErr (atoiTrim val) (.other 84)
    .ok { m with slots := a }
  else .ok { m with extra := m.extra.set (byteString key) val }

/-- One field of the tag, `nmdc/msg_user.go:316-387`; `first` tells that it is the first (`r == 0`). Returns the client
name and the message. -/
def MyINFO.tagField (first : Bool) (client : Bytes) (m : MyINFO) (field : Bytes) : Res (Bytes × MyINFO) :=
  if field.length = 0 then .ok (client, m)
  else
    match indexByte field c!":" with
    | none => if first then .ok (field, m) else .err (.other 85)
    | some i =>
      if i = 0 then .err (.other 85)
      else do
        let val ← sliceFrom field (i + 1)
        match field.take i with
        | [k] => do
          let m ← m.letter (upperKey k) val
          .ok (client, m)
        | key => .ok (client, { m with extra := m.extra.set key val })

/-- The loop over the fields, `nmdc/msg_user.go:307-388`. An empty rest ends the loop; the empty field it would be is
skipped by line 316 as well. -/
def MyINFO.tagFields : Bool → Bytes → MyINFO → List Bytes → Res (Bytes × MyINFO)
  | _, client, m, [] => .ok (client, m)
  | first, client, m, f :: fs => do
    let (client, m) ← MyINFO.tagField first client m f
    MyINFO.tagFields false client m fs

/-- Where the client name ends, `nmdc/msg_user.go:297-300`. -/
def tagVersion (tag : Bytes) : Option Nat :=
  match index tag b!" V:" with
  | some i => some i
  | none => index tag b!" v:"

/-- `unmarshalTag`, `nmdc/msg_user.go:295-391`. -/
def MyINFO.unmarshalTag (m : MyINFO) (tag : Bytes) : Res MyINFO := do
  let (client, rest) ← match tagVersion tag with
    | some i => do
      let r ← sliceFrom tag (i + 1)
      pure (tag.take i, r)
    | none => pure ([], tag)
  let (client, m) ← MyINFO.tagFields true client { m with extra := [] } (split rest c!",")
  .ok { m with client := { m.client with name := client } }

/-- The first field, `nmdc/msg_user.go:230-250`: description, message, and whether there was a tag. -/
def MyINFO.descField (m : MyINFO) (field : Bytes) : Res (Bytes × MyINFO × Bool) :=
  let m := { m with mode := 0 }
  match lastIndexByte field c!"<" with
  | none => .ok (field, m, false)
  | some i => do
    let tag ← sliceFrom field (i + 1)
    if tag.length = 0 then .err (.other 86)
    else do
      let tag := if tag.getLast? = some c!">" then tag.dropLast else tag
      let m ← m.unmarshalTag tag
      .ok (field.take i, m, true)

/-- The connection and the flag, `nmdc/msg_user.go:268-277`. -/
def MyINFO.connField [HtmlEntities] (dec : Codec) (m : MyINFO) (field : Bytes) : Res MyINFO :=
  match field.getLast? with
  | none => .ok m
  | some f => do
    let s ← Str.unmarshal dec field.dropLast
    .ok { m with flag := f, conn := s }

/-- The share size, `nmdc/msg_user.go:286-291`: an error counts as 0. -/
def MyINFO.sizeField (m : MyINFO) (field : Bytes) : MyINFO :=
  if field.length ≠ 0 then
    { m with shareSize := match parseUin64Trim field with | .ok n => n | _ => 0 }
  else m

/-- The five fields, `nmdc/msg_user.go:230-292`. -/
def MyINFO.fields [HtmlEntities] (dec : Codec) (m : MyINFO) (f1 f2 f3 f4 f5 : Bytes) : Res MyINFO := do
  let (desc, m, hasTag) ← m.descField f1
  let s ← Str.unmarshal dec desc
  let m := { m with desc := s }
  match f2 with
  | [c] => do
    let m := if hasTag then m else { m with mode := if c = c!" " then 0 else c }
    let m ← m.connField dec f3
    let s ← Str.unmarshal dec f4
    .ok ({ m with email := s }.sizeField f5)
  | _ => .err (.other 87)

/-- `nmdc/msg_user.go:195-293`. With exactly five `$` the calls of `next` give the first five pieces. -/
def MyINFO.unmarshal [HtmlEntities] (dec : Codec) (m : MyINFO) (data : Bytes) : Res MyINFO :=
  if hasPrefix data b!"$ALL " then do
    let data ← sliceFrom data 5
    match indexByte data c!" " with
    | none => .err (.other 88)
    | some i => do
      let n ← Name.unmarshal dec (data.take i)
      let data ← sliceFrom data (i + 1)
      match split data c!"$" with
      | [f1, f2, f3, f4, f5, _] => MyINFO.fields dec { m with name := n } f1 f2 f3 f4 f5
      | _ => .err (.other 89)
  else .err (.other 90)

end Verif.Nmdc
