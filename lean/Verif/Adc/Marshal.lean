import Verif.Adc.Values

/-!
# The reflection codec of ADC (`adc/marshal.go`)

A struct type is a list of fields (`Fld`), its values are rows: one value per field.  `Kind` lists the
types of the fields of all ADC messages.  Integer types of less than 64 bits, unsigned integers and
fields without tag occur in no message and are left out.
-/

namespace Verif.Adc

open Verif.Go Verif.Tiger

/-- What `strconv.ParseFloat` followed by the test `math.Round(vf) != vf` gives. -/
inductive FloatRes where
  /-- not a number in range -/
  | bad
  /-- not integral -/
  | fraction
  /-- integral; the value of the conversion `int64(vf)` -/
  | whole (v : Int)

/-- `strconv.ParseFloat(s, 64)` is a parameter. -/
class ParseFloat where
  run : Bytes → FloatRes

/-- The types of fields. -/
inductive Kind where
  /-- `string` -/
  | str
  /-- `int`, `int64` and types defined from them -/
  | int
  /-- `bool` -/
  | bool
  /-- `types.SID` -/
  | sid
  /-- `types.CID` -/
  | cid
  /-- `tiger.Hash` -/
  | tth
  /-- `ExtFeatures` -/
  | feats
  /-- `Path` -/
  | path
  /-- a pointer -/
  | ptr (k : Kind)
  /-- a slice of a type that has no methods -/
  | slice (k : Kind)
deriving DecidableEq, Repr

/-- The values of a type. -/
def Kind.T : Kind → Type
  | .str => Bytes
  | .int => Int
  | .bool => Bool
  | .sid => SID
  | .cid => CID
  | .tth => Hash
  | .feats => ExtFeatures
  | .path => Path
  | .ptr k => Option k.T
  | .slice k => List k.T

/-- `reflect.Zero`. -/
def Kind.zero : (k : Kind) → k.T
  | .str => ([] : Bytes)
  | .int => (0 : Int)
  | .bool => false
  | .sid => (default : SID)
  | .cid => Hash.zero
  | .tth => Hash.zero
  | .feats => ([] : List Feature)
  | .path => ([] : List Bytes)
  | .ptr _ => none
  | .slice _ => []

/-- Comparison with a zero value, `adc/marshal.go:202`. -/
def eqZero {α : Type} [DecidableEq α] (v z : α) : Bool := decide (v = z)

/-- `isZero`, `adc/marshal.go:197-204`; nil and empty slices are not told apart. -/
def isZero : (k : Kind) → k.T → Bool
  | .str, v => eqZero (α := Bytes) v []
  | .int, v => eqZero (α := Int) v 0
  | .bool, v => eqZero (α := Bool) v false
  | .sid, v => eqZero (α := SID) v default
  | .cid, v => eqZero (α := Hash) v Hash.zero
  | .tth, v => eqZero (α := Hash) v Hash.zero
  | .feats, v => List.isEmpty v
  | .path, v => List.isEmpty v
  | .ptr _, v => Option.isNone v
  | .slice _, v => List.isEmpty v

/-- Whether the type has the methods `MarshalADC` (on the value) and `UnmarshalADC` (on the pointer). -/
def Kind.custom : Kind → Bool
  | .sid | .cid | .tth | .feats | .path => true
  | _ => false

section unmarshal

variable [ParseFloat]

/-- The integer case of `unmarshalValue`, `adc/marshal.go:54-71`. -/
def unmarshalInt (s : Bytes) (cur : Int) : Res Int :=
  match parseInt s 64 with
  | .ok v => .ok v
  | .panic => .panic
  | .err e =>
    match ParseFloat.run s with
    | .bad => .err e
    | .fraction => .ok cur
    | .whole v => .ok v

/-- `unmarshalValue`, `adc/marshal.go:43-96`; `cur` is the value before the call. -/
def unmarshalValue (s : Bytes) : (k : Kind) → k.T → Res k.T
  | .sid, _ => SID.unmarshal s
  | .cid, _ => CID.unmarshal s
  | .tth, _ => Hash.unmarshalBase32 s
  | .feats, cur => ExtFeatures.unmarshal s cur
  | .path, cur => Path.unmarshal s cur
  | .int, cur => if s.length = 0 then .ok (0 : Int) else unmarshalInt s cur
  | .str, _ => if s.length = 0 then .ok ([] : Bytes) else .ok (unescape s)
  | .ptr k, _ => if s.length = 0 then .ok none else (unmarshalValue s k k.zero).bind (fun v => .ok (some v))
  | .bool, _ =>
    if s.length = 0 then .ok false
    else if s.length ≠ 1 then .err (.other 102)
    else .ok (s != [0])
  | .slice _, _ => if s.length = 0 then .ok [] else .err (.other 103)

/-- A field of a struct: its name and its tag `adc:"tag"` or `adc:"tag,req"`. -/
structure Fld where
  name : _root_.String
  tag : Bytes
  req : Bool := false
  kind : Kind

/-- The values of a struct. -/
def Row : List Fld → Type
  | [] => Unit
  | f :: fs => f.kind.T × Row fs

/-- The zero value of a struct. -/
def Row.zero : (fs : List Fld) → Row fs
  | [] => ()
  | f :: fs => (f.kind.zero, Row.zero fs)

/-- The values with a given tag, `adc/marshal.go:127-133`. -/
def taggedVals (tag : Bytes) : List Bytes → List Bytes
  | [] => []
  | ss :: sub => if hasPrefix ss tag then ss.drop tag.length :: taggedVals tag sub else taggedVals tag sub

/-- The loop over the elements of a slice, `adc/marshal.go:140-145`. -/
def unmarshalSlice (k : Kind) : List Bytes → Res (List k.T)
  | [] => .ok []
  | sv :: vals => do
    let v ← unmarshalValue sv k k.zero
    let vs ← unmarshalSlice k vals
    .ok (v :: vs)

/-- A field with a tag, `adc/marshal.go:127-156`. -/
def unmarshalTagged (vals : List Bytes) : (k : Kind) → k.T → Res k.T
  | .slice k, cur => if vals.length > 0 then unmarshalSlice k vals else .ok cur
  | k, cur =>
    match vals with
    | [] => .ok cur
    | v :: rest =>
      if k.custom then unmarshalValue v k cur
      else if rest.length > 0 then .err (.other 104)
      else unmarshalValue v k cur

/-- The loop of `Unmarshal`, `adc/marshal.go:114-157`; `sub` are the parts not yet taken by position. -/
def unmarshalFields : (fs : List Fld) → List Bytes → Row fs → Res (Row fs)
  | [], _, _ => .ok ()
  | f :: fs, sub, (cur, row) =>
    if f.tag = b!"#" then
      match sub with
      | [] => .panic
      | v :: sub => do
        let x ← unmarshalValue v f.kind cur
        let rest ← unmarshalFields fs sub row
        .ok (x, rest)
    else do
      let x ← unmarshalTagged (taggedVals f.tag sub) f.kind cur
      let rest ← unmarshalFields fs sub row
      .ok (x, rest)

/-- `Unmarshal` into a struct, `adc/marshal.go:99-159`; `cur` is its value before the call. -/
def unmarshalRow (fs : List Fld) (s : Bytes) (cur : Row fs) : Res (Row fs) := unmarshalFields fs (split s c!" ") cur

end unmarshal

/-- `marshalValue`, `adc/marshal.go:161-195`. A nil pointer to a type with methods is dereferenced. -/
def marshalValue : (k : Kind) → k.T → Res Bytes
  | .sid, v => .ok (SID.marshal v)
  | .cid, v => .ok (CID.marshal v)
  | .tth, v => .ok (Hash.base32 v)
  | .feats, v => .ok (ExtFeatures.marshal v)
  | .path, v => .ok (Path.marshal v)
  | .str, v => .ok (escape v)
  | .int, v => .ok (itoa v)
  | .bool, v => .ok (BoolInt.marshal v)
  | .ptr k, v =>
    match v with
    | none => if k.custom then .panic else .ok []
    | some v => marshalValue k v
  | .slice _, _ => .err (.other 105)

/-- `writeTag`, `adc/marshal.go:223-232`. -/
def writeTag (first : Bool) (tag : Bytes) : Bytes :=
  (if first then [] else b!" ") ++ (if tag ≠ b!"#" then tag else [])

/-- The loop over a slice, `adc/marshal.go:256-262`: what is written, and the flag `first` afterwards. -/
def marshalSlice (tag : Bytes) (k : Kind) (first : Bool) : List k.T → Res (Bytes × Bool)
  | [] => .ok ([], first)
  | v :: vs => do
    let b ← marshalValue k v
    let (bs, first') ← marshalSlice tag k false vs
    .ok (writeTag first tag ++ b ++ bs, first')

/-- One field, `adc/marshal.go:248-269`. -/
def marshalField (tag : Bytes) (first : Bool) : (k : Kind) → k.T → Res (Bytes × Bool)
  | .slice k, v =>
    if tag ≠ b!"#" then marshalSlice tag k first v
    else .err (.other 105)
  | k, v => do
    let b ← marshalValue k v
    .ok (writeTag first tag ++ b, false)

/-- Whether the field is left out when it is zero, `adc/marshal.go:241-244`. -/
def Fld.omit (f : Fld) : Bool := if f.req then false else f.tag != b!"#"

/-- The loop of `Marshal`, `adc/marshal.go:233-270`. -/
def marshalFields : (fs : List Fld) → Bool → Row fs → Res Bytes
  | [], _, _ => .ok []
  | f :: fs, first, (v, row) =>
    if f.omit && isZero f.kind v then marshalFields fs first row
    else do
      let (b, first') ← marshalField f.tag first f.kind v
      let rest ← marshalFields fs first' row
      .ok (b ++ rest)

/-- `Marshal` of a struct, `adc/marshal.go:207-272`. -/
def marshalRow (fs : List Fld) (row : Row fs) : Res Bytes := marshalFields fs true row

end Verif.Adc
