import Verif.Adc.Left
import Verif.Registry.Registry

/-!
# Reading messages of the caller's own types (`adc/marshal.go`, `adc/messages.go`, `adc/packets.go`)

`Adc/Marshal` and `Adc/Left` know the types of the messages of the library.  A program may define messages of its own: a type with a method
`UnmarshalADC`, or a struct, whose fields may have such a method or be of any Go type.  `Adc/Buffer` is how such messages are written.
-/

namespace Verif.Adc

open Verif.Go Verif.Registry

/-- `strconv.ParseFloat(s, 32)` is a parameter, as `strconv.ParseFloat(s, 64)` is. -/
class ParseFloat32 where
  run : Bytes → FloatRes

/-- `reflect.Int` and `reflect.Int64`, `reflect.Int32`, `reflect.Int16`. -/
inductive IntSize where
  | i64
  | i32
  | i16
deriving DecidableEq, Repr

/-- The size that is given to `strconv`, `adc/marshal.go:55-59`. -/
def IntSize.parsed : IntSize → Nat
  | .i64 => 64
  | .i32 => 32
  | .i16 => 32

/-- The size of the variable. -/
def IntSize.stored : IntSize → Nat
  | .i64 => 64
  | .i32 => 32
  | .i16 => 16

/-- `rv.SetInt`, `adc/marshal.go:71`: what does not fit is cut off. -/
def IntSize.set (z : IntSize) (v : Int) : Int := Int.bmod v (2 ^ z.stored)

/-- A Go type, as far as `unmarshalValue` looks at it. -/
inductive GoType : Type 1 where
  /-- a type whose pointer has a method `UnmarshalADC`, `adc/marshal.go:39-41`: the method gets the text and the variable; it may have
  changed the variable although it fails -/
  | own (α : Type) (zero : α) (read : Bytes → α → α × Res Unit)
  | str
  | bool
  | int (z : IntSize)
  | ptr (t : GoType)
  | slice (t : GoType)
  /-- any other type without the method: unsigned and 8 bit integers, floats, maps, structs, interfaces, … -/
  | other (α : Type) (zero : α)

/-- The values of a type. -/
def GoType.T : GoType → Type
  | .own α _ _ => α
  | .str => Bytes
  | .bool => Bool
  | .int _ => Int
  | .ptr t => Option t.T
  | .slice t => List t.T
  | .other α _ => α

/-- `reflect.Zero`. -/
def GoType.zero : (t : GoType) → t.T
  | .own _ z _ => z
  | .str => ([] : Bytes)
  | .bool => false
  | .int _ => (0 : Int)
  | .ptr _ => none
  | .slice _ => []
  | .other _ z => z

section
variable [ParseFloat] [ParseFloat32]

/-- `strconv.ParseFloat(sv, bits)` and the test of `adc/marshal.go:63-67`. -/
def IntSize.float (z : IntSize) (s : Bytes) : FloatRes :=
  match z with
  | .i64 => ParseFloat.run s
  | .i32 => ParseFloat32.run s
  | .i16 => ParseFloat32.run s

/-- The integer case of `unmarshalValue`, `adc/marshal.go:54-72`.  A number that is not whole is no error: `err2` is nil at
`adc/marshal.go:67`. -/
def readInt (z : IntSize) (s : Bytes) (cur : Int) : Int × Res Unit :=
  match parseInt s z.parsed with
  | .ok v => (z.set v, .ok ())
  | .panic => (cur, .panic)
  | .err e =>
    match z.float s with
    | .bad => (cur, .err e)
    | .fraction => (cur, .ok ())
    | .whole v => (z.set v, .ok ())

/-- `unmarshalValue`, `adc/marshal.go:43-96`: the variable behind `rv` after the call, and how it ends. -/
def readValue (s : Bytes) : (t : GoType) → t.T → t.T × Res Unit
  | .own _ _ read, cur => read s cur
  | .str, _ => if s.length = 0 then (([] : Bytes), .ok ()) else (unescape s, .ok ())
  | .bool, cur =>
    if s.length = 0 then (false, .ok ())
    else if s.length ≠ 1 then (cur, .err (.other 102))
    else (s != [0], .ok ())
  | .int z, cur => if s.length = 0 then ((0 : Int), .ok ()) else readInt z s cur
  | .ptr t, cur =>
    if s.length = 0 then (none, .ok ())
    else match readValue s t t.zero with
      | (v, .ok _) => (some v, .ok ())
      | (_, r) => (cur, r)
  | .slice _, cur => if s.length = 0 then ([], .ok ()) else (cur, .err (.other 103))
  | .other _ z, cur => if s.length = 0 then (z, .ok ()) else (cur, .err (.other 103))

/-- The loop over the elements of a new slice, `adc/marshal.go:140-145`. -/
def readElems (t : GoType) : List Bytes → Res (List t.T)
  | [] => .ok []
  | sv :: vals =>
    match readValue sv t t.zero with
    | (v, .ok _) =>
      match readElems t vals with
      | .ok vs => .ok (v :: vs)
      | .err e => .err e
      | .panic => .panic
    | (_, .err e) => .err e
    | (_, .panic) => .panic

/-- A field with a tag, `adc/marshal.go:134-156`, given the values with this tag.  A method gets the first of them. -/
def readTagged : (t : GoType) → List Bytes → t.T → t.T × Res Unit
  | _, [], cur => (cur, .ok ())
  | .own _ _ read, v :: _, cur => read v cur
  | .slice t, vals, cur => assigned cur (readElems t vals)
  | t, v :: more, cur => if more.length > 0 then (cur, .err (.other 104)) else readValue v t cur

end

/-- A field of a struct: what is before the first comma in its tag `adc:"…"` (`adc/marshal.go:116`), whether it is exported, its type and
its value. -/
structure Cell : Type 1 where
  tag : Bytes
  exported : Bool
  type : GoType
  val : type.T

/-- The field with another value. -/
def Cell.put (c : Cell) (v : c.type.T) : Cell := { c with val := v }

section
variable [ParseFloat] [ParseFloat32]

/-- One round of the loop over the fields, `adc/marshal.go:115-156`, given the parts of the text that are left: the field and the parts after
it.  `Interface` panics for a field that is not exported, but is called only if there is a value.  The errors of the calls are put into the
text of a new error. -/
def Cell.read (c : Cell) (sub : List Bytes) : Cell × Res (List Bytes) :=
  if c.tag = [] ∨ c.tag = b!"-" then (c, .ok sub)
  else if c.tag = b!"#" then
    match sub with
    | [] => (c, .panic)
    | v :: sub =>
      if c.exported then
        match readValue v c.type c.val with
        | (x, .ok _) => (c.put x, .ok sub)
        | (x, .err e) => (c.put x, .err e)
        | (x, .panic) => (c.put x, .panic)
      else (c, .panic)
  else if (taggedVals c.tag sub).length = 0 then (c, .ok sub)
  else if c.exported then
    match readTagged c.type (taggedVals c.tag sub) c.val with
    | (x, .ok _) => (c.put x, .ok sub)
    | (x, .err e) => (c.put x, .err e)
    | (x, .panic) => (c.put x, .panic)
  else (c, .panic)

/-- The loop over the fields, `adc/marshal.go:114-158`. -/
def readFields : List Cell → List Bytes → List Cell × Res Unit
  | [], _ => ([], .ok ())
  | c :: cs, sub =>
    match c.read sub with
    | (c', .ok sub') => (c' :: (readFields cs sub').1, (readFields cs sub').2)
    | (c', .err e) => (c' :: cs, .err e)
    | (c', .panic) => (c' :: cs, .panic)

/-- What is given to `Unmarshal`, `adc/marshal.go:99`: a value with a method, a pointer to a struct, or anything else. -/
inductive Target : Type 1 where
  | own (α : Type) (read : Bytes → α → α × Res Unit) (val : α)
  | struct (cs : List Cell)
  | other

/-- `Unmarshal`, `adc/marshal.go:99-159`. -/
def Target.unmarshal (s : Bytes) : Target → Target × Res Unit
  | .own α read v => (.own α read (read s v).1, (read s v).2)
  | .struct cs => (.struct (readFields cs (split s c!" ")).1, (readFields cs (split s c!" ")).2)
  | .other => (.other, .err (.other 130))

/-- A type of the caller that has been registered: its zero value, and whether its values — not only pointers to them — have the method
`Cmd`. -/
structure OwnType : Type 1 where
  zero : Target
  valueCmd : Bool

/-- `RawMessage` as a type that a program registers, `adc/messages.go:59-80`: all its methods, `Cmd` too, belong to the pointer. -/
def rawType : OwnType := ⟨.own (Bytes × Bytes) (fun s v => ((v.1, s), .ok ())) ([0, 0, 0], []), false⟩

/-- A message after decoding: of the library, or of one of the types of the caller, which have names in `U`. -/
inductive OwnMsg (U : Type) : Type 1 where
  | lib (m : Msg)
  | own (u : U) (v : Target)

section
variable {U : Type} (types : U → OwnType)

/-- `UnmarshalMessage`, `adc/messages.go:39-52`, with types of the caller in the map; the type assertion at the end panics if only pointers to
the type are messages.  A type of the library is given by its zero value. -/
def unmarshalMessageOf (reg : Reg MsgType (Msg ⊕ U)) (name : MsgType) (data : Bytes) : Res (OwnMsg U) :=
  match reg.get name with
  | none => .ok (.lib (.raw name data))
  | some (.inl z) =>
    match z.unmarshalTo data with
    | .ok m => .ok (.lib m)
    | .err e => .err e
    | .panic => .panic
  | some (.inr u) =>
    match (types u).zero.unmarshal data with
    | (v, .ok _) => if (types u).valueCmd then .ok (.own u v) else .panic
    | (_, .err e) => .err e
    | (_, .panic) => .panic

/-- `decodeMessage`, `adc/packets.go:46-62`: the message of the packet afterwards; it stays if there is an error. -/
def decodeMessageOf (reg : Reg MsgType (Msg ⊕ U)) : OwnMsg U → OwnMsg U × Res Unit
  | .lib (.raw typ data) =>
    match unmarshalMessageOf types reg typ data with
    | .ok m => (m, .ok ())
    | .err e => (.lib (.raw typ data), .err e)
    | .panic => (.lib (.raw typ data), .panic)
  | m => (m, .ok ())

/-- `decodeMessageTo`, `adc/packets.go:64-72`: the variable `to` points to, whose `Cmd` returns `cmd`, afterwards. -/
def decodeMessageToOf (frm : OwnMsg U) (cmd : MsgType) (to : Target) : Target × Res Unit :=
  match frm with
  | .lib (.raw typ data) => if cmd ≠ typ then (to, .err (.other 115)) else to.unmarshal data
  | _ => (to, .err (.other 114))

end

end

end Verif.Adc
