import Verif.Go.Numbers
import Verif.Adc.Escape
import Verif.Adc.Ids

/-!
# Value types of ADC (`adc/types.go`)
-/

namespace Verif.Adc

open Verif.Go

/-- `String.MarshalADC`, `adc/types.go:42-45`. -/
def String.marshal (s : Bytes) : Bytes := escape s

/-- `String.UnmarshalADC`, `adc/types.go:47-50`. -/
def String.unmarshal (s : Bytes) : Res Bytes := .ok (unescape s)

/-- `Feature`, `adc/types.go:73`: four bytes. -/
structure Feature where
  bytes : Bytes
  size : bytes.length = 4
deriving DecidableEq, Repr

instance : Inhabited Feature := ⟨⟨[0, 0, 0, 0], rfl⟩⟩

/-- `Feature.MarshalADC` and `String`, `adc/types.go:75-82`. -/
def Feature.marshal (f : Feature) : Bytes := f.bytes

/-- `Feature.UnmarshalADC`, `adc/types.go:84-92`. -/
def Feature.unmarshal (s : Bytes) : Res Feature := if h : s.length = 4 then .ok ⟨s, h⟩ else .err (.other 100)

/-- `AddFeatures.MarshalADC`, `adc/types.go:62-71`. -/
def addFeatures : List Bytes → Bytes
  | [] => []
  | f :: fs => b!"AD" ++ f ++ go fs
where
  /-- The later rounds of the loop. -/
  go : List Bytes → Bytes
    | [] => []
    | f :: fs => b!" AD" ++ f ++ go fs

/-- `ExtFeatures`, `adc/types.go:203`; nil and empty are not told apart. -/
abbrev ExtFeatures := List Feature

/-- `ExtFeatures.Has`, `adc/types.go:205-212`. -/
def ExtFeatures.has (s : Feature) : ExtFeatures → Bool
  | [] => false
  | sf :: fs => if sf = s then true else ExtFeatures.has s fs

/-- The loop of `ExtFeatures.MarshalADC`, `adc/types.go:215-223`; `first` stands for `i == 0`. -/
def ExtFeatures.marshalLoop : Bool → ExtFeatures → Bytes
  | _, [] => []
  | first, f :: fs => (if first then [] else b!",") ++ f.marshal ++ ExtFeatures.marshalLoop false fs

/-- `ExtFeatures.MarshalADC`, `adc/types.go:214-225`. -/
def ExtFeatures.marshal (f : ExtFeatures) : Bytes := ExtFeatures.marshalLoop true f

/-- The loop of `ExtFeatures.UnmarshalADC`, `adc/types.go:233-239`. -/
def ExtFeatures.unmarshalLoop (arr : ExtFeatures) : List Bytes → Res ExtFeatures
  | [] => .ok arr
  | s :: sub => do
    let fea ← Feature.unmarshal s
    ExtFeatures.unmarshalLoop (arr ++ [fea]) sub

/-- `ExtFeatures.UnmarshalADC`, `adc/types.go:227-242`; `cur` is the value before the call. -/
def ExtFeatures.unmarshal (s : Bytes) (cur : ExtFeatures) : Res ExtFeatures :=
  if s.length < 1 then .ok cur else ExtFeatures.unmarshalLoop [] (split s c!",")

/-- `BoolInt.MarshalADC`, `adc/types.go:246-253`. -/
def BoolInt.marshal (f : Bool) : Bytes := if f then b!"1" else b!"0"

/-- `BoolInt.UnmarshalADC`, `adc/types.go:255-268`. -/
def BoolInt.unmarshal (s : Bytes) : Res Bool :=
  match s with
  | [c] => if c = c!"0" then .ok false else if c = c!"1" then .ok true else .err (.other 101)
  | _ => .err (.other 101)

/-- `Path`, `adc/types.go:275`; nil and empty are not told apart. -/
abbrev Path := List Bytes

/-- The loop of `Path.MarshalADC`, `adc/types.go:278-286`; `first` stands for `i == 0`. -/
def Path.marshalLoop : Bool → Path → Bytes
  | _, [] => []
  | first, a :: p => (if first then [] else b!"/") ++ String.marshal a ++ Path.marshalLoop false p

/-- `Path.MarshalADC`, `adc/types.go:277-288`. -/
def Path.marshal (p : Path) : Bytes := Path.marshalLoop true p

/-- The loop of `Path.UnmarshalADC`, `adc/types.go:292-298`. -/
def Path.unmarshalLoop (p : Path) : List Bytes → Res Path
  | [] => .ok p
  | a :: arr => do
    let path ← String.unmarshal a
    Path.unmarshalLoop (p ++ [path]) arr

/-- `Path.UnmarshalADC`, `adc/types.go:290-300`: appends to the value `cur` before the call. -/
def Path.unmarshal (data : Bytes) (cur : Path) : Res Path := Path.unmarshalLoop cur (split data c!"/")

end Verif.Adc
