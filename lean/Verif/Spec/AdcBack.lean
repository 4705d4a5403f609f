import Verif.Spec.AdcWire

/-!
# Which ADC messages come back from their payload (specification)
-/

namespace Verif.Spec.AdcBack

open Verif.Adc Verif.Tiger Verif.Spec.AdcWire

/-- A number of 64 bits. -/
def Fits (n : Int) : Prop := -(2 ^ 63 : Int) ≤ n ∧ n < 2 ^ 63

/-- The numbers in a value are such that Go can hold them. -/
def Holds : (k : Kind) → k.T → Prop
  | .int, v => Fits v
  | .ptr k, v => ∀ x, v = some x → Holds k x
  | .slice k, v => ∀ x : k.T, List.Mem x v → Holds k x
  | _, _ => True

/-- The same for all fields of a struct. -/
def HoldsRow : (fs : List Fld) → Row fs → Prop
  | [], _ => True
  | f :: fs, (v, row) => Holds f.kind v ∧ HoldsRow fs row

/-- The values of the model that are values of the code: numbers have 64 bits, no key of a map occurs twice. -/
def Value : Msg → Prop
  | .status s => Fits s.sev ∧ Fits s.code
  | .get r => Fits r.start ∧ Fits r.bytes
  | .snd r => Fits r.start ∧ Fits r.bytes
  | .supported f => f.Wf
  | .struct t row => HoldsRow t.fields row
  | _ => True

/-- A new value of the same type. -/
def fresh : Msg → Msg
  | .raw typ _ => .raw typ []
  | .supported _ => .supported none
  | .status _ => .status ⟨0, 0, []⟩
  | .zon => .zon
  | .zoff => .zoff
  | .get _ => .get ⟨[], [], 0, 0, false⟩
  | .snd _ => .snd ⟨[], [], 0, 0, false⟩
  | .sidAssign _ => .sidAssign ⟨[0, 0, 0, 0], rfl⟩
  | .getPassword _ => .getPassword []
  | .infoMod _ => .infoMod []
  | .struct t _ => .struct t (Row.zero t.fields)

/-- The same message. Maps are the same if they say the same about every feature, nil or not. -/
def Same : Msg → Msg → Prop
  | .supported f, .supported g => ∀ k, f.get k = g.get k
  | m, m' => m = m'

/-- A session id that comes back in a field: no space in it. -/
def IdBack (id : SID) : Prop := c!" " ∉ id.bytes

/-- A path that comes back: it is not empty and there is no slash in its elements. -/
def PathBack (p : List Bytes) : Prop := p ≠ [] ∧ ∀ e ∈ p, c!"/" ∉ e

/-- Features of a user that come back: no space and no comma in them. -/
def FeaturesBack (fs : List Feature) : Prop := ∀ f ∈ fs, c!" " ∉ f.bytes ∧ c!"," ∉ f.bytes

/-- Structs that come back. -/
def StructBack : (t : StructType) → Row t.fields → Prop
  | .chat, (_, pm, _) => ∀ id : SID, pm = some id → IdBack id
  | .userCommand, (path, _) => PathBack path
  | .disconnect, (id, _, bywhom, _) => IdBack id ∧ IdBack bywhom
  | .userInfo, (_, _, _, _, _, _, _, _, _, _, _, _, _, _, _, _, _, _, _, _, _, _, _, _, _, features, _) => FeaturesBack features
  | _, _ => True

/-- Status messages that come back: the code has at most two digits, none is negative (or the code is zero), and both together are a
number of 64 bits. -/
def StatusBack (s : Status) : Prop :=
  (0 ≤ s.sev ∨ s.code = 0) ∧ 0 ≤ s.code ∧ s.code < 100 ∧ Fits (100 * s.sev + s.code)

/-- Features that come back as keys of a map: no space in them, nor an escape sequence. -/
def KeyBack (k : Feature) : Prop :=
  c!" " ∉ k.bytes ∧ ∀ a b e, k.bytes ≠ a ++ c!"\\" :: e :: b ∨ (e ≠ c!"s" ∧ e ≠ c!"n" ∧ e ≠ c!"\\")

/-- Parameters that come back: nothing in them has to be escaped. -/
def ParamBack (x : Field) : Prop :=
  c!" " ∉ x.tag ∧ c!" " ∉ x.value ∧ c!"\n" ∉ x.value ∧ c!"\\" ∉ x.value

/-- Messages that come back when they are read into a new value of their type. -/
def Back : Msg → Prop
  | .supported f => ∀ k, f.get k ≠ none → KeyBack k
  | .status s => StatusBack s
  | .infoMod f => ∀ x ∈ f, ParamBack x
  | .struct t row => StructBack t row
  | _ => True

/-- The commands that have a type. -/
def known : List Bytes :=
  [b!"SUP", b!"STA", b!"ZON", b!"ZOF", b!"MSG", b!"RCM", b!"CTM", b!"GFI", b!"GET", b!"SND", b!"SID", b!"CMD", b!"GPA", b!"PAS",
   b!"QUI", b!"SCH", b!"RES", b!"INF"]

/-- Messages whose type is the one their command stands for: `INF` stands for users. -/
def Typed : Msg → Prop
  | .raw typ _ => typ.bytes ∉ known
  | .infoMod _ => False
  | .struct t _ => t ≠ .hubInfo
  | _ => True

/-- Messages that were received and can be sent on: the code of a status is not negative, and the features of a map have no space and no
escape sequence. -/
def Again : Msg → Prop
  | .status s => 0 ≤ s.code
  | .supported f => ∀ k, f.get k ≠ none → KeyBack k
  | _ => True

end Verif.Spec.AdcBack
