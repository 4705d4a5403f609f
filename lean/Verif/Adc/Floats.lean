import Verif.Go.Float
import Verif.Adc.Own

/-!
# Integers written with a point or an exponent

`adc/marshal.go:60-69`: what `strconv.ParseInt` refuses is given to `strconv.ParseFloat`.
-/

namespace Verif.Adc

open Verif.Go Verif.Go.Float

/-- The conversion `int64(vf)` of a number that does not fit, which the language leaves to the implementation. -/
structure Machine where
  big : Int → Int
  inf : Bool → Int

/-- On amd64 it is always the smallest number. -/
def amd64 : Machine := ⟨fun _ => -(2 ^ 63), fun _ => -(2 ^ 63)⟩

/-- On arm64 it is the nearest number that fits. -/
def arm64 : Machine := ⟨fun v => if v < 0 then -(2 ^ 63) else 2 ^ 63 - 1, fun neg => if neg then -(2 ^ 63) else 2 ^ 63 - 1⟩

/-- `int64(vf)` of an integral number. -/
def Machine.int64 (P : Machine) (v : Int) : Int := if -(2 ^ 63 : Int) ≤ v ∧ v < 2 ^ 63 then v else P.big v

/-- `adc/marshal.go:62-69` behind the call of `strconv.ParseFloat`; `math.Round` of not a number is another one, and of an infinity itself. -/
def Machine.result (P : Machine) (F : Format) : Value → FloatRes
  | .bad => .bad
  | .nan => .fraction
  | .inf neg => .whole (P.inf neg)
  | .num neg x => if x % 2 ^ F.unit = 0 then .whole (P.int64 (if neg then -(x / 2 ^ F.unit : Nat) else (x / 2 ^ F.unit : Nat))) else .fraction

/-- `strconv.ParseFloat(sv, 64)`. -/
@[reducible] def Machine.float64 (P : Machine) : ParseFloat := ⟨fun s => P.result f64 (parse f64 s)⟩

/-- `strconv.ParseFloat(sv, 32)`. -/
@[reducible] def Machine.float32 (P : Machine) : ParseFloat32 := ⟨fun s => P.result f32 (parse f32 s)⟩

end Verif.Adc
