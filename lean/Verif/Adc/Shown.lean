import Verif.Adc.Messages

/-!
# User types, and errors and fields as text
-/

namespace Verif.Adc

open Verif.Go

/-- `UserType.Is`, `adc/user.go:35`. The type is an `int` of 64 bits, as the code's `&` sees it. -/
def UserType.is (t st : Int) : Bool := BitVec.ofInt 64 t &&& BitVec.ofInt 64 st != 0

/-- The types, `adc/user.go:37-46`. -/
def UserType.none : Int := 0x00
/-- `adc/user.go:39`. -/
def UserType.bot : Int := 0x01
/-- `adc/user.go:40`. -/
def UserType.registered : Int := 0x02
/-- `adc/user.go:41`. -/
def UserType.operator : Int := 0x04
/-- `adc/user.go:42`. -/
def UserType.superUser : Int := 0x08
/-- `adc/user.go:43`. -/
def UserType.hubOwner : Int := 0x10
/-- `adc/user.go:44`. -/
def UserType.hub : Int := 0x20
/-- `adc/user.go:45`. -/
def UserType.hidden : Int := 0x40

/-- `Error.Error`, `adc/types.go:56-58`: `"code %d: %s"`. -/
def Status.errorText (s : Status) : Bytes := b!"code " ++ itoa s.code ++ b!": " ++ s.msg

/-- `Field.String`, `adc/messages.go:108-110`. -/
def Field.string (f : Field) : Bytes := f.tag ++ f.value

end Verif.Adc
