import Verif.Keyprint.Keyprint
import Verif.Go.Pem

/-!
# Key prints of PEM files (`keyprint/keyprint.go`)

`FromFile` with the PEM decoder of the standard library.
-/

namespace Verif.Keyprint

open Verif.Go

/-- `pem.Decode`, as `FromFile` calls it, `keyprint/keyprint.go:47`. -/
def stdPem : Pem := ⟨Go.Pem.decode, Go.Pem.decode_shorter⟩

/-- `FromFile`, `keyprint/keyprint.go:40-61`, of a file with the bytes `data`. -/
def fromPemFile (sha : Bytes → Bytes) (data : Bytes) : Except Err (List Bytes) := fromFile sha stdPem (data, none)

end Verif.Keyprint
