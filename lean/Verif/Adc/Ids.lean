import Verif.Tiger.Hash

/-!
# Session and client identifiers of ADC (`adc/types/types.go`)
-/

namespace Verif.Adc

open Verif.Go

/-- `adc/types/types.go:34`: four bytes. -/
structure SID where
  bytes : Bytes
  size : bytes.length = 4
deriving DecidableEq, Repr

/-- `base32Enc`, `adc/types/types.go:12`. -/
def sidAlphabet : Bytes := b!"ABCDEFGHIJKLMNOPQRSTUVWXYZ234567"

/-- The loop of `SIDFromInt`, `adc/types/types.go:16-19`: fills the first `k` characters from the right. -/
def sidLoop : Nat → Nat → Bytes → Bytes
  | 0, _, tail => tail
  | k + 1, v, tail => sidLoop k (v / 32) (sidAlphabet.getD (v % 32) 0 :: tail)

theorem sidLoop_length (k v : Nat) (t : Bytes) : (sidLoop k v t).length = k + t.length := by
  induction k generalizing v t with
  | zero => simp [sidLoop]
  | succ k ih => rw [sidLoop, ih]; simp; omega

/-- `SIDFromInt`, `adc/types/types.go:15-21`. -/
def sidFromInt (v : Nat) : SID := ⟨sidLoop 4 v [], sidLoop_length 4 v []⟩

instance : Inhabited SID := ⟨⟨[0, 0, 0, 0], rfl⟩⟩

/-- `SID.MarshalADC`, `adc/types/types.go:41-44`. -/
def SID.marshal (id : SID) : Bytes := id.bytes

/-- `SID.UnmarshalADC`, `adc/types/types.go:47-55`. -/
def SID.unmarshal (s : Bytes) : Res SID := if h : s.length = 4 then .ok ⟨s, h⟩ else .err (.other 78)

/-- `SIDFromString`, `adc/types/types.go:24-29`: panics on a malformed string. -/
def sidFromString (s : Bytes) : Res SID :=
  match SID.unmarshal s with
  | .ok id => .ok id
  | _ => .panic

/-- `adc/types/types.go:84`: a CID is a value of the same 24 bytes as a Tiger hash (`CID(th)`, `tiger.Hash(id)`). -/
abbrev CID := Tiger.Hash

/-- `CID.MarshalADC` and `CID.Base32`, `adc/types/types.go:107-120`. -/
def CID.marshal (id : CID) : Bytes := Tiger.Hash.base32 id

/-- `CID.UnmarshalADC` and `CID.FromBase32`, `adc/types/types.go:113-115`, `123-130`. -/
def CID.unmarshal (s : Bytes) : Res CID := Tiger.Hash.fromBase32 s

end Verif.Adc
