import Verif.Go.Basic

/-!
# UTF-8 (specification)

RFC 3629: the encoding of a scalar value, and well-formed text.
-/

namespace Verif.Spec

/-- Unicode scalar values. -/
def IsScalar (r : Nat) : Prop := r < 0xD800 ∨ (0xE000 ≤ r ∧ r < 0x110000)

instance (r : Nat) : Decidable (IsScalar r) := inferInstanceAs (Decidable (_ ∨ _))

/-- The bytes of a scalar value. -/
def utf8 (r : Nat) : Bytes :=
  if r < 0x80 then [UInt8.ofNat r]
  else if r < 0x800 then [UInt8.ofNat (0xC0 + r / 64), UInt8.ofNat (0x80 + r % 64)]
  else if r < 0x10000 then
    [UInt8.ofNat (0xE0 + r / 4096), UInt8.ofNat (0x80 + r / 64 % 64), UInt8.ofNat (0x80 + r % 64)]
  else
    [UInt8.ofNat (0xF0 + r / 262144), UInt8.ofNat (0x80 + r / 4096 % 64), UInt8.ofNat (0x80 + r / 64 % 64),
      UInt8.ofNat (0x80 + r % 64)]

/-- Well-formed UTF-8 text. -/
def IsUtf8 (s : Bytes) : Prop := ∃ rs : List Nat, (∀ r ∈ rs, IsScalar r) ∧ s = rs.flatMap utf8

end Verif.Spec
