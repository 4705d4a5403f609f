import Verif.Go.Slices

/-!
# `encoding/base64`: decoding with `StdEncoding`
-/

namespace Verif.Go.Base64

/-- The decoding table of `StdEncoding`. -/
def decChar (c : Byte) : Option Nat :=
  if c!"A" ≤ c ∧ c ≤ c!"Z" then some (c.toNat - 65)
  else if c!"a" ≤ c ∧ c ≤ c!"z" then some (c.toNat - 71)
  else if c!"0" ≤ c ∧ c ≤ c!"9" then some (c.toNat + 4)
  else if c = c!"+" then some 62
  else if c = c!"/" then some 63
  else none

/-- `decode` without carriage returns and line feeds, which `decodeQuantum` skips wherever they are: groups of four, of which only the last
can have padding, and nothing after it. Bits that are left over are dropped. -/
def groups : Bytes → Option Bytes
  | [] => some []
  | c0 :: c1 :: c2 :: c3 :: rest =>
    match decChar c0, decChar c1 with
    | some d0, some d1 =>
      match decChar c2, decChar c3 with
      | some d2, some d3 => (groups rest).map fun t =>
          UInt8.ofNat (d0 * 4 + d1 / 16) :: UInt8.ofNat (d1 % 16 * 16 + d2 / 4) :: UInt8.ofNat (d2 % 4 * 64 + d3) :: t
      | some d2, none =>
        if c3 = c!"=" ∧ rest = [] then some [UInt8.ofNat (d0 * 4 + d1 / 16), UInt8.ofNat (d1 % 16 * 16 + d2 / 4)] else none
      | none, _ => if c2 = c!"=" ∧ c3 = c!"=" ∧ rest = [] then some [UInt8.ofNat (d0 * 4 + d1 / 16)] else none
    | _, _ => none
  | _ => none

/-- `Decode`; the buffer of `DecodedLen` bytes is always large enough. -/
def decode (s : Bytes) : Option Bytes := groups (s.filter fun c => c ≠ c!"\r" ∧ c ≠ c!"\n")

end Verif.Go.Base64
