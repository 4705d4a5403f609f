import Verif.Spec.Base32

/-!
# Base32 texts of any length (specification)

What a decoder makes of a text without padding that need not be the text of anything.
-/

namespace Verif.Spec.Base32

/-- How many bytes the last group of `k < 8` characters carries: none if it has one, three or six, which no group of bytes gives. -/
def lastBytes (k : Nat) : Nat := if k = 2 ∨ k = 4 ∨ k = 5 ∨ k = 7 then 5 * k / 8 else 0

/-- The bytes that characters with the values `ds` carry: five for every eight, and those of the last group. Bits that are left over are
dropped, and so is a last group that carries none. -/
def Carries (ds : List Nat) (out : Bytes) : Prop :=
  out.length = 5 * (ds.length / 8) + lastBytes (ds.length % 8) ∧
    number 256 (out.map UInt8.toNat) =
      if lastBytes (ds.length % 8) = 0 then number 32 (ds.take (8 * (ds.length / 8))) else number 32 ds / 2 ^ (5 * ds.length % 8)

/-- What may follow: nothing, or, behind a last group that carries bytes, bytes `0xFF` (the padding character of an encoding without padding) up to
eight characters; of the bytes behind them there are less than eight together with all but the first of these. -/
def Rest (k : Nat) (tail : Bytes) : Prop :=
  tail = [] ∨ (lastBytes k ≠ 0 ∧ ∃ junk, tail = 0xFF :: (List.replicate (7 - k) 0xFF ++ junk) ∧ 7 - k + junk.length < 8)

/-- `s` is decoded to `out`: carriage returns and line feeds are skipped. -/
def Decodes (s out : Bytes) : Prop :=
  ∃ (ds : List Nat) (tail : Bytes), (∀ d ∈ ds, d < 32) ∧
    s.filter (fun c => c ≠ 13 ∧ c ≠ 10) = ds.map (fun d => alphabet.getD d 0) ++ tail ∧ Rest (ds.length % 8) tail ∧ Carries ds out

end Verif.Spec.Base32
