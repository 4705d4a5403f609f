import Verif.Spec.Base32

/-!
# What a text gives for a variable (specification)
-/

namespace Verif.Spec.HashVar

open Verif.Spec.Base32

/-- The text without carriage returns and line feeds. -/
def chars (s : Bytes) : Bytes := s.filter (fun c => c ≠ 13 ∧ c ≠ 10)

/-- The bytes `bs` are the bits of some first characters of the text, without those that do not make a byte. -/
def Begun (s bs : Bytes) : Prop :=
  ∃ (ds : List Nat) (tail : Bytes), (∀ d ∈ ds, d < 32) ∧ chars s = ds.map (fun d => alphabet.getD d 0) ++ tail ∧
    bs.length = 5 * ds.length / 8 ∧ number 256 (bs.map UInt8.toNat) = number 32 ds / 2 ^ (5 * ds.length % 8)

/-- The first `k` characters of the text are in the alphabet. -/
def Valid (s : Bytes) (k : Nat) : Prop := k ≤ (chars s).length ∧ ∀ c ∈ (chars s).take k, c ∈ alphabet

end Verif.Spec.HashVar
