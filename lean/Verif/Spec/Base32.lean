import Verif.Go.Basic

/-!
# RFC 4648 base32, as arithmetic

A group of five bytes is a number written in base 256; its text is the same number written with eight digits in base 32.
A short last group is completed with zero bytes and only the characters that carry its bits are written.
-/

namespace Verif.Spec.Base32

/-- The alphabet `A`–`Z`, `2`–`7`. -/
def alphabet : Bytes := b!"ABCDEFGHIJKLMNOPQRSTUVWXYZ234567"

/-- A number written in base `base`, most significant digit first. -/
def number (base : Nat) (ds : List Nat) : Nat := ds.foldl (fun n d => n * base + d) 0

/-- The `k` digits of a number in base `base`, most significant first. -/
def digits (base : Nat) : Nat → Nat → List Nat
  | 0, _ => []
  | k + 1, n => digits base k (n / base) ++ [n % base]

/-- How many characters carry the bits of `k` bytes. -/
def chars (k : Nat) : Nat := (8 * k + 4) / 5

/-- Text of a group of at most five bytes. -/
def group (g : Bytes) : Bytes :=
  ((digits 32 8 (number 256 ((g ++ List.replicate (5 - g.length) 0).map UInt8.toNat))).take (chars g.length)).map
    (fun d => alphabet.getD d 0)

/-- Text of a byte string. -/
def text (s : Bytes) : Bytes :=
  if s = [] then [] else group (s.take 5) ++ text (s.drop 5)
termination_by s.length
decreasing_by
  have : s.length ≠ 0 := by simpa using ‹¬ s = []›
  simp; omega

/-- The texts that are taken for the name of 24 bytes, a superset of what `text` gives: carriage returns and line feeds
are skipped; 39 characters of the alphabet carry 195 bits, of which the last three are dropped; a byte `0xFF` (the
padding character of an encoding without padding) may follow, and then anything, eight bytes in all at most. -/
def Names (s h : Bytes) : Prop :=
  ∃ (ds : List Nat) (tail : Bytes), ds.length = 39 ∧ (∀ d ∈ ds, d < 32) ∧
    s.filter (fun c => c ≠ 13 ∧ c ≠ 10) = ds.map (fun d => alphabet.getD d 0) ++ tail ∧
    (tail = [] ∨ ∃ junk, tail = 0xFF :: junk ∧ junk.length < 8) ∧
    h.length = 24 ∧ number 256 (h.map UInt8.toNat) = number 32 ds / 8

end Verif.Spec.Base32
