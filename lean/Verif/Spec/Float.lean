import Verif.Spec.Base32
import Verif.Go.Slices

/-!
# Numbers with a floating point, stated apart from the model

The numbers of a format are multiples of its smallest positive number `2^-unit`; a natural number `X` stands for `X / 2^unit`.
-/

namespace Verif.Spec.Float

open Verif.Spec.Base32 (number)

/-- The numbers with a mantissa of so many bits. -/
def Has (bits X : Nat) : Prop := ∃ m e, m < 2 ^ bits ∧ X = m * 2 ^ e

/-- How far `X` is from `n / d`, times `d`. -/
def off (n d X : Nat) : Nat := ((n : Int) - (X * d : Nat)).natAbs

/-- `X` is the number nearest to `n / d`; of two that are as near it is the one with the even mantissa, which is divisible by a power of two
that does not divide the other. -/
def Nearest (bits n d X : Nat) : Prop :=
  Has bits X ∧ ∀ Y, Has bits Y → Y ≠ X → off n d X < off n d Y ∨ (off n d X = off n d Y ∧ ∃ e, 2 ^ e ∣ X ∧ ¬ 2 ^ e ∣ Y)

/-- A sign, or none. -/
def Sign (neg : Bool) (s : Bytes) : Prop := (neg = false ∧ (s = [] ∨ s = b!"+")) ∨ (neg = true ∧ s = b!"-")

/-- What digits stand for. -/
def digitVal (c : Byte) : Nat := if c ≤ c!"9" then c.toNat - 48 else if c ≤ c!"F" then c.toNat - 55 else c.toNat - 87

/-- A digit of decimal or hexadecimal notation. -/
def Digit (hex : Bool) (c : Byte) : Prop :=
  (c!"0" ≤ c ∧ c ≤ c!"9") ∨ (hex = true ∧ ((c!"a" ≤ c ∧ c ≤ c!"f") ∨ (c!"A" ≤ c ∧ c ≤ c!"F")))

/-- The number that digits of an exponent stand for; those after the first five that count are skipped. -/
def exponent (ds : List Nat) : Nat := ds.foldl (fun e d => if e < 10000 then e * 10 + d else e) 0

/-- An exponent, or none; hexadecimal notation must have one. -/
def Exponent (hex : Bool) (s : Bytes) (e : Int) : Prop :=
  (hex = false ∧ s = [] ∧ e = 0) ∨
  ∃ c sg neg ds, s = c :: (sg ++ ds) ∧ (if hex then c = c!"p" ∨ c = c!"P" else c = c!"e" ∨ c = c!"E") ∧ Sign neg sg ∧ ds ≠ [] ∧
    (∀ x ∈ ds, Digit false x) ∧ e = (if neg then -(exponent (ds.map digitVal) : Int) else exponent (ds.map digitVal))

/-- A number without underscores: sign, `0x` for hexadecimal notation, digits with at most one point among or around them, exponent. The number
is `mant * 10 ^ exp`, or `mant * 2 ^ exp` in hexadecimal notation. -/
def Plain (s : Bytes) (neg hex : Bool) (mant : Nat) (exp : Int) : Prop :=
  ∃ sg pre ip pt fp ex e, s = sg ++ (pre ++ (ip ++ (pt ++ (fp ++ ex)))) ∧ Sign neg sg ∧
    (if hex then pre = b!"0x" ∨ pre = b!"0X" else pre = []) ∧
    (∀ c ∈ ip ++ fp, Digit hex c) ∧ ip ++ fp ≠ [] ∧ (pt = b!"." ∨ (pt = [] ∧ fp = [])) ∧ Exponent hex ex e ∧
    mant = number (if hex then 16 else 10) ((ip ++ fp).map digitVal) ∧ exp = e - (if hex then 4 else 1) * (fp.length : Int)

/-- Whether the notation is hexadecimal. -/
def IsHex (s : Bytes) : Prop := ∃ neg sg t, Sign neg sg ∧ (s = sg ++ (b!"0x" ++ t) ∨ s = sg ++ (b!"0X" ++ t))

/-- Underscores stand between digits only; `0x` counts as a digit. -/
def Underscores (s : Bytes) : Prop :=
  ∀ a b, s = a ++ c!"_" :: b →
    ((∃ a' c hex, a = a' ++ [c] ∧ (hex = true → IsHex s) ∧ Digit hex c) ∨ (∃ neg sg, Sign neg sg ∧ (a = sg ++ b!"0x" ∨ a = sg ++ b!"0X"))) ∧
    ∃ c b' hex, b = c :: b' ∧ (hex = true → IsHex s) ∧ Digit hex c

/-- A number: one without underscores, or with underscores between digits. -/
def Number (s : Bytes) (neg hex : Bool) (mant : Nat) (exp : Int) : Prop :=
  Underscores s ∧ Plain (s.filter (· ≠ c!"_")) neg hex mant exp

/-- The fraction `mant * base ^ exp`, in multiples of `2 ^ -unit`. -/
def scaled (unit : Nat) (hex : Bool) (mant : Nat) (exp : Int) : Nat × Nat :=
  if 0 ≤ exp then (mant * (if hex then 2 else 10) ^ exp.toNat * 2 ^ unit, 1)
  else (mant * 2 ^ unit, (if hex then 2 else 10) ^ (-exp).toNat)

/-- The word, in lower case or upper case letters or both. -/
def Caseless (w s : Bytes) : Prop := s.length = w.length ∧ ∀ p ∈ s.zip w, p.1 = p.2 ∨ p.1 + 32 = p.2

/-- Not a number. -/
def NotANumber (s : Bytes) : Prop := Caseless b!"nan" s

/-- An infinity. -/
def Infinity (s : Bytes) (neg : Bool) : Prop := ∃ sg t, s = sg ++ t ∧ Sign neg sg ∧ (Caseless b!"inf" t ∨ Caseless b!"infinity" t)

end Verif.Spec.Float
