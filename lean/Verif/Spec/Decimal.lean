import Verif.Go.Basic

/-!
# Decimal numerals (specification)
-/

namespace Verif.Spec

/-- The byte is one of `0`…`9`. -/
def IsDigit (b : Byte) : Prop := 48 ≤ b.toNat ∧ b.toNat ≤ 57

instance (b : Byte) : Decidable (IsDigit b) := inferInstanceAs (Decidable (_ ∧ _))

/-- One or more digits. -/
def IsNumeral (s : Bytes) : Prop := s ≠ [] ∧ ∀ b ∈ s, IsDigit b

instance (s : Bytes) : Decidable (IsNumeral s) := inferInstanceAs (Decidable (_ ∧ _))

/-- The value of a digit string, most significant digit first. -/
def value (s : Bytes) : Nat := s.foldl (fun n b => 10 * n + (b.toNat - 48)) 0

/-- `s` is a numeral with an optional sign, of value `n`. -/
inductive SignedNumeral : Bytes → Int → Prop
  | plain {d : Bytes} : IsNumeral d → SignedNumeral d (value d)
  | plus {d : Bytes} : IsNumeral d → SignedNumeral (c!"+" :: d) (value d)
  | minus {d : Bytes} : IsNumeral d → SignedNumeral (c!"-" :: d) (-(value d : Int))

/-- The usual notation of a number: no sign for numbers that are not negative, no leading zeros. -/
def decimal (n : Int) : Bytes :=
  (if n < 0 then [c!"-"] else []) ++ (Nat.toDigits 10 n.natAbs).map (fun c => UInt8.ofNat c.toNat)

/-- `s` is `t` with spaces around it. -/
def Padded (s t : Bytes) : Prop := ∃ i j, s = List.replicate i c!" " ++ t ++ List.replicate j c!" "

theorem foldl_value (s : Bytes) (n : Nat) :
    s.foldl (fun n (b : Byte) => 10 * n + (b.toNat - 48)) n = n * 10 ^ s.length + value s := by
  induction s generalizing n with
  | nil => simp [value]
  | cons b s ih =>
    simp only [List.foldl_cons, value, List.length_cons]
    rw [ih, ih (10 * 0 + _)]
    rw [Nat.pow_succ, Nat.add_mul]
    simp [Nat.mul_comm, Nat.add_assoc, Nat.mul_assoc]

theorem value_append (s t : Bytes) : value (s ++ t) = value s * 10 ^ t.length + value t := by
  simp only [value, List.foldl_append]
  rw [foldl_value]
  rfl

theorem value_snoc (s : Bytes) (b : Byte) : value (s ++ [b]) = 10 * value s + (b.toNat - 48) := by
  simp [value, List.foldl_append]

theorem value_cons (b : Byte) (s : Bytes) : value (b :: s) = (b.toNat - 48) * 10 ^ s.length + value s := by
  have := value_append [b] s
  simpa [value] using this

end Verif.Spec
