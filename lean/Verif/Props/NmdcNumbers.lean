import Verif.Nmdc.Utils

/-!
# Number fields of NMDC (C35)
-/

namespace Verif.Props.NmdcNumbers

open Verif.Go Verif.Spec Verif.Nmdc

/-- Text with something besides spaces. -/
theorem not_all_space {s : Bytes} (h : ¬ ∃ b ∈ s, b ≠ c!" ") : ∀ b ∈ s, b = c!" " := by
  intro b hb
  cases hd : decide (b = c!" ") with
  | true => exact of_decide_eq_true hd
  | false => exact absurd ⟨b, hb, of_decide_eq_false hd⟩ h

theorem padded_mem {s t : Bytes} {b : Byte} (h : Padded s t) (hb : b ∈ t) : b ∈ s := by
  obtain ⟨i, j, rfl⟩ := h; simp [hb]

/-- Signed fields: exactly the space-padded signed numerals of 64 bits, with their value. -/
theorem atoi_exact {s : Bytes} {k : Int} :
    atoiTrim s = .ok k ↔ ∃ t, Padded s t ∧ SignedNumeral t k ∧ -(2 ^ 63 : Int) ≤ k ∧ k < 2 ^ 63 := by
  have core : ∀ t : Bytes, t ≠ [] → (atoiBody t = Res.ok k ↔ SignedNumeral t k ∧ -(2 ^ 63 : Int) ≤ k ∧ k < 2 ^ 63) := by
    intro t ht
    cases t with
    | nil => exact absurd rfl ht
    | cons c u =>
      simp only [atoiBody]
      by_cases hl : (c :: u).length < 10
      · rw [if_pos hl, atoiFast hl]
        exact ⟨fun h => ⟨h, signed_short h hl⟩, fun h => h.1⟩
      · rw [if_neg hl]
        exact parseInt_ok (bits := 64) (by omega) (by omega)
  unfold atoiTrim
  by_cases hs : ∃ b ∈ s, b ≠ c!" "
  · have hne : s ≠ [] := by rintro rfl; simp at hs
    rw [if_neg (by simpa using hne)]
    obtain ⟨hp, ⟨x, u, hx, hxs⟩, y, v, hy, hys⟩ := trimSpace_spec hs
    have ht : trimSpace s ≠ [] := by rw [hx]; simp
    rw [core _ ht]
    constructor
    · intro h; exact ⟨_, hp, h⟩
    · rintro ⟨t, h1, h2, h3⟩
      have hn := signed_no_space h2
      rw [trimSpace_padded h1 (signed_ne_nil h2) (head?_ne_of_not_mem hn) (getLast?_ne_of_not_mem hn)]
      exact ⟨h2, h3⟩
  · have hall := not_all_space hs
    have hno : ¬ ∃ t, Padded s t ∧ SignedNumeral t k ∧ -(2 ^ 63 : Int) ≤ k ∧ k < 2 ^ 63 := by
      rintro ⟨t, h1, h2, -⟩
      obtain ⟨c, u, rfl⟩ := List.exists_cons_of_ne_nil (signed_ne_nil h2)
      exact signed_no_space h2 (by rw [hall c (padded_mem h1 (by simp))]; simp)
    refine ⟨fun h => ?_, fun h => absurd h hno⟩
    exfalso
    split at h
    · simp at h
    · rename_i hne
      rw [trimSpace_allSpace hall] at h
      have hne' : s ≠ [] := by simpa using hne
      have h' := (core s hne').mp h
      exact hno ⟨s, ⟨0, 0, by simp⟩, h'⟩

example : atoiTrim b!"  -00042 " = .ok (-42) :=
  atoi_exact.mpr ⟨b!"-00042", ⟨2, 1, by decide⟩, .minus (d := b!"00042") (by decide), by decide, by decide⟩

/-- Overflow is an error. -/
example : ∀ k, atoiTrim b!"9223372036854775808" ≠ .ok k := by
  intro k h
  have : atoiTrim b!"9223372036854775808" = .err errRange := by decide +kernel
  rw [this] at h; cases h

/-- Unsigned fields: exactly the space-padded numerals below 2^64, with their value. -/
theorem uint_exact {s : Bytes} {k : Nat} :
    parseUin64Trim s = .ok k ↔ ∃ t, Padded s t ∧ IsNumeral t ∧ value t = k ∧ k < 2 ^ 64 := by
  have core : ∀ t : Bytes, t ≠ [] → ((if t.length = 0 then Res.err errSyntax else parseUin64Loop t 0) = .ok k ↔
      IsNumeral t ∧ value t = k ∧ k < 2 ^ 64) := by
    intro t ht
    rw [if_neg (by simpa using ht), parseUin64Loop_eq, parseUintLoop_ok (Nat.le_refl _) (Nat.zero_le _)]
    simp only [IsNumeral, ne_eq, ht, not_false_eq_true, true_and, value, maxU64]
    constructor
    · rintro ⟨a, b, c⟩; exact ⟨a, b, by omega⟩
    · rintro ⟨a, b, c⟩; exact ⟨a, b, by omega⟩
  have hns : ∀ t : Bytes, IsNumeral t → c!" " ∉ t := fun t h h' => not_digit_space (h.2 _ h')
  unfold parseUin64Trim
  by_cases hs : ∃ b ∈ s, b ≠ c!" "
  · have hne : s ≠ [] := by rintro rfl; simp at hs
    rw [if_neg (by simpa using hne)]
    obtain ⟨hp, ⟨x, u, hx, hxs⟩, y, v, hy, hys⟩ := trimSpace_spec hs
    have ht : trimSpace s ≠ [] := by rw [hx]; simp
    simp only
    rw [core _ ht]
    constructor
    · intro h; exact ⟨_, hp, h⟩
    · rintro ⟨t, h1, h2, h3⟩
      have hn := hns t h2
      rw [trimSpace_padded h1 h2.1 (head?_ne_of_not_mem hn) (getLast?_ne_of_not_mem hn)]
      exact ⟨h2, h3⟩
  · have hall := not_all_space hs
    have hno : ¬ ∃ t, Padded s t ∧ IsNumeral t ∧ value t = k ∧ k < 2 ^ 64 := by
      rintro ⟨t, h1, h2, -⟩
      obtain ⟨c, u, rfl⟩ := List.exists_cons_of_ne_nil h2.1
      exact hns _ h2 (by rw [hall c (padded_mem h1 (by simp))]; simp)
    refine ⟨fun h => ?_, fun h => absurd h hno⟩
    exfalso
    split at h
    · simp at h
    · rename_i hne
      rw [trimSpace_allSpace hall] at h
      have hne' : s ≠ [] := by simpa using hne
      exact hno ⟨s, ⟨0, 0, by simp⟩, (core s hne').mp h⟩

example : parseUin64Trim b!" 18446744073709551615" = .ok 18446744073709551615 :=
  uint_exact.mpr ⟨b!"18446744073709551615", ⟨1, 0, by decide⟩, by decide, by decide, by decide⟩

/-- One more is refused, not wrapped. -/
example : parseUin64Trim b!"18446744073709551616" = .err errSyntax := by decide +kernel

/-- Both parsers always return. -/
theorem numbers_no_panic (s : Bytes) : atoiTrim s ≠ .panic ∧ parseUin64Trim s ≠ .panic :=
  ⟨atoiTrim_ne_panic s, parseUin64Trim_ne_panic s⟩

/-- What the encoders print is read back. -/
theorem number_roundtrip {n : Nat} (h : n < 2 ^ 64) : parseUin64Trim (utoa n) = .ok n :=
  uint_exact.mpr ⟨utoa n, ⟨0, 0, by simp⟩, utoa_numeral n, value_utoa n, h⟩

/-- What the encoders print is read back. -/
theorem int_roundtrip {k : Int} (h1 : -(2 ^ 63 : Int) ≤ k) (h2 : k < 2 ^ 63) : atoiTrim (itoa k) = .ok k :=
  atoi_exact.mpr ⟨itoa k, ⟨0, 0, by simp⟩, itoa_signed k, h1, h2⟩

example : atoiTrim (itoa (-7)) = .ok (-7) := int_roundtrip (by decide) (by decide)

end Verif.Props.NmdcNumbers
