import Verif.Go.Base32AnyLemmas
import Verif.Adc.Messages
import Verif.Props.Identifiers
import Verif.Props.AdcSafety

/-!
# C69: which texts are read as the salt of a password request, and as what

`Spec.Base32.Decodes` says what a text of any length carries. Two findings: a last group of one, three or six characters, which no salt is
written as, is accepted and dropped; and the salt always has five bytes for eight of the bytes received, so that it ends with zeros where less was carried.
-/

namespace Verif.Props.AdcSalt

open Verif.Go Verif.Adc

/-- A text is accepted as a salt exactly if it is base32 text (with what may follow it), and the salt is then what it carries, followed by
zeros up to five bytes for every eight received. -/
theorem salt_reads (data salt : Bytes) :
    GetPassword.unmarshal data = .ok salt ↔
      ∃ out, Spec.Base32.Decodes data out ∧ salt = out ++ List.replicate (data.length * 5 / 8 - out.length) 0 := by
  have key : ∀ out, Base32.decode (data.length * 5 / 8) data = .ok out ↔ Spec.Base32.Decodes data out := by
    intro out
    unfold Base32.decode
    have hl : (Base32.stripNewlines data).length ≤ data.length := List.length_filter_le _ _
    rw [Base32.decodeLoop_exact _ _ _ (by omega)]
    unfold Spec.Base32.Decodes
    have hf : Base32.stripNewlines data = data.filter (fun c => c ≠ 13 ∧ c ≠ 10) := by
      unfold Base32.stripNewlines
      rfl
    rw [← hf]
    constructor
    · rintro ⟨ds, tail, h1, h2, h3⟩
      exact ⟨ds, tail, h1, by rw [Identifiers.map_alphabet h1]; exact h2, h3⟩
    · rintro ⟨ds, tail, h1, h2, h3⟩
      exact ⟨ds, tail, h1, by rw [← Identifiers.map_alphabet h1]; exact h2, h3⟩
  unfold GetPassword.unmarshal
  simp only
  constructor
  · intro h
    split at h
    · rename_i b hb
      cases h
      exact ⟨b, (key b).mp hb, rfl⟩
    · cases h
    · cases h
  · rintro ⟨out, h, rfl⟩
    rw [(key out).mpr h]

/-- What a text carries is one thing. -/
theorem salt_unique {data a b : Bytes} (ha : Spec.Base32.Decodes data a) (hb : Spec.Base32.Decodes data b) : a = b := by
  obtain ⟨ds, tail, h1, h2, h3, h4⟩ := ha
  obtain ⟨ds', tail', g1, g2, g3, g4⟩ := hb
  rw [Identifiers.map_alphabet h1] at h2
  rw [Identifiers.map_alphabet g1] at g2
  have hl : ((data.filter (fun c => c ≠ 13 ∧ c ≠ 10)).length) ≤ data.length := List.length_filter_le _ _
  have h := (Base32.decodeLoop_exact _ data.length a (by omega)).mpr ⟨ds, tail, h1, h2, h3, h4⟩
  have g := (Base32.decodeLoop_exact _ data.length b (by omega)).mpr ⟨ds', tail', g1, g2, g3, g4⟩
  rw [h] at g
  cases g
  rfl

/-- The length of the salt is that of the text alone. -/
theorem salt_length {data salt : Bytes} (h : GetPassword.unmarshal data = .ok salt) : salt.length = data.length * 5 / 8 := by
  obtain ⟨out, ⟨ds, tail, h1, h2, h3, h4⟩, rfl⟩ := (salt_reads data salt).mp h
  have := Base32.carries_length h4
  have hl : ((data.filter (fun c => c ≠ 13 ∧ c ≠ 10)).length) ≤ data.length := List.length_filter_le _ _
  rw [h2] at hl
  simp at hl
  simp
  omega

/-- The text `MFRGG` is the salt `abc`. -/
example : GetPassword.unmarshal b!"MFRGG" = .ok b!"abc" := by decide +kernel

/-- Finding: a lone last character is dropped, and its place taken by nothing. -/
example : GetPassword.unmarshal b!"MFRGGZDFM" = .ok b!"abcde" := by decide +kernel

/-- Finding: a last group of six characters is dropped, and the salt ends with three zeros. -/
example : GetPassword.unmarshal b!"MFRGGZ" = .ok [0, 0, 0] := by decide +kernel

/-- Finding: a line feed lengthens the salt by a zero. -/
example : GetPassword.unmarshal b!"MF\nRGG\n\r" = .ok (b!"abc" ++ [0, 0]) := by decide +kernel

/-- Small letters are not accepted. -/
example (salt : Bytes) : GetPassword.unmarshal b!"mfrgg" ≠ .ok salt := by
  rw [show GetPassword.unmarshal b!"mfrgg" = .err Base32.corrupt by decide +kernel]
  simp

/-- The hypotheses of `salt_unique` are met. -/
example : Spec.Base32.Decodes b!"MFRGG" b!"abc" :=
  ⟨[12, 5, 17, 6, 6], [], by decide, by decide, .inl rfl, by decide, by decide⟩

end Verif.Props.AdcSalt
