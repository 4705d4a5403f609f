import Verif.Go.Utf8
import Verif.Go.Slices

/-!
# `unicode.IsSpace` and `bytes.TrimSpace`
-/

namespace Verif.Go

open Verif.Spec

/-- `unicode.IsSpace` (property White_Space). -/
def isSpaceRune (r : Nat) : Bool :=
  (0x09 ≤ r && r ≤ 0x0D) || r = 0x20 || r = 0x85 || r = 0xA0 || r = 0x1680 || (0x2000 ≤ r && r ≤ 0x200A) ||
    r = 0x2028 || r = 0x2029 || r = 0x202F || r = 0x205F || r = 0x3000

/-- The white space runes. -/
def spaceRunes : List Nat :=
  [0x09, 0x0A, 0x0B, 0x0C, 0x0D, 0x20, 0x85, 0xA0, 0x1680, 0x2000, 0x2001, 0x2002, 0x2003, 0x2004, 0x2005, 0x2006,
    0x2007, 0x2008, 0x2009, 0x200A, 0x2028, 0x2029, 0x202F, 0x205F, 0x3000]

theorem isSpaceRune_iff (r : Nat) : isSpaceRune r = true ↔ r ∈ spaceRunes := by
  simp [isSpaceRune, spaceRunes]
  omega

/-- Length of the white space rune at the head of `s`. -/
def spaceHead (s : Bytes) : Option Nat :=
  match decodeRune s with
  | some (r, n) => if isSpaceRune r then some n else none
  | none => none

/-- Left half of `bytes.TrimSpace`; `k` bytes are skipped first. -/
def trimSpaceLeft : Nat → Bytes → Bytes
  | _, [] => []
  | k + 1, _ :: s => trimSpaceLeft k s
  | 0, b :: s =>
    match spaceHead (b :: s) with
    | some n => trimSpaceLeft (n - 1) s
    | none => b :: s

/-- Length of the white space rune at the end of the string, given reversed.  `utf8.DecodeLastRune`
returns a white space rune exactly when the string ends with its encoding. -/
def spaceLast (rev : Bytes) : Option Nat :=
  (spaceRunes.find? (fun r => hasPrefix rev (utf8 r).reverse)).map (fun r => (utf8 r).length)

/-- Right half of `bytes.TrimSpace` on the reversed string. -/
def trimSpaceRight : Nat → Bytes → Bytes
  | _, [] => []
  | k + 1, _ :: s => trimSpaceRight k s
  | 0, b :: s =>
    match spaceLast (b :: s) with
    | some n => trimSpaceRight (n - 1) s
    | none => b :: s

/-- `bytes.TrimSpace`, `strings.TrimSpace`. -/
def trimSpaceU (s : Bytes) : Bytes := (trimSpaceRight 0 (trimSpaceLeft 0 s).reverse).reverse

/-- The text does not begin with white space. -/
def NoSpaceHead (s : Bytes) : Prop := spaceHead s = none

/-- The text does not end with white space. -/
def NoSpaceLast (s : Bytes) : Prop := spaceLast s.reverse = none

instance (s : Bytes) : Decidable (NoSpaceHead s) := inferInstanceAs (Decidable (_ = _))
instance (s : Bytes) : Decidable (NoSpaceLast s) := inferInstanceAs (Decidable (_ = _))

/-- Text without white space at its ends is not trimmed. -/
theorem trimSpaceU_id {s : Bytes} (h1 : NoSpaceHead s) (h2 : NoSpaceLast s) : trimSpaceU s = s := by
  unfold trimSpaceU
  have e1 : trimSpaceLeft 0 s = s := by
    cases s with
    | nil => rfl
    | cons b s => simp only [trimSpaceLeft, show spaceHead (b :: s) = none from h1]
  rw [e1]
  unfold NoSpaceLast at h2
  have e2 : trimSpaceRight 0 s.reverse = s.reverse := by
    cases hr : s.reverse with
    | nil => rfl
    | cons b t =>
      rw [hr] at h2
      simp only [trimSpaceRight, h2]
  rw [e2, List.reverse_reverse]

/-- An ASCII byte that is not white space at the head. -/
theorem noSpaceHead_ascii {b : Byte} {s : Bytes} (h : b.toNat < 0x80) (h' : isSpaceRune b.toNat = false) :
    NoSpaceHead (b :: s) := by
  simp [NoSpaceHead, spaceHead, decodeRune, h, h']

theorem decodeRune_ascii {b : Byte} {s : Bytes} (h : b.toNat < 0x80) : decodeRune (b :: s) = some (b.toNat, 1) := by
  simp [decodeRune, h]

/-- Whether a text ends with white space depends on its last three bytes only; in particular on a
non-empty suffix that ends with an ASCII byte. -/
theorem noSpaceLast_ascii {s : Bytes} {b : Byte} (h : b.toNat < 0x80) (h' : isSpaceRune b.toNat = false) :
    NoSpaceLast (s ++ [b]) := by
  unfold NoSpaceLast spaceLast
  rw [Option.map_eq_none_iff, List.find?_eq_none]
  intro r hr hp
  simp only [List.reverse_append, List.reverse_cons, List.reverse_nil, List.nil_append, List.cons_append] at hp
  rw [hasPrefix_iff] at hp
  have hall : ∀ r ∈ spaceRunes, ∃ x t, (utf8 r).reverse = x :: t ∧ (x.toNat < 0x80 → isSpaceRune x.toNat = true) := by
    have : spaceRunes.all (fun r => match (utf8 r).reverse with
      | [] => false
      | x :: _ => !decide (x.toNat < 0x80) || isSpaceRune x.toNat) = true := by decide +kernel
    intro r hr
    have := List.all_eq_true.mp this r hr
    split at this
    · cases this
    · rename_i x t e
      refine ⟨x, t, e, fun hx => ?_⟩
      simpa [hx] using this
  obtain ⟨x, t, e, hx⟩ := hall r hr
  rw [e, List.cons_prefix_cons] at hp
  have := hx (by rw [hp.1]; exact h)
  rw [hp.1, h'] at this
  cases this

end Verif.Go
