import Verif.Nmdc.EntityNames

/-!
# C123: the character references of HTML 5 in NMDC text

Models: `Verif/Go/Html.lean`, `Verif/Go/HtmlPlace.lean` (the buffer), `Verif/Go/HtmlTable.lean` (the names), `Verif/Nmdc/Types.lean`.
The theorems here are about the tables of package `html`; those of C84 are about any tables.
-/

namespace Verif.Props.Entities

open Verif Verif.Go Verif.Nmdc Verif.Spec

attribute [local instance] html5Entities

/-- Decoding in the buffer never writes outside it, never overwrites what is still to be read, ends, and gives what decoding without a buffer
gives. -/
theorem in_place (s : Bytes) : unescapeString s = some (htmlUnescape s) := unescapeString_eq html5_narrow s

/-- Decoded text is never longer than the text that was sent. -/
theorem not_longer (b : Bytes) : (unescapeBytes b).length ≤ b.length := unescapeBytes_le html5_narrow b

/-- Without a decoder, a text that was read is not longer than what was received. -/
theorem text_bound {d t : Bytes} (h : Str.unmarshal none d = .ok t) : t.length ≤ d.length := by
  have hb := not_longer d
  simp only [Str.unmarshal, Codec.run] at h
  split at h
  · simp at h
  · replace h : (if validUtf8 (unescapeBytes d) then Res.ok (unescapeBytes d) else .err (.unknownEncoding (unescapeBytes d))) = .ok t := h
    split at h
    · cases h; exact hb
    · simp at h

/-- Without a decoder, a name that was read fits into a name that is sent: its length is not what could keep it from being sent on. -/
theorem name_bound {d t : Bytes} (h : Name.unmarshal none d = .ok t) : t.length ≤ d.length ∧ t.length ≤ 256 := by
  have hb := not_longer d
  unfold Name.unmarshal at h
  by_cases h1 : d.length > maxName
  · rw [if_pos h1] at h; simp at h
  · rw [if_neg h1] at h
    simp only [maxName] at h1
    by_cases h2 : d.any invalidCharName = true
    · rw [if_pos h2] at h; simp at h
    · rw [if_neg h2] at h
      replace h : (if validUtf8 (unescapeBytes d) then Res.ok (unescapeBytes d) else .err (.unknownEncoding (unescapeBytes d))) = .ok t := h
      split at h
      · cases h; omega
      · simp at h

/-- What is read back from a buffer in which the result is written over the text needs names that are not shorter than what they stand for: with
`nGt;`, as in the table of HTML 5, the last byte would be written outside the buffer. -/
theorem wide_name_panics (T : HtmlEntities) (h1 : T.entity b!"nGt;" = none) (h2 : T.entity2 b!"nGt;" = some (utf8 0x226B ++ utf8 0x20D2)) :
    @unescapeString T b!"&nGt;" = none := by
  have hu : @unescapeEntity T b!"&nGt;" = (utf8 0x226B ++ utf8 0x20D2, 5) := by
    have hl : nameLoop b!"nGt;" 1 = 5 := by decide
    simp [unescapeEntity, hl, h1, h2]
  have hi : indexByte b!"&nGt;" c!"&" = some 0 := by decide
  simp only [unescapeString, hi, unescapeAt, List.drop_zero, hu]
  have hp : putAt b!"&nGt;" 0 (utf8 0x226B ++ utf8 0x20D2) = none := by decide +kernel
  rw [hp]; rfl

/-- The tables leave `nGt;` and `nLt;` out: they stay as they are. -/
theorem wide_names_kept : htmlUnescape b!"&nGt;" = b!"&nGt;" ∧ htmlUnescape b!"&nLt;" = b!"&nLt;" := by decide +kernel

/-! ## Every name -/

/-- A name of one character, with its semicolon, is replaced by that character, whatever follows. -/
theorem every_name {e : Bytes × Nat} (he : e ∈ entityTable) (hs : e.1.getLast? = some c!";") (rest : Bytes) :
    htmlUnescape (c!"&" :: e.1 ++ rest) = utf8 e.2 ++ htmlUnescape rest := by
  obtain ⟨h1, h2⟩ := names_end e he hs
  have h4 : entity e.1 = some (utf8 e.2) := entity_mem he
  have h3 := last_split hs
  refine htmlUnescape_known ?_ ?_ ?_ (Or.inl h4)
  · rw [h3, List.append_assoc, nameLoop_alnum h1]
    simp [nameLoop, show isAlnum c!";" = false from by decide]
    omega
  · intro h; rw [h] at hs; simp at hs
  · rw [h3, List.head?_append, List.head?_eq_some_head h2, Option.some_or, ← List.head?_eq_some_head h2]; exact alnum_head h1

/-- A name of two characters is replaced by them, whatever follows. -/
theorem every_pair {e : Bytes × Nat × Nat} (he : e ∈ entityPairs) (rest : Bytes) :
    htmlUnescape (c!"&" :: e.1 ++ rest) = utf8 e.2.1 ++ utf8 e.2.2 ++ htmlUnescape rest := by
  obtain ⟨hs, h1, h2, h5⟩ := pairs_end e he
  have h3 := last_split hs
  refine htmlUnescape_known ?_ ?_ ?_ (Or.inr ⟨?_, ?_⟩)
  · rw [h3, List.append_assoc, nameLoop_alnum h1]
    simp [nameLoop, show isAlnum c!";" = false from by decide]
    omega
  · intro h; rw [h] at hs; simp at hs
  · rw [h3, List.head?_append, List.head?_eq_some_head h2, Option.some_or, ← List.head?_eq_some_head h2]; exact alnum_head h1
  · change (entityTable.lookup e.1).map utf8 = _
    rw [h5]; rfl
  · change (entityPairs.lookup e.1).map _ = _
    rw [lookup_of_mem entityPairs_sorted he]; rfl

/-- The names HTML has had without a semicolon are replaced also without one, at the end of the text and before anything that is neither a letter
nor a digit. -/
theorem every_old_name {e : Bytes × Nat} (he : e ∈ entityTable) (hs : e.1.getLast? ≠ some c!";") {rest : Bytes}
    (hr : ∀ c, rest.head? = some c → isAlnum c = false ∧ c ≠ c!";") :
    htmlUnescape (c!"&" :: e.1 ++ rest) = utf8 e.2 ++ htmlUnescape rest := by
  obtain ⟨h1, h2⟩ := old_names e he hs
  have h4 : entity e.1 = some (utf8 e.2) := entity_mem he
  refine htmlUnescape_known ?_ h2 (alnum_head h1) (Or.inl h4)
  rw [nameLoop_alnum h1]
  cases rest with
  | nil => simp [nameLoop]; omega
  | cons c rest =>
    obtain ⟨g1, g2⟩ := hr c rfl
    simp [nameLoop, g1, g2]; omega

/-- An old name means the same with its semicolon. -/
theorem old_name_same {e : Bytes × Nat} (he : e ∈ entityTable) (hs : e.1.getLast? ≠ some c!";") : (e.1 ++ b!";", e.2) ∈ entityTable :=
  semicolonNext_mem entityTable_next he hs

/-! ## Names that HTML does not have -/

/-- A whole name: letters and digits, up to a semicolon that belongs to it or to something that is none of these. -/
def WholeName (w rest : Bytes) : Prop :=
  ∃ n, n ≠ [] ∧ (∀ c ∈ n, isAlnum c = true) ∧
    (w = n ++ b!";" ∨ (w = n ∧ ∀ c, rest.head? = some c → isAlnum c = false ∧ c ≠ c!";"))

/-- HTML has this name. -/
def Known (w : Bytes) : Prop := (∃ r, (w, r) ∈ entityTable) ∨ ∃ r, (w, r) ∈ entityPairs

theorem whole_loop {w rest : Bytes} (h : WholeName w rest) : nameLoop (w ++ rest) 1 = w.length + 1 ∧ w ≠ [] ∧ w.head? ≠ some c!"#" := by
  obtain ⟨n, hn, ha, rfl | ⟨rfl, hr⟩⟩ := h
  · refine ⟨?_, by simp, ?_⟩
    · rw [List.append_assoc, nameLoop_alnum ha]
      simp [nameLoop, show isAlnum c!";" = false from by decide]
      omega
    · rw [List.head?_append, List.head?_eq_some_head hn, Option.some_or, ← List.head?_eq_some_head hn]; exact alnum_head ha
  · refine ⟨?_, hn, alnum_head ha⟩
    rw [nameLoop_alnum ha]
    cases rest with
    | nil => simp [nameLoop]; omega
    | cons c rest =>
      obtain ⟨g1, g2⟩ := hr c rfl
      simp [nameLoop, g1, g2]; omega

theorem unknown_none {w : Bytes} (h : ¬ Known w) : entity w = none ∧ entity2 w = none := by
  constructor
  · change (entityTable.lookup w).map utf8 = none
    cases hl : entityTable.lookup w with
    | none => rfl
    | some r => exact absurd (.inl ⟨r, lookup_mem hl⟩) h
  · change (entityPairs.lookup w).map _ = none
    cases hl : entityPairs.lookup w with
    | none => rfl
    | some r => exact absurd (.inr ⟨r, lookup_mem hl⟩) h

/-- A name that HTML does not have, but that begins with one of two to six letters and digits that it has: the longest of these is replaced, and the
rest is kept. -/
theorem name_inside {w p q rest : Bytes} {r : Nat} (hw : WholeName w rest) (hu : ¬ Known w) (hs : w = p ++ q) (hq : q ≠ [])
    (hp : 2 ≤ p.length ∧ p.length ≤ 6) (hr : (p, r) ∈ entityTable) (hm : ∀ k, p.length < k → k ≤ 6 → k < w.length → ¬ Known (w.take k)) :
    htmlUnescape (c!"&" :: w ++ rest) = utf8 r ++ htmlUnescape (q ++ rest) := by
  obtain ⟨h1, _, h3⟩ := whole_loop hw
  obtain ⟨h4, h5⟩ := unknown_none hu
  exact htmlUnescape_inside h1 h3 h4 h5 hs hq hp (entity_mem hr) fun k a b c => (unknown_none (hm k a b c)).1

/-- Any other name that HTML does not have is kept, with its `&`. -/
theorem unknown_kept {w rest : Bytes} (hw : WholeName w rest) (hu : ¬ Known w) (hm : ∀ k, 2 ≤ k → k ≤ 6 → k < w.length → ¬ Known (w.take k)) :
    htmlUnescape (c!"&" :: w ++ rest) = c!"&" :: w ++ htmlUnescape rest := by
  obtain ⟨h1, h2, h3⟩ := whole_loop hw
  obtain ⟨h4, h5⟩ := unknown_none hu
  exact htmlUnescape_kept h1 h2 h3 h4 h5 fun k a b c => (unknown_none (hm k a b c)).1

/-! ## Examples -/

theorem known_iff (w : Bytes) : Known w ↔ entityTable.any (·.1 == w) || entityPairs.any (·.1 == w) := by
  simp [Known]

/-- `&notit;` is a not sign and `it;`. -/
example : WholeName b!"notit;" b!"" ∧ ¬ Known b!"notit;" ∧ (b!"not", 0xAC) ∈ entityTable ∧
    ∀ k, 3 < k → k ≤ 6 → k < (b!"notit;").length → ¬ Known ((b!"notit;").take k) := by
  refine ⟨⟨b!"notit", by decide, by decide, .inl rfl⟩, by rw [known_iff]; decide +kernel, by decide +kernel, ?_⟩
  simp only [known_iff]
  intro k h1 h2 h3
  have : k = 4 ∨ k = 5 := by simp at h3; omega
  rcases this with rfl | rfl <;> decide +kernel

example : WholeName b!"xyzzy;" b!"" ∧ ¬ Known b!"xyzzy;" ∧ ∀ k, 2 ≤ k → k ≤ 6 → k < (b!"xyzzy;").length → ¬ Known ((b!"xyzzy;").take k) := by
  refine ⟨⟨b!"xyzzy", by decide, by decide, .inl rfl⟩, by rw [known_iff]; decide +kernel, ?_⟩
  simp only [known_iff]
  intro k h1 h2 h3
  have : k = 2 ∨ k = 3 ∨ k = 4 ∨ k = 5 := by simp at h3; omega
  rcases this with rfl | rfl | rfl | rfl <;> decide +kernel

/-- A table with `nGt;`. -/
@[instance_reducible] def wideEntities : HtmlEntities where
  entity := basicEntities.entity
  entity2 n := if n = b!"nGt;" then some (utf8 0x226B ++ utf8 0x20D2) else none
  amp := basicEntities.amp
  lt := basicEntities.lt
  gt := basicEntities.gt

example : wideEntities.entity b!"nGt;" = none ∧ wideEntities.entity2 b!"nGt;" = some (utf8 0x226B ++ utf8 0x20D2) := by decide +kernel

example : (b!"eacute;", 0xE9) ∈ entityTable ∧ (b!"eacute", 0xE9) ∈ entityTable ∧ (b!"bne;", 0x3D, 0x20E5) ∈ entityPairs := by decide +kernel

example : unescapeString b!"caf&eacute; &lt;3 &notit; &#x1F600; &bne; &nosuch; &" =
    some (b!"caf" ++ utf8 0xE9 ++ b!" <3 " ++ utf8 0xAC ++ b!"it; " ++ utf8 0x1F600 ++ b!" =" ++ utf8 0x20E5 ++ b!" &nosuch; &") := by
  decide +kernel

example : Name.unmarshal none b!"J&uuml;rgen" = .ok (b!"J" ++ utf8 0xFC ++ b!"rgen") := by decide +kernel

end Verif.Props.Entities
