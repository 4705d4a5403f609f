import Verif.Adc.Values

/-!
# ADC text and value types (C39, parts of C49)
-/

namespace Verif.Props.AdcText

open Verif.Go Verif.Adc Verif.Tiger

theorem unescape_cons {c : Byte} (h : c ≠ c!"\\") (t : Bytes) : unescape (c :: t) = c :: unescape t := by
  cases t with
  | nil => simp [unescape]
  | cons d t => simp [unescape, h]

theorem unescape_escapeByte (c : Byte) (t : Bytes) : unescape (escapeByte c ++ t) = c :: unescape t := by
  unfold escapeByte
  split
  · rename_i h; subst h; simp [unescape]
  · split
    · rename_i h; subst h; simp [unescape]
    · split
      · rename_i h; subst h; simp [unescape]
      · rename_i h _ _; exact unescape_cons h t

/-- **C39.** Escaping is undone. -/
theorem unescape_escape (s : Bytes) : unescape (escape s) = s := by
  induction s with
  | nil => simp [escape, unescape]
  | cons c s ih => rw [escape, unescape_escapeByte, ih]

theorem mem_escape {s : Bytes} {c : Byte} (h : c ∈ escape s) :
    c ≠ c!" " ∧ c ≠ c!"\n" ∧ (c ∈ s ∨ c = c!"\\" ∨ c = c!"s" ∨ c = c!"n") := by
  induction s with
  | nil => simp [escape] at h
  | cons d s ih =>
    rw [escape, List.mem_append] at h
    rcases h with h | h
    · unfold escapeByte at h
      split at h
      · simp at h; subst h; simp
      · split at h
        · simp at h; rcases h with h | h <;> subst h <;> simp
        · split at h
          · simp at h; rcases h with h | h <;> subst h <;> simp
          · rename_i h1 h2 h3; simp at h; subst h; exact ⟨h2, h3, by simp⟩
    · obtain ⟨h1, h2, h3⟩ := ih h
      refine ⟨h1, h2, ?_⟩
      rcases h3 with h3 | h3
      · exact .inl (by simp [h3])
      · exact .inr h3

/-- **C39.** Escaped text has no space and no newline. -/
theorem escape_clean (s : Bytes) : c!" " ∉ escape s ∧ c!"\n" ∉ escape s :=
  ⟨fun h => (mem_escape h).1 rfl, fun h => (mem_escape h).2.1 rfl⟩

/-- **C39.** Different texts have different escaped forms. -/
theorem escape_injective {s t : Bytes} (h : escape s = escape t) : s = t := by
  rw [← unescape_escape s, h, unescape_escape]

theorem escapeByte_ne_nil (c : Byte) : escapeByte c ≠ [] := by
  unfold escapeByte; split <;> (try split) <;> (try split) <;> simp

theorem escape_eq_nil {s : Bytes} : escape s = [] ↔ s = [] := by
  cases s with
  | nil => simp [escape]
  | cons c s => simp [escape, escapeByte_ne_nil]

/-- Text without backslash is not changed by unescaping; text without backslash, space and newline is not changed by escaping. -/
theorem plain_text (s : Bytes) : (c!"\\" ∉ s → unescape s = s) ∧ (c!"\\" ∉ s → c!" " ∉ s → c!"\n" ∉ s → escape s = s) := by
  constructor
  · induction s with
    | nil => simp [unescape]
    | cons c s ih =>
      intro h
      simp only [List.mem_cons, not_or] at h
      rw [unescape_cons (Ne.symm h.1), ih h.2]
  · induction s with
    | nil => simp [escape]
    | cons c s ih =>
      intro h1 h2 h3
      simp only [List.mem_cons, not_or] at h1 h2 h3
      rw [escape, ih h1.2 h2.2 h3.2, escapeByte, if_neg (Ne.symm h1.1), if_neg (Ne.symm h2.1), if_neg (Ne.symm h3.1)]
      rfl

example : escape b!"a \\s\nb" = b!"a\\s\\\\s\\nb" ∧ unescape b!"a\\s\\\\s\\nb" = b!"a \\s\nb" := by decide +kernel

/-- **C49.** Text values. -/
theorem string_roundtrip (s : Bytes) : String.unmarshal (String.marshal s) = .ok s := by
  simp [String.unmarshal, String.marshal, unescape_escape]

/-- **C49.** Features. -/
theorem feature_roundtrip (f : Feature) : Feature.unmarshal f.marshal = .ok f := by
  simp [Feature.unmarshal, Feature.marshal, f.size]

theorem feats_marshal_eq (fs : ExtFeatures) : fs.marshal = join (fs.map Feature.marshal) c!"," := by
  cases fs with
  | nil => simp [ExtFeatures.marshal, ExtFeatures.marshalLoop, join]
  | cons f fs =>
    simp only [ExtFeatures.marshal, ExtFeatures.marshalLoop]
    induction fs generalizing f with
    | nil => simp [ExtFeatures.marshalLoop, join]
    | cons g fs ih =>
      have := ih g
      simp only [if_true, List.nil_append] at this
      simp only [ExtFeatures.marshalLoop, List.map_cons, join, if_true, List.nil_append, Bool.false_eq_true, if_false,
        List.append_assoc] at this ⊢
      simp [this]

theorem feats_unmarshalLoop (fs arr : ExtFeatures) : ExtFeatures.unmarshalLoop arr (fs.map Feature.marshal) = .ok (arr ++ fs) := by
  induction fs generalizing arr with
  | nil => simp [ExtFeatures.unmarshalLoop]
  | cons f fs ih =>
    simp only [List.map_cons, ExtFeatures.unmarshalLoop, feature_roundtrip]
    show ExtFeatures.unmarshalLoop (arr ++ [f]) _ = _
    rw [ih]; simp

theorem feats_length (f : Feature) (fs : ExtFeatures) : ¬ (ExtFeatures.marshal (f :: fs)).length < 1 := by
  have := f.size
  simp only [ExtFeatures.marshal, ExtFeatures.marshalLoop, Feature.marshal, List.length_append]
  omega

/-- **C49.** Feature lists, if no feature contains the separator. -/
theorem feats_roundtrip (fs : ExtFeatures) (h : ∀ f ∈ fs, c!"," ∉ f.bytes) : ExtFeatures.unmarshal fs.marshal [] = .ok fs := by
  cases fs with
  | nil => rfl
  | cons f fs =>
    rw [ExtFeatures.unmarshal, if_neg (feats_length f fs), feats_marshal_eq, split_join (by simp), feats_unmarshalLoop]
    · rfl
    · intro p hp
      obtain ⟨g, hg, rfl⟩ := List.mem_map.mp hp
      exact h g hg

/-- A longer list replaces the old one, the empty list does not. -/
theorem feats_stale (fs old : ExtFeatures) (h : ∀ f ∈ fs, c!"," ∉ f.bytes) :
    ExtFeatures.unmarshal fs.marshal old = .ok (if fs = [] then old else fs) := by
  have := feats_roundtrip fs h
  unfold ExtFeatures.unmarshal at this ⊢
  split
  · rename_i hl
    have : fs = [] := by
      cases fs with
      | nil => rfl
      | cons f fs => exact absurd hl (feats_length f fs)
    simp [this]
  · rename_i hl
    rw [if_neg hl] at this
    rw [this, if_neg]
    intro hf; subst hf; exact hl (by decide)

/-- **C49.** Membership. -/
theorem feats_has (s : Feature) (fs : ExtFeatures) : ExtFeatures.has s fs = true ↔ s ∈ fs := by
  induction fs with
  | nil => simp [ExtFeatures.has]
  | cons f fs ih =>
    rw [ExtFeatures.has]
    split
    · rename_i h; simp [h]
    · rename_i h; rw [ih]; simp [Ne.symm h]

/-- **C49.** Booleans written as numbers; every other text is refused. -/
theorem boolInt_exact (s : Bytes) (b : Bool) : BoolInt.unmarshal s = .ok b ↔ s = BoolInt.marshal b := by
  constructor
  · intro h
    match s with
    | [] => simp [BoolInt.unmarshal] at h
    | [c] =>
      simp only [BoolInt.unmarshal] at h
      split at h
      · rename_i hc; simp at h; subst h hc; rfl
      · split at h
        · rename_i hc; simp at h; subst h hc; rfl
        · simp at h
    | _ :: _ :: _ => simp [BoolInt.unmarshal] at h
  · rintro rfl; cases b <;> rfl

theorem path_marshal_eq (p : Path) : p.marshal = join (p.map escape) c!"/" := by
  cases p with
  | nil => simp [Path.marshal, Path.marshalLoop, join]
  | cons a p =>
    simp only [Path.marshal, Path.marshalLoop]
    induction p generalizing a with
    | nil => simp [Path.marshalLoop, join, String.marshal]
    | cons g fs ih =>
      have := ih g
      simp only [if_true, List.nil_append] at this
      simp only [Path.marshalLoop, List.map_cons, join, if_true, List.nil_append, Bool.false_eq_true, if_false,
        List.append_assoc, String.marshal] at this ⊢
      simp [this]

theorem path_unmarshalLoop (p q : Path) : Path.unmarshalLoop q (p.map escape) = .ok (q ++ p) := by
  induction p generalizing q with
  | nil => simp [Path.unmarshalLoop]
  | cons a p ih =>
    simp only [List.map_cons, Path.unmarshalLoop, String.unmarshal, unescape_escape]
    show Path.unmarshalLoop (q ++ [a]) _ = _
    rw [ih]; simp

/-- **C49 (partial).** Paths, if there is at least one element and no element contains a slash. Decoding adds to the old value. -/
theorem path_roundtrip_partial (p old : Path) (hne : p ≠ []) (h : ∀ a ∈ p, c!"/" ∉ a) :
    Path.unmarshal p.marshal old = .ok (old ++ p) := by
  rw [Path.unmarshal, path_marshal_eq, split_join (by simpa using hne), path_unmarshalLoop]
  intro x hx
  obtain ⟨a, ha, rfl⟩ := List.mem_map.mp hx
  intro hm
  rcases (mem_escape hm).2.2 with h1 | h1 | h1 | h1
  · exact h a ha h1
  · exact absurd h1 (by decide)
  · exact absurd h1 (by decide)
  · exact absurd h1 (by decide)

/-- Findings: the empty path comes back as a path of one empty element, and a slash in an element splits it. -/
theorem path_not_roundtrip :
    Path.unmarshal (Path.marshal []) [] = .ok [[]] ∧
    Path.unmarshal (Path.marshal [b!"a/b"]) [] = .ok [b!"a", b!"b"] := by decide +kernel

example : Path.unmarshal (Path.marshal [b!"Hub management", b!"Reload"]) [] = .ok [b!"Hub management", b!"Reload"] := by decide +kernel

example : ExtFeatures.unmarshal b!"SEGA,ADC0" [] = .ok [⟨b!"SEGA", rfl⟩, ⟨b!"ADC0", rfl⟩] := by decide +kernel

end Verif.Props.AdcText
