import Verif.Nmdc.Types

/-!
# NMDC text and names (C14, C15, C31)
-/

namespace Verif.Props.NmdcText

open Verif.Go Verif.Spec Verif.Nmdc

attribute [local instance] basicEntities

/-- A well-formed text comes back unchanged, with any lossless text encoding. -/
theorem text_roundtrip [HtmlEntities] {enc dec : Codec} (hl : Lossless enc dec) {s w : Bytes} (hu : IsUtf8 s)
    (hleg : ∀ e, enc.run s = .ok e → ¬ HasLegacy e) (h : Str.marshal enc s = .ok w) :
    Str.unmarshal dec w = .ok s :=
  str_roundtrip hl ⟨hu, hleg⟩ h

example : ∃ w, Str.marshal none b!"a & b | $5 <c>" = .ok w ∧ Str.unmarshal none w = .ok b!"a & b | $5 <c>" :=
  ⟨_, rfl, text_roundtrip lossless_nil (validUtf8_iff.mp (by decide +kernel))
    (by intro e he; cases he; rintro ⟨x, hx, a, b, hab⟩
        have hm : ∀ x ∈ legacyTable, c!"%" ∈ x.1 := by decide
        exact absurd (hab ▸ (by simp [hm x hx]) : c!"%" ∈ b!"a & b | $5 <c>") (by decide)) rfl⟩

/-- Every text without NUL is accepted, and only those. -/
theorem text_accepted {s : Bytes} : (∃ w, Str.marshal none s = .ok w) ↔ (0 : Byte) ∉ s := by
  simp [str_marshal_ok, Codec.run]

example : ∃ w, Str.marshal none b!"$|&" = .ok w := text_accepted.mpr (by decide)

/-- The encoded text holds no `$`, `|` or NUL, and every `&` in it begins an escape. -/
theorem text_clean {enc : Codec} {s w : Bytes} (h : Str.marshal enc s = .ok w) :
    c!"$" ∉ w ∧ c!"|" ∉ w ∧ (0 : Byte) ∉ w ∧
      ∀ a b, w = a ++ c!"&" :: b → b!"amp;" <+: b ∨ b!"#36;" <+: b ∨ b!"#124;" <+: b := by
  have hc := str_marshal_clean h
  refine ⟨fun h' => (hc _ h').1 rfl, fun h' => (hc _ h').2.1 rfl, fun h' => (hc _ h').2.2 rfl, ?_⟩
  obtain ⟨e, -, -, rfl⟩ := str_marshal_ok.mp h
  clear h hc
  induction e with
  | nil => intro a b h; simp at h
  | cons x e ih =>
    intro a b hab
    rw [escWith_cons] at hab
    have hv : ∀ v : Bytes, c!"&" ∉ v → ∀ a : Bytes, v ++ escWith escapeCharString e = a ++ c!"&" :: b →
        b!"amp;" <+: b ∨ b!"#36;" <+: b ∨ b!"#124;" <+: b := by
      intro v hv a h
      rcases List.append_eq_append_iff.mp h with ⟨c, h1, h2⟩ | ⟨c, h1, h2⟩
      · exact ih c b h2
      · cases c with
        | nil => exact ih [] b (by simpa using h2.symm)
        | cons y c =>
          simp only [List.cons_append, List.cons.injEq] at h2
          exact absurd (by rw [h1, ← h2.1]; simp) hv
    cases ht : escapeCharString x with
    | none =>
      rw [ht, Option.getD_none] at hab
      have hx : x ≠ c!"&" := by rintro rfl; simp [escapeCharString] at ht
      exact hv [x] (by simpa using Ne.symm hx) a hab
    | some v =>
      rw [ht, Option.getD_some] at hab
      unfold escapeCharString at ht
      have key : ∀ u : Bytes, v = c!"&" :: u → c!"&" ∉ u → (u = b!"amp;" ∨ u = b!"#36;" ∨ u = b!"#124;") →
          b!"amp;" <+: b ∨ b!"#36;" <+: b ∨ b!"#124;" <+: b := by
        rintro u rfl hu hcase
        cases a with
        | nil =>
          simp only [List.cons_append, List.nil_append, List.cons.injEq, true_and] at hab
          rw [← hab]
          rcases hcase with rfl | rfl | rfl
          · exact .inl (List.prefix_append _ _)
          · exact .inr (.inl (List.prefix_append _ _))
          · exact .inr (.inr (List.prefix_append _ _))
        | cons y a =>
          simp only [List.cons_append, List.cons.injEq] at hab
          exact hv u hu a hab.2
      repeat' split at ht
      all_goals simp at ht
      · exact key b!"amp;" ht.symm (by decide) (.inl rfl)
      · exact key b!"#36;" ht.symm (by decide) (.inr (.inl rfl))
      · exact key b!"#124;" ht.symm (by decide) (.inr (.inr rfl))

example : Str.marshal none b!"text $&|" = .ok b!"text &#36;&amp;&#124;" := rfl

/-- A legacy sequence in a text is not preserved. -/
theorem text_legacy_lost :
    Str.marshal none b!"/%DCN036%/" = .ok b!"/%DCN036%/" ∧ Str.unmarshal none b!"/%DCN036%/" = .ok b!"$" := by
  decide +kernel

/-- A well-formed name whose encoded form fits comes back unchanged. -/
theorem name_roundtrip [HtmlEntities] {enc dec : Codec} (hl : Lossless enc dec) {s w : Bytes} (hu : IsUtf8 s)
    (hleg : ∀ e, enc.run s = .ok e → ¬ HasLegacy e) (h : Name.marshal enc s = .ok w) (hw : w.length ≤ 256) :
    Name.unmarshal dec w = .ok s :=
  Nmdc.name_roundtrip hl ⟨⟨hu, hleg⟩, fun w' h' => by rw [h] at h'; cases h'; exact hw⟩ h

example : ∃ w, Name.marshal none b!"<[op] a&b|c>" = .ok w ∧ Name.unmarshal none w = .ok b!"<[op] a&b|c>" :=
  ⟨_, rfl, name_roundtrip lossless_nil (validUtf8_iff.mp (by decide +kernel))
    (by intro e he; cases he; rintro ⟨x, hx, a, b, hab⟩
        have hm : ∀ x ∈ legacyTable, c!"%" ∈ x.1 := by decide
        exact absurd (hab ▸ (by simp [hm x hx]) : c!"%" ∈ b!"<[op] a&b|c>") (by decide)) rfl (by decide +kernel)⟩

/-- The encoded name holds no separator. -/
theorem name_clean {enc : Codec} {s w : Bytes} (h : Name.marshal enc s = .ok w) :
    ∀ b ∈ w, b ∉ (b!"$|<>\x00\r\n\t" : Bytes) := by
  intro b hb
  have := name_marshal_clean h b hb
  simp [delim] at this ⊢
  simp [this]

example : Name.marshal none b!"a<b>|" = .ok b!"a&lt;b&gt;&#124;" := by decide

/-- The forbidden characters of a name. -/
def forbidden : Bytes := b!"$\x00\r\n\t"

/-- The encoder refuses long names and names whose encoded text holds a forbidden character. -/
theorem name_encoder_refuses {enc : Codec} {s : Bytes}
    (h : s.length > 256 ∨ ∃ e, enc.run s = .ok e ∧ ∃ b ∈ e, b ∈ forbidden) : ∀ w, Name.marshal enc s ≠ .ok w := by
  intro w hw
  obtain ⟨h1, e, he, h0, -⟩ := name_marshal_ok.mp hw
  rcases h with h | ⟨e', he', b, hb, hf⟩
  · unfold maxName at h1; omega
  · rw [he] at he'; cases he'
    have := h0 b hb
    simp [forbidden] at hf
    rcases hf with rfl | rfl | rfl | rfl | rfl <;> exact absurd this (by decide)

example : ∀ w, Name.marshal none b!"a\nb" ≠ .ok w :=
  name_encoder_refuses (.inr ⟨_, rfl, c!"\n", by decide, by decide⟩)

/-- The decoder refuses long names and names that hold a forbidden character. -/
theorem name_decoder_refuses [HtmlEntities] {dec : Codec} {d : Bytes}
    (h : d.length > 256 ∨ ∃ b ∈ d, b ∈ forbidden) : ∀ s, Name.unmarshal dec d ≠ .ok s := by
  intro s hs
  unfold Name.unmarshal maxName at hs
  split at hs
  · simp at hs
  · rename_i hl
    rcases h with h | ⟨b, hb, hf⟩
    · exact hl h
    · have : d.any invalidCharName = true := by
        rw [List.any_eq_true]
        refine ⟨b, hb, ?_⟩
        simp [forbidden] at hf
        rcases hf with rfl | rfl | rfl | rfl | rfl <;> decide
      simp [this] at hs

example : ∀ s, Name.unmarshal none b!"a$b" ≠ .ok s := name_decoder_refuses (.inr ⟨c!"$", by decide, by decide⟩)

/-- The two length limits disagree: some name is accepted by the encoder, and its encoded form refused by the decoder. -/
theorem name_limit_asymmetric : ∃ s w, Name.marshal none s = .ok w ∧ Name.unmarshal none w = .err (.other 13) :=
  ⟨List.replicate 256 c!"&", (List.replicate 256 b!"&amp;").flatten, by decide +kernel, by decide +kernel⟩

/-- Escapes bring forbidden characters back: a decoded name may hold a `$`, a NUL or a newline. -/
theorem decoded_name_may_be_forbidden :
    Name.unmarshal none b!"a&#36;/%DCN000%/&#10;" = .ok b!"a$\x00\n" ∧ ∀ w, Name.marshal none b!"a$\x00\n" ≠ .ok w :=
  ⟨by decide +kernel, name_encoder_refuses (.inr ⟨_, rfl, c!"$", by decide, by decide⟩)⟩

/-- A decoded text is well-formed UTF-8. -/
theorem text_utf8 [HtmlEntities] {dec : Codec} {d s : Bytes} (h : Str.unmarshal dec d = .ok s) : IsUtf8 s := by
  unfold Str.unmarshal at h
  split at h
  · simp at h
  · obtain ⟨a, -, h2⟩ := Res.bind_eq_ok.mp h
    split at h2
    · rename_i hv; simp at h2; subst h2; exact validUtf8_iff.mp hv
    · simp at h2

/-- A decoded name is well-formed UTF-8. -/
theorem name_utf8 [HtmlEntities] {dec : Codec} {d s : Bytes} (h : Name.unmarshal dec d = .ok s) : IsUtf8 s := by
  unfold Name.unmarshal at h
  split at h
  · simp at h
  · split at h
    · simp at h
    · obtain ⟨a, -, h2⟩ := Res.bind_eq_ok.mp h
      split at h2
      · rename_i hv; simp at h2; subst h2; exact validUtf8_iff.mp hv
      · simp at h2

/-- Text that is not well-formed after decoding is reported, with the offending bytes. -/
theorem text_unknown_encoding [HtmlEntities] {dec : Codec} {d t : Bytes} (h0 : (0 : Byte) ∉ d)
    (hd : dec.run (unescapeBytes d) = .ok t) (ht : ¬ IsUtf8 t) : Str.unmarshal dec d = .err (.unknownEncoding t) := by
  unfold Str.unmarshal
  rw [indexByte_none.mpr h0, hd]
  have : validUtf8 t = false := by
    cases h : validUtf8 t with
    | false => rfl
    | true => exact absurd (validUtf8_iff.mp h) ht
  simp [this]

example : Str.unmarshal none [0x61, 0xE9] = .err (.unknownEncoding [0x61, 0xE9]) :=
  text_unknown_encoding (by decide) rfl (by rw [← validUtf8_iff]; decide +kernel)

example : Str.unmarshal none [0xC3, 0xA9] = .ok [0xC3, 0xA9] ∧ IsUtf8 [0xC3, 0xA9] :=
  ⟨by decide +kernel, text_utf8 (dec := none) (d := [0xC3, 0xA9]) (by decide +kernel)⟩

end Verif.Props.NmdcText
