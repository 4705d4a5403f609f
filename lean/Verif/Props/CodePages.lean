import Verif.Go.Charmap
import Verif.Nmdc.SearchLemmas
import Verif.Props.NmdcText

/-! # NMDC with the code pages it is used with -/

namespace Verif.Props.CodePages

open Verif.Go Verif.Nmdc Verif.Spec

/-- A page with 128 different characters behind ASCII. -/
structure Proper (p : CodePage) : Prop where
  size : p.high.length = 128
  scalar : ∀ r ∈ p.high, IsScalar r ∧ 128 ≤ r
  differ : p.high.Nodup

theorem windows1252_proper : Proper windows1252 := ⟨by decide +kernel, by decide +kernel, by decide +kernel⟩

theorem windows1251_proper : Proper windows1251 := ⟨by decide +kernel, by decide +kernel, by decide +kernel⟩

/-- The two halves of a codec, as `Writer` and `Reader` get them. -/
def enc (p : CodePage) : Codec := some p.encode
def dec (p : CodePage) : Codec := some fun s => some (p.decode s)

section
variable {p : CodePage} (hp : Proper p)
include hp

theorem rune_high {b : Byte} (hb : 128 ≤ b.toNat) : ∃ h : b.toNat - 128 < p.high.length, p.rune b = p.high[b.toNat - 128] := by
  have hl : b.toNat - 128 < p.high.length := by
    have := hp.size
    have := b.toNat_lt
    omega
  refine ⟨hl, ?_⟩
  unfold CodePage.rune
  rw [if_neg (by omega), List.getD_eq_getElem?_getD, List.getElem?_eq_getElem hl]
  rfl

theorem rune_scalar (b : Byte) : IsScalar (p.rune b) ∧ (p.rune b < 128 ↔ b.toNat < 128) := by
  by_cases hb : b.toNat < 128
  · have : p.rune b = b.toNat := by simp [CodePage.rune, hb]
    rw [this]
    exact ⟨Or.inl (by omega), Iff.rfl⟩
  · obtain ⟨hl, h⟩ := rune_high hp (b := b) (by omega)
    have := hp.scalar _ (List.getElem_mem hl)
    rw [h]
    exact ⟨this.1, by omega⟩

theorem byte_rune (b : Byte) : p.byte (p.rune b) = some b := by
  unfold CodePage.byte
  by_cases hb : b.toNat < 128
  · have : p.rune b = b.toNat := by simp [CodePage.rune, hb]
    rw [this, if_pos hb]
    simp
  · obtain ⟨hl, h⟩ := rune_high hp (b := b) (by omega)
    have hge := (rune_scalar hp b).2
    rw [if_neg (by omega)]
    have hi : p.high.idxOf? (p.rune b) = some (b.toNat - 128) := by
      rw [List.idxOf?_eq_some_iff]
      refine ⟨hl, h.symm, ?_⟩
      intro j hj
      rw [h]
      exact List.pairwise_iff_getElem.1 hp.differ j _ (by omega) hl hj
    rw [hi]
    simp only [Option.map_some, Option.some.injEq]
    have : b.toNat - 128 + 128 = b.toNat := by omega
    rw [this]
    simp

theorem rune_byte {r : Nat} {b : Byte} (h : p.byte r = some b) : p.rune b = r := by
  unfold CodePage.byte at h
  split at h
  · rename_i hr
    injection h with h
    rw [← h, CodePage.rune]
    have : (UInt8.ofNat r).toNat = r := by simp; omega
    rw [this, if_pos hr]
  · rename_i hr
    rw [Option.map_eq_some_iff] at h
    obtain ⟨i, hi, rfl⟩ := h
    rw [List.idxOf?_eq_some_iff] at hi
    obtain ⟨hl, hir, _⟩ := hi
    have hs := hp.size
    have : (UInt8.ofNat (i + 128)).toNat = i + 128 := by simp; omega
    unfold CodePage.rune
    rw [this, if_neg (by omega)]
    simp only [Nat.add_sub_cancel]
    rw [List.getD_eq_getElem?_getD, List.getElem?_eq_getElem hl]
    exact hir

theorem bytes_iff : ∀ (os : List (Option Nat)) (e : Bytes), p.bytes os = some e ↔ os = (e.map p.rune).map some
  | [], e => by
    cases e <;> simp [CodePage.bytes]
  | none :: os, e => by
    cases e <;> simp [CodePage.bytes]
  | some r :: os, e => by
    rw [CodePage.bytes]
    cases e with
    | nil => cases p.byte r <;> simp
    | cons b e =>
      have ih := bytes_iff os e
      simp only [List.map_cons, List.cons.injEq, Option.some.injEq, ← ih]
      cases hb : p.byte r with
      | none =>
        simp only [reduceCtorEq, false_iff, not_and]
        intro h
        rw [h, byte_rune hp] at hb
        cases hb
      | some b' =>
        have hr := rune_byte hp hb
        simp only [Option.map_eq_some_iff, List.cons.injEq]
        constructor
        · rintro ⟨e', he', rfl, rfl⟩
          exact ⟨hr.symm, he'⟩
        · rintro ⟨h1, h2⟩
          have : some b' = some b := by rw [← hb, h1, byte_rune hp]
          exact ⟨e, h2, Option.some.inj this, rfl⟩

omit hp in
theorem decode_eq (e : Bytes) : p.decode e = (e.map p.rune).flatMap utf8 := by
  unfold CodePage.decode
  rw [List.flatMap_map]

/-- **Encoding and decoding.**  A text is encoded to exactly those bytes that are decoded to it, and to none if there are none: every byte string is
decoded, no two to the same text. -/
theorem encode_iff (s e : Bytes) : p.encode s = some e ↔ p.decode e = s := by
  have hsc : ∀ r ∈ e.map p.rune, IsScalar r := by
    intro r hr
    obtain ⟨b, _, rfl⟩ := List.mem_map.1 hr
    exact (rune_scalar hp b).1
  unfold CodePage.encode
  rw [bytes_iff hp, decode_eq]
  constructor
  · intro h
    have hv : validUtf8 s = true := by
      unfold validUtf8; rw [h]; simp
    obtain ⟨rs, hrs, rfl⟩ := validUtf8_iff.1 hv
    have h2 := runes_flatMap hrs []
    rw [List.append_nil] at h2
    rw [h2] at h
    have h3 : rs = e.map p.rune := by
      have : (rs.map some ++ runes []) = rs.map some := by simp [runes, runesFrom]
      rw [this] at h
      exact List.map_inj_right (fun _ _ h => Option.some.inj h) |>.1 h
    rw [h3]
  · rintro rfl
    have h2 := runes_flatMap hsc []
    rw [List.append_nil] at h2
    rw [h2]
    simp [runes, runesFrom]

/-- Which texts can be encoded: those of characters of the page. -/
theorem encodable_iff (s : Bytes) : (∃ e, p.encode s = some e) ↔ ∃ rs : List Nat, s = rs.flatMap utf8 ∧ ∀ r ∈ rs, r < 128 ∨ r ∈ p.high := by
  constructor
  · rintro ⟨e, he⟩
    rw [encode_iff hp, decode_eq] at he
    refine ⟨e.map p.rune, he.symm, fun r hr => ?_⟩
    obtain ⟨b, _, rfl⟩ := List.mem_map.1 hr
    by_cases hb : b.toNat < 128
    · exact Or.inl ((rune_scalar hp b).2.2 hb)
    · obtain ⟨hl, h⟩ := rune_high hp (b := b) (by omega)
      rw [h]; exact Or.inr (List.getElem_mem hl)
  · rintro ⟨rs, rfl, hrs⟩
    have : ∃ e : Bytes, e.map p.rune = rs := by
      induction rs with
      | nil => exact ⟨[], rfl⟩
      | cons r rs ih =>
        obtain ⟨e, he⟩ := ih (fun x hx => hrs x (by simp [hx]))
        have hb : ∃ b, p.rune b = r := by
          rcases hrs r (by simp) with h | h
          · refine ⟨UInt8.ofNat r, rune_byte hp ?_⟩
            rw [CodePage.byte, if_pos h]
          · obtain ⟨i, hi, rfl⟩ := List.getElem_of_mem h
            have hs := hp.size
            have e1 : (UInt8.ofNat (i + 128)).toNat = i + 128 := by simp; omega
            refine ⟨UInt8.ofNat (i + 128), ?_⟩
            unfold CodePage.rune
            rw [e1, if_neg (by omega), Nat.add_sub_cancel, List.getD_eq_getElem?_getD, List.getElem?_eq_getElem hi]
            rfl
        obtain ⟨b, hb⟩ := hb
        exact ⟨b :: e, by rw [List.map_cons, hb, he]⟩
    obtain ⟨e, rfl⟩ := this
    exact ⟨e, by rw [encode_iff hp, decode_eq]⟩

/-- What the round trips of NMDC messages ask of a text encoding. -/
theorem page_lossless : Lossless (enc p) (dec p) := by
  intro s e h
  unfold enc Codec.run at h
  cases he : p.encode s with
  | none => simp only [he] at h; cases h
  | some e' =>
    simp only [he] at h
    injection h with h
    subst h
    have := (encode_iff hp s e').1 he
    simp only [dec, Codec.run, this]

omit hp in
theorem utf8_high {r : Nat} (h : 128 ≤ r) (hs : IsScalar r) : ∀ b ∈ utf8 r, 128 ≤ b.toNat := by
  have hlt : r < 0x110000 := by rcases hs with h | h <;> omega
  unfold utf8
  rw [if_neg (by omega)]
  split
  · intro b hb
    simp only [List.mem_cons, List.not_mem_nil, or_false] at hb
    rcases hb with rfl | rfl <;> rw [toNat_ofNat_lt (by omega)] <;> omega
  · split
    · intro b hb
      simp only [List.mem_cons, List.not_mem_nil, or_false] at hb
      rcases hb with rfl | rfl | rfl <;> rw [toNat_ofNat_lt (by omega)] <;> omega
    · intro b hb
      simp only [List.mem_cons, List.not_mem_nil, or_false] at hb
      rcases hb with rfl | rfl | rfl | rfl <;> rw [toNat_ofNat_lt (by omega)] <;> omega

omit hp in
/-- ASCII is itself. -/
theorem ascii_rune {b : Byte} (hb : b.toNat < 128) : utf8 (p.rune b) = [b] := by
  have : p.rune b = b.toNat := by simp [CodePage.rune, hb]
  rw [this, utf8, if_pos hb]
  simp

theorem high_rune {b : Byte} (hb : ¬ b.toNat < 128) : ∀ c ∈ utf8 (p.rune b), 128 ≤ c.toNat := by
  have := rune_scalar hp b
  exact utf8_high (by omega) this.1

omit hp in
theorem decode_cons (b : Byte) (e : Bytes) : p.decode (b :: e) = utf8 (p.rune b) ++ p.decode e := by
  simp [CodePage.decode]

omit hp in
theorem decode_append (a b : Bytes) : p.decode (a ++ b) = p.decode a ++ p.decode b := by
  simp [CodePage.decode]

omit hp in
theorem decode_ascii : ∀ {w : Bytes}, (∀ c ∈ w, c.toNat < 128) → p.decode w = w
  | [], _ => rfl
  | c :: w, h => by
    rw [decode_cons, ascii_rune (h c (by simp)), decode_ascii (fun x hx => h x (by simp [hx]))]
    rfl

/-- The search of spaces and dollars in a pattern does not care about the page. -/
theorem page_swap : AsciiSwap (enc p) (dec p) := by
  intro s e h
  have hs := page_lossless hp s e h
  simp only [dec, Codec.run, Res.ok.injEq] at hs ⊢
  rw [← hs]
  unfold replaceByte
  clear hs h
  induction e with
  | nil => rfl
  | cons b e ih =>
    rw [List.map_cons, decode_cons, decode_cons, List.map_append, ih]
    congr 1
    by_cases hb : b.toNat < 128
    · rw [ascii_rune hb]
      split
      · rename_i h; subst h; rfl
      · rename_i h
        rw [ascii_rune hb]; simp [h]
    · have hne : b ≠ c!" " := by rintro rfl; exact hb (by decide)
      rw [if_neg hne]
      have hh := high_rune hp hb
      conv => lhs; rw [← List.map_id (utf8 (p.rune b))]
      apply List.map_congr_left
      intro c hc
      have : c ≠ c!" " := by
        rintro rfl
        exact absurd (hh _ hc) (by decide)
      simp [this]

/-- An ASCII character of a decoded text is one of the bytes. -/
theorem split_ascii {c : Byte} (hc : c.toNat < 128) : ∀ (e a b : Bytes), p.decode e = a ++ c :: b →
    ∃ a' b', e = a' ++ c :: b' ∧ p.decode a' = a ∧ p.decode b' = b
  | [], a, b, h => by simp [CodePage.decode] at h
  | x :: e, a, b, h => by
    rw [decode_cons] at h
    by_cases hx : x.toNat < 128
    · rw [ascii_rune hx] at h
      cases a with
      | nil =>
        injection h with h1 h2
        subst h1
        exact ⟨[], e, rfl, rfl, h2⟩
      | cons y a =>
        injection h with h1 h2
        obtain ⟨a', b', rfl, h3, h4⟩ := split_ascii hc e a b h2
        refine ⟨x :: a', b', rfl, ?_, h4⟩
        rw [decode_cons, ascii_rune hx, h3, h1]; rfl
    · have hh := high_rune hp hx
      rcases List.append_eq_append_iff.1 h with ⟨a2, h1, h2⟩ | ⟨a2, h1, h2⟩
      · obtain ⟨a', b', rfl, h3, h4⟩ := split_ascii hc e a2 b h2
        exact ⟨x :: a', b', rfl, by rw [decode_cons, h3, h1], h4⟩
      · cases a2 with
        | nil =>
          obtain ⟨a', b', rfl, h3, h4⟩ := split_ascii hc e [] b h2.symm
          refine ⟨x :: a', b', rfl, ?_, h4⟩
          rw [decode_cons, h3, h1]; simp
        | cons y a2 =>
          injection h2 with h2 _
          subst h2
          exact absurd (hh c (by rw [h1]; simp)) (by omega)

omit hp in
theorem decode_nil {e : Bytes} (h : p.decode e = []) : e = [] := by
  cases e with
  | nil => rfl
  | cons b e =>
    rw [decode_cons] at h
    have := (List.append_eq_nil_iff.1 h).1
    exact absurd this (utf8_ne_nil _)

theorem prefix_ascii : ∀ {w : Bytes}, (∀ c ∈ w, c.toNat < 128) → ∀ (e b : Bytes), p.decode e = w ++ b → ∃ b', e = w ++ b' ∧ p.decode b' = b
  | [], _, e, b, h => ⟨e, rfl, h⟩
  | c :: w, hw, e, b, h => by
    obtain ⟨a', b', rfl, h1, h2⟩ := split_ascii hp (hw c (by simp)) e [] (w ++ b) h
    have := decode_nil h1
    subst this
    obtain ⟨b2, rfl, h3⟩ := prefix_ascii (fun x hx => hw x (by simp [hx])) b' b h2
    exact ⟨b2, rfl, h3⟩

theorem mem_ascii {c : Byte} (hc : c.toNat < 128) (e : Bytes) : c ∈ p.decode e ↔ c ∈ e := by
  constructor
  · intro h
    obtain ⟨a, b, hab⟩ := List.append_of_mem h
    obtain ⟨a', b', rfl, _, _⟩ := split_ascii hp hc e a b hab
    simp
  · intro h
    obtain ⟨a, b, rfl⟩ := List.append_of_mem h
    rw [decode_append, decode_cons, ascii_rune hc]
    simp

/-- Legacy sequences are in the text exactly if they are in its bytes. -/
theorem legacy_iff (e : Bytes) : HasLegacy (p.decode e) ↔ HasLegacy e := by
  have htab : ∀ t ∈ legacyTable, (∀ c ∈ t.1, c.toNat < 128) ∧ t.1 ≠ [] := by decide +kernel
  constructor
  · rintro ⟨t, ht, a, b, h⟩
    obtain ⟨h1, h2⟩ := htab t ht
    obtain ⟨c, w, hcw⟩ := List.exists_cons_of_ne_nil h2
    rw [hcw] at h1
    rw [hcw, List.append_assoc, List.cons_append] at h
    obtain ⟨a', b', rfl, h3, h4⟩ := split_ascii hp (h1 c (by simp)) e a (w ++ b) h
    obtain ⟨b2, rfl, h5⟩ := prefix_ascii hp (fun x hx => h1 x (by simp [hx])) b' b h4
    exact ⟨t, ht, a', b2, by rw [hcw]; simp⟩
  · rintro ⟨t, ht, a, b, rfl⟩
    exact ⟨t, ht, p.decode a, p.decode b, by rw [decode_append, decode_append, decode_ascii (htab t ht).1]⟩

theorem run_enc (s e : Bytes) : (enc p).run s = .ok e ↔ p.decode e = s := by
  rw [← encode_iff hp]
  show (match p.encode s with | some t => Res.ok t | none => Res.err (Err.other 10)) = Res.ok e ↔ _
  split <;> simp_all

/-- **Texts.**  Every text of characters of the page, without NUL and without a legacy sequence, is sent and comes back. -/
theorem text_page [HtmlEntities] {rs : List Nat} (hrs : ∀ r ∈ rs, r < 128 ∨ r ∈ p.high) (h0 : (0 : Byte) ∉ rs.flatMap utf8)
    (hl : ¬ HasLegacy (rs.flatMap utf8)) :
    ∃ w, Str.marshal (enc p) (rs.flatMap utf8) = .ok w ∧ Str.unmarshal (dec p) w = .ok (rs.flatMap utf8) := by
  obtain ⟨e, he⟩ := (encodable_iff hp _).2 ⟨rs, rfl, hrs⟩
  have hd := (encode_iff hp _ e).1 he
  have hm : Str.marshal (enc p) (rs.flatMap utf8) = .ok (escWith escapeCharString e) := by
    rw [str_marshal_ok]
    refine ⟨e, (run_enc hp _ e).2 hd, ?_, rfl⟩
    rw [← hd, mem_ascii hp (by decide)] at h0
    exact h0
  refine ⟨_, hm, ?_⟩
  have hu : IsUtf8 (rs.flatMap utf8) := by
    rw [← hd, decode_eq]
    refine ⟨_, ?_, rfl⟩
    intro r hr
    obtain ⟨b, _, rfl⟩ := List.mem_map.1 hr
    exact (rune_scalar hp b).1
  refine NmdcText.text_roundtrip (page_lossless hp) hu ?_ hm
  intro e' h'
  rw [run_enc hp] at h'
  rw [← h', legacy_iff hp] at hl
  exact hl

/-- A name that is sent and fits comes back, if it has no legacy sequence. -/
theorem name_page [HtmlEntities] {s w : Bytes} (hl : ¬ HasLegacy s) (h : Name.marshal (enc p) s = .ok w) (hw : w.length ≤ 256) :
    Name.unmarshal (dec p) w = .ok s := by
  obtain ⟨_, e, he, _, _⟩ := name_marshal_ok.1 h
  have hd := (run_enc hp s e).1 he
  have hu : IsUtf8 s := by
    rw [← hd, decode_eq]
    refine ⟨_, ?_, rfl⟩
    intro r hr
    obtain ⟨b, _, rfl⟩ := List.mem_map.1 hr
    exact (rune_scalar hp b).1
  refine NmdcText.name_roundtrip (page_lossless hp) hu ?_ h hw
  intro e' h'
  rw [run_enc hp] at h'
  rw [← h', legacy_iff hp] at hl
  exact hl

/-- **Passing on.**  Bytes without NUL, without `&`, `$` and `|` and without a legacy sequence are received as a text, whatever they are, and this text is
sent as the same bytes. -/
theorem passed_on [HtmlEntities] {e : Bytes} (h : ∀ b ∈ e, b ∉ b!"\x00&$|") (hl : ¬ HasLegacy e) :
    Str.unmarshal (dec p) e = .ok (p.decode e) ∧ Str.marshal (enc p) (p.decode e) = .ok e := by
  have h0 : (0 : Byte) ∉ e := fun hx => h 0 hx (by decide)
  have hesc : escWith escapeCharString e = e := by
    clear hl h0
    induction e with
    | nil => rfl
    | cons b e ih =>
      have hb := h b (by simp)
      rw [escWith_cons, ih (fun x hx => h x (by simp [hx]))]
      simp only [List.mem_cons, List.not_mem_nil, or_false, not_or] at hb
      have : escapeCharString b = none := by
        unfold escapeCharString
        rw [if_neg hb.2.1, if_neg hb.2.2.1]; exact if_neg hb.2.2.2
      rw [this]; rfl
  have hm : Str.marshal (enc p) (p.decode e) = .ok e := by
    rw [str_marshal_ok]
    exact ⟨e, (run_enc hp _ e).2 rfl, h0, hesc.symm⟩
  refine ⟨?_, hm⟩
  refine NmdcText.text_roundtrip (page_lossless hp) ?_ ?_ hm
  · rw [decode_eq]
    refine ⟨_, ?_, rfl⟩
    intro r hr
    obtain ⟨b, _, rfl⟩ := List.mem_map.1 hr
    exact (rune_scalar hp b).1
  · intro e' h'
    rw [run_enc hp] at h'
    have : e' = e := by
      have h1 := (encode_iff hp (p.decode e) e').2 h'
      have h2 := (encode_iff hp (p.decode e) e).2 rfl
      rw [h1] at h2; exact Option.some.inj h2
    rw [this]; exact hl

end

/-! ## Cases -/

/-- `Привет`, in Windows-1251. -/
example : windows1251.encode b!"Привет" = some [0xCF, 0xF0, 0xE8, 0xE2, 0xE5, 0xF2] ∧ windows1252.encode b!"Привет" = none := by decide +kernel

/-- The hypotheses of `text_page` are met by `Привет $|&`. -/
example : b!"Привет $|&" = [1055, 1088, 1080, 1074, 1077, 1090, 32, 36, 124, 38].flatMap utf8 ∧
    (∀ r ∈ [1055, 1088, 1080, 1074, 1077, 1090, 32, 36, 124, 38], r < 128 ∨ r ∈ windows1251.high) ∧ (0 : Byte) ∉ b!"Привет $|&" := by
  decide +kernel

/-- The hypotheses of `passed_on` are met by bytes that are not UTF-8. -/
example : ∀ b ∈ ([0xFF, 0x80, 0x41] : Bytes), b ∉ b!"\x00&$|" := by decide

/-- The hypotheses of `name_page` are met by `Иван<1>`. -/
example : Name.marshal (enc windows1251) b!"Иван<1>" = .ok (([0xC8, 0xE2, 0xE0, 0xED] : Bytes) ++ b!"&lt;1&gt;") := by decide +kernel

section
variable [HtmlEntities]

/-- **Finding.**  The escapes of a received text are replaced before the text is decoded: with a code page, a character reference that is not ASCII
becomes UTF-8 first, and its bytes are then taken for characters of the page. -/
theorem reference_garbled : Str.unmarshal none b!"&#233;" = .ok b!"é" ∧ Str.unmarshal (dec windows1252) b!"&#233;" = .ok b!"Ã©" := by
  constructor <;> rfl

end

/-- **Finding.**  The limit for names is checked on UTF-8 when a name is sent, and on the bytes of the page when it is received: a name of 129 Cyrillic letters
is received, and cannot be sent. -/
theorem name_not_sent [HtmlEntities] : Name.unmarshal (dec windows1251) (List.replicate 129 0xFF) = .ok (windows1251.decode (List.replicate 129 0xFF)) ∧
    ∀ w, Name.marshal (enc windows1251) (windows1251.decode (List.replicate 129 0xFF)) ≠ .ok w := by
  constructor
  · have hu : unescapeBytes (List.replicate 129 (0xFF : Byte)) = List.replicate 129 0xFF := by
      unfold unescapeBytes
      have h1 : (indexByte (List.replicate 129 (0xFF : Byte)) c!"&").isSome = false := by decide +kernel
      have h2 : contains (List.replicate 129 (0xFF : Byte)) b!"/%DCN" = false := by decide +kernel
      simp only [h1, h2]
      rfl
    unfold Name.unmarshal
    rw [if_neg (by decide +kernel), if_neg (by decide +kernel), hu]
    have hv : validUtf8 (windows1251.decode (List.replicate 129 0xFF)) = true := by decide +kernel
    show (if validUtf8 (windows1251.decode (List.replicate 129 0xFF)) = true then
      Res.ok (windows1251.decode (List.replicate 129 0xFF)) else .err (.unknownEncoding (windows1251.decode (List.replicate 129 0xFF)))) = _
    rw [if_pos hv]
  · intro w h
    have := (name_marshal_ok.1 h).1
    exact absurd this (by decide +kernel)

end Verif.Props.CodePages
