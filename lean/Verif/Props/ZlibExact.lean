import Verif.Lineproto.ZlibSays
import Verif.Props.ZlibCut
import Verif.Props.ZlibFormat

/-!
# A section is accepted exactly if it has the format of zlib (C122)

`Go/DeflateSpec` says what the format is: `StreamSays` for the blocks, as RFC 1951 has it, with everything a compressor may choose.
-/

namespace Verif.Props.ZlibExact

open Verif.Lineproto Verif.Go.Inflate Verif.Go.Deflate Verif.Props.ZlibRefuse Verif.Props.ZlibCut Verif.Props.LineReaderCut

/-- RFC 1950: two bytes of header, the blocks, any bits that fill the last byte, and the checksum of the data. -/
def Format (stream out : Bytes) : Prop :=
  ∃ (h1 h2 : Byte) (bits pad : List Bool),
    (h1.toNat % 16 = 8 ∧ h1.toNat / 16 ≤ 7 ∧ h2.toNat / 32 % 2 = 0 ∧ (256 * h1.toNat + h2.toNat) % 31 = 0) ∧
    StreamSays 0 [] bits out.reverse ∧ pad.length = (8 - bits.length % 8) % 8 ∧
    stream = h1 :: h2 :: (packBytes (bits ++ pad) ++ sumBytes (adler32 out))

/-- What has the format is read. -/
theorem format_read {bits pad : List Bool} {out : Bytes} (hs : StreamSays 0 [] bits out.reverse) (hp : pad.length = (8 - bits.length % 8) % 8) :
    inflate zlibInflater St.start (packBytes (bits ++ pad) ++ sumBytes (adler32 out)) = some out := by
  have hlen : (bits ++ pad).length % 8 = 0 := by rw [List.length_append, hp]; omega
  apply full_of_run hlen
  rw [bits_append, start_eq, run_stream hs _ rfl rfl,
    toSum_bits (((adv (⟨0, false, [], .done⟩ : St) bits.length).withFinal true).withHist out.reverse) pad (by
      show pad.length = (8 - (0 + bits.length) % 8) % 8
      rw [Nat.zero_add]; exact hp), List.length_append]
  simp [adv, St.to, St.withFinal, St.withHist]

/-- What comes to its end begins with something that has the format. -/
theorem done_begins {body : Bytes} (h : (St.start.bits (dataBits body)).mode = .done) :
    ∃ bits pad out rest, StreamSays 0 [] bits out.reverse ∧ pad.length = (8 - bits.length % 8) % 8 ∧
      body = packBytes (bits ++ pad) ++ sumBytes (adler32 out) ++ rest := by
  obtain ⟨bits, h', b1, h1, h2, h3⟩ := parse_stream h _ _ (⟨0, false, [], .done⟩ : St) (Nat.le_refl _) rfl
  obtain ⟨pad, b2, h4, h5⟩ := parse_sum h h3
  have hp : pad.length = (8 - bits.length % 8) % 8 := by
    rw [h4]
    show (8 - (0 + bits.length) % 8) % 8 = _
    rw [Nat.zero_add]
  have hsum : (((adv (⟨0, false, [], .done⟩ : St) bits.length).withFinal true).withHist h').hist = h' := rfl
  rw [hsum] at h5
  refine ⟨bits, pad, h'.reverse, packBytes b2, by rw [List.reverse_reverse]; exact h1, hp, ?_⟩
  have hlen : (bits ++ pad).length % 8 = 0 := by rw [List.length_append, hp]; omega
  rw [h5] at h2
  have e : dataBits body = dataBits (packBytes (bits ++ pad) ++ sumBytes (adler32 h'.reverse)) ++ b2 := by
    rw [h2, dataBits_append, pack_full hlen]; simp
  have e2 := congrArg packBytes e
  rw [pack_data, packBytes_append, pack_data] at e2
  have e3 : packRest (dataBits (packBytes (bits ++ pad) ++ sumBytes (adler32 h'.reverse))) = [] := by
    apply List.length_eq_zero_iff.mp
    rw [packRest_length, dataBits_length]
    omega
  rw [e3, List.nil_append] at e2
  exact e2

/-- **C122.** A section is accepted and decompresses to `out` if and only if it has the format and says `out`. -/
theorem accepted_iff (stream out : Bytes) : IsStream zlibInflater stream out ↔ Format stream out := by
  constructor
  · rintro ⟨h1, h2, z, body, rfl, hz, hi⟩
    have hz' : zlibHeader h1 h2 = .ok z := hz
    have hst : z = St.start := by
      unfold zlibHeader at hz'
      split at hz'
      · cases hz'
      · split at hz'
        · cases hz'
        · cases hz'; rfl
    subst hst
    obtain ⟨bits, pad, o, rest, e1, e2, rfl⟩ := done_begins (inflate_mode _ _ _ hi)
    have hr := format_read e1 e2
    have : rest = [] := one_end hr hi
    subst this
    rw [List.append_nil] at hi ⊢
    rw [hr] at hi
    cases hi
    exact ⟨h1, h2, bits, pad, (header_iff h1 h2).mp ⟨_, hz⟩, e1, e2, rfl⟩
  · rintro ⟨h1, h2, bits, pad, hh, e1, e2, rfl⟩
    obtain ⟨z, hz⟩ := (header_iff h1 h2).mpr hh
    have hz' : zlibHeader h1 h2 = .ok z := hz
    have hst : z = St.start := by
      unfold zlibHeader at hz'
      split at hz'
      · cases hz'
      · split at hz'
        · cases hz'
        · cases hz'; rfl
    subst hst
    exact ⟨h1, h2, St.start, _, rfl, hz, format_read e1 e2⟩

/-- **C122.** A section says one thing: no two different data have the same compressed form. -/
theorem one_meaning {stream out out' : Bytes} (h : Format stream out) (h' : Format stream out') : out = out' := by
  obtain ⟨a, b, z, body, rfl, h1, h2⟩ := (accepted_iff _ _).mpr h
  obtain ⟨a', b', z', body', e, h3, h4⟩ := (accepted_iff _ _).mpr h'
  simp only [List.cons.injEq] at e
  obtain ⟨rfl, rfl, rfl⟩ := e
  rw [h1] at h3
  cases h3
  rw [h2] at h4
  exact Option.some.inj h4

/-- **C122.** If nothing at the beginning of the bytes after the header has the format, the section does not end within them, and so the
reader of lines stays inside it (`ZlibCut.stays_inside`). -/
theorem unfinished_iff (body : Bytes) : Unfinished zlibInflater St.start body ↔
    ¬ ∃ bits pad out rest, StreamSays 0 [] bits out.reverse ∧ pad.length = (8 - bits.length % 8) % 8 ∧
      body = packBytes (bits ++ pad) ++ sumBytes (adler32 out) ++ rest := by
  constructor
  · rintro hu ⟨bits, pad, out, rest, e1, e2, rfl⟩
    have hm := inflate_mode _ _ _ (format_read e1 e2)
    refine hu _ (List.prefix_append _ _) ?_
    rw [fold_bits]
    show zlibStatus _ = .done
    unfold zlibStatus
    rw [hm]
  · rintro hn p ⟨q, rfl⟩ hd
    rw [fold_bits] at hd
    have hd' : zlibStatus (St.start.bits (dataBits p)) = .done := hd
    have hm : (St.start.bits (dataBits p)).mode = .done := by
      unfold zlibStatus at hd'
      split at hd' <;> first | assumption | cases hd'
    obtain ⟨bits, pad, out, rest, e1, e2, rfl⟩ := done_begins hm
    exact hn ⟨bits, pad, out, rest ++ q, e1, e2, by simp⟩

/-- A stream with what no compressor of C120 writes: the length 258 in its longer form (284 and 31) and a byte filled with ones. -/
example : ∃ bits, StreamSays 0 [] bits (List.replicate 259 97) ∧ bits.length = 3 + (8 + (8 + 5 + 5) + 7) ∧
    Format (0x78 :: 0x9c :: (packBytes (bits ++ [true, true, true, true]) ++ sumBytes (adler32 (List.replicate 259 97)))) (List.replicate 259 97) := by
  have h1 : ToksSay fixedLit fixedDist [] (wordBits (Book.key fixedLit 97) ++ (wordBits (Book.key fixedLit 284) ++ (numBits 5 31 ++
      (wordBits (Book.key fixedDist 0) ++ numBits 0 0)) ++ [])) (copyBack 1 258 [97]) :=
    .cons (.lit 97 (hasWord_of_any (fixedLit_any _ (by decide)))) (.cons
      (.ref 284 31 0 0 (by omega) (by omega) (hasWord_of_any (fixedLit_any _ (by omega))) (by decide) (by omega)
        ⟨32, by decide⟩ (by decide) (by decide)) (.nil _))
  have h2 : copyBack 1 258 [97] = List.replicate 259 (97 : Byte) := by decide +kernel
  rw [h2] at h1
  refine ⟨_, .last (.fixed _ _ h1), by decide +kernel, 0x78, 0x9c, _, _, by decide, ?_, ?_, rfl⟩
  · rw [List.reverse_replicate]
    exact .last (.fixed _ _ h1)
  · decide +kernel

/-- Real data: `a|` as Python's zlib writes it. -/
example : Format [0x78, 0x9c, 0x4b, 0xac, 0x01, 0x00, 0x01, 0x40, 0x00, 0xde] b!"a|" :=
  (accepted_iff _ _).mp ⟨0x78, 0x9c, St.start, _, rfl, rfl, by decide +kernel⟩

/-- No beginning of these bytes has the format: the block has the kind that is reserved. -/
example : ¬ ∃ bits pad out rest, StreamSays 0 [] bits out.reverse ∧ pad.length = (8 - bits.length % 8) % 8 ∧
    b!"\x07abcdefghij" = packBytes (bits ++ pad) ++ sumBytes (adler32 out) ++ rest := by
  apply (unfinished_iff _).mp
  refine broken_unfinished [] trivial [true, true, true] ((dataBits b!"\x07abcdefghij").drop 3) (.reserved true) _ ?_
  decide +kernel

end Verif.Props.ZlibExact
