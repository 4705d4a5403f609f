import Verif.Props.ZlibExact

/-!
# C120: where an error that comes with a byte is taken

Models: `Verif/Go/Inflate.lean`, `Verif/Lineproto/Zlib.lean` (`zlibWant`), `Verif/Lineproto/Reader.lean` (`Buf.zByte`).

A transport may return an error together with its last bytes.  The decompressor takes the lengths of a stored block, its data and the checksum by
`io.ReadFull`, which drops the error if it has all the bytes it was asked for and returns it otherwise.
-/

namespace Verif.Props.ZlibWant

open Verif Verif.Go Verif.Go.Inflate Verif.Go.Deflate Verif.Lineproto Verif.Props.ZlibCut Verif.Props.ZlibExact

theorem part (k : Num) (bs : List Bool) : ∀ (n w v : Nat) (s : St), bs.length < n →
    ∃ w' v', (s.to (.num n w v k)).bits bs = (adv s bs.length).to (.num (n - bs.length) w' v' k) := by
  induction bs with
  | nil => intro n w v s _; exact ⟨w, v, rfl⟩
  | cons b bs ih =>
    intro n w v s h
    simp only [List.length_cons] at h
    have h1 : (s.to (.num n w v k)).bits (b :: bs) = ((adv s 1).to (.num (n - 1) (2 * w) (v + if b then w else 0) k)).bits bs := by
      show ((s.to (.num n w v k)).bit b).bits bs = _
      congr 1
      simp only [St.bit, St.to]
      rw [if_neg (by omega)]
      rfl
    obtain ⟨w', v', h2⟩ := ih (n - 1) (2 * w) (v + if b then w else 0) (adv s 1) (by omega)
    refine ⟨w', v', ?_⟩
    rw [h1, h2, adv_adv, List.length_cons]
    congr 2 <;> omega

theorem sum_part (xs : Bytes) : ∀ (left acc : Nat) (s : St), xs.length < left →
    ∃ acc', (s.to (.num 8 1 0 (.sum left acc))).bits (dataBits xs) = (adv s (8 * xs.length)).to (.num 8 1 0 (.sum (left - xs.length) acc')) := by
  induction xs with
  | nil => intro left acc s _; exact ⟨acc, rfl⟩
  | cons c xs ih =>
    intro left acc s h
    simp only [List.length_cons] at h
    have hc := c.toNat_lt
    rw [dataBits_cons, bitsOf_eq, bits_append, bits_ask _ _ _ _ (by omega) (by omega)]
    simp only [St.gotNum]
    rw [if_pos (by omega)]
    obtain ⟨acc', h2⟩ := ih (left - 1) (acc * 256 + c.toNat) (adv s 8) (by omega)
    refine ⟨acc', ?_⟩
    rw [h2, adv_adv, List.length_cons, show 8 + 8 * xs.length = 8 * (xs.length + 1) by omega,
      show left - 1 - xs.length = left - (xs.length + 1) by omega]

/-- In the checksum: after the blocks, the rest of the byte and some bytes of the checksum, the call asks for the others. -/
theorem sum_want {bits pad : List Bool} {out : Bytes} (hs : StreamSays 0 [] bits out.reverse) (hp : pad.length = (8 - bits.length % 8) % 8)
    {xs : Bytes} (hx : xs.length < 4) : zlibInflater.want (St.start.bits (bits ++ pad ++ dataBits xs)) = 4 - xs.length := by
  obtain ⟨acc, h⟩ := sum_part xs 4 0 (adv (((adv (⟨0, false, [], .done⟩ : St) bits.length).withFinal true).withHist out.reverse) pad.length) hx
  rw [bits_append, bits_append, start_eq, run_stream hs _ rfl rfl,
    toSum_bits (((adv (⟨0, false, [], .done⟩ : St) bits.length).withFinal true).withHist out.reverse) pad (by
      show pad.length = (8 - (0 + bits.length) % 8) % 8
      rw [Nat.zero_add]; exact hp), h]
  rfl

theorem len_part (xs : Bytes) (hx : xs.length < 4) (s : St) : zlibWant ((s.to (.num 16 1 0 .len)).bits (dataBits xs)) = 4 - xs.length := by
  rcases xs with _ | ⟨a, _ | ⟨b, xs⟩⟩
  · rfl
  · obtain ⟨w, v, h⟩ := part .len (dataBits [a]) 16 1 0 s (by simp [dataBits_length])
    rw [h]; simp [zlibWant, St.to, dataBits_length]
  · obtain ⟨x, h1, h2⟩ := bits_numBits (dataBits [a, b])
    rw [show a :: b :: xs = [a, b] ++ xs from rfl, dataBits_append, bits_append, h2]
    simp only [dataBits_length, List.length_cons, List.length_nil] at h1 ⊢
    rw [bits_ask _ _ _ _ (by omega) h1]
    simp only [St.gotNum]
    rcases xs with _ | ⟨c, _ | ⟨d, xs⟩⟩
    · rfl
    · obtain ⟨w, v, h⟩ := part (.nlen x) (dataBits [c]) 16 1 0 (adv s 16) (by simp [dataBits_length])
      rw [h]; simp [zlibWant, St.to, dataBits_length]
    · simp only [List.length_cons] at hx; omega

theorem toStored_bits (s : St) (pad : List Bool) (h : pad.length = (8 - s.pos % 8) % 8) :
    s.toStored.bits pad = (adv s pad.length).to (.num 16 1 0 .len) := by
  have hr : pad.length = s.rest := h
  unfold St.toStored
  split
  · rename_i h0
    have : pad = [] := List.length_eq_zero_iff.mp (by omega)
    subst this
    rfl
  · rename_i h0
    obtain ⟨x, h1, h2⟩ := bits_numBits pad
    rw [← hr]
    conv => lhs; rw [h2]
    rw [numBits_length, bits_ask _ _ _ _ (by omega) h1]
    rfl

theorem at_stored {bs : List Block} (hb : blocksOk [] bs) (f : Bool) {pad : List Bool}
    (hp : pad.length = (8 - ((blocksBits 0 bs).length + 3) % 8) % 8) (more : List Bool) :
    St.start.bits (blocksBits 0 bs ++ [f, false, false] ++ pad ++ more) =
      ((⟨(blocksBits 0 bs).length + 3 + pad.length, f, evalAll [] bs, .done⟩ : St).to (.num 16 1 0 .len)).bits more := by
  rw [bits_append, bits_append, bits_append, start_blocks hb]
  have h1 := bits_hdr (⟨(blocksBits 0 bs).length, false, evalAll [] bs, .done⟩ : St) f false false
  have h2 : (⟨(blocksBits 0 bs).length, false, evalAll [] bs, .num 3 1 0 .hdr⟩ : St).bits [f, false, false] =
      (⟨(blocksBits 0 bs).length + 3, f, evalAll [] bs, .done⟩ : St).toStored := by
    refine h1.trans ?_
    cases f <;> rfl
  rw [h2, toStored_bits _ pad hp]
  rfl

/-- In the lengths of a stored block: after some blocks, the three bits that begin a stored block, the rest of the byte and some of the four bytes
of the lengths, the call asks for the others. -/
theorem len_want {bs : List Block} (hb : blocksOk [] bs) (f : Bool) {pad : List Bool}
    (hp : pad.length = (8 - ((blocksBits 0 bs).length + 3) % 8) % 8) {xs : Bytes} (hx : xs.length < 4) :
    zlibInflater.want (St.start.bits (blocksBits 0 bs ++ [f, false, false] ++ pad ++ dataBits xs)) = 4 - xs.length := by
  rw [at_stored hb f hp]
  exact len_part xs hx _

theorem copy_part (xs : Bytes) : ∀ (n : Nat) (s : St), xs.length < n →
    (s.to (.num 8 1 0 (.copy n))).bits (dataBits xs) =
      ((adv s (8 * xs.length)).withHist (xs.reverse ++ s.hist)).to (.num 8 1 0 (.copy (n - xs.length))) := by
  induction xs with
  | nil => intro n s _; rfl
  | cons c xs ih =>
    intro n s h
    simp only [List.length_cons] at h
    have hc := c.toNat_lt
    rw [dataBits_cons, bitsOf_eq, bits_append, bits_ask _ _ _ _ (by omega) (by omega)]
    simp only [St.gotNum]
    rw [if_neg (by omega), ih (n - 1) _ (by omega), List.length_cons, show n - 1 - xs.length = n - (xs.length + 1) by omega]
    simp [adv, St.withHist, St.to, Nat.mul_add]
    omega

/-- In the data of a stored block the call asks for the rest of the data, but not beyond the end of the window of 32 KiB. -/
theorem data_want {bs : List Block} (hb : blocksOk [] bs) (f : Bool) {pad : List Bool}
    (hp : pad.length = (8 - ((blocksBits 0 bs).length + 3) % 8) % 8) {n : Nat} (hn : n ≤ 65535) {xs : Bytes} (hx : xs.length < n) :
    zlibInflater.want (St.start.bits (blocksBits 0 bs ++ [f, false, false] ++ pad ++
        (numBits 16 n ++ numBits 16 (65535 - n) ++ dataBits xs))) =
      min (n - xs.length) (32768 - ((evalAll [] bs).length + xs.length) % 32768) := by
  rw [at_stored hb f hp, bits_append, bits_append, bits_ask _ _ _ _ (by omega) (by omega)]
  simp only [St.gotNum]
  rw [bits_ask _ _ _ _ (by omega) (by omega)]
  simp only [St.gotNum]
  rw [if_neg (by omega), if_neg (by omega), copy_part xs n _ hx]
  simp only [zlibInflater, zlibWant, St.to, St.withHist, adv, List.length_append, List.length_reverse]
  rw [Nat.add_comm xs.length]

/-- Elsewhere the bytes are taken one by one: before a block that is not stored, for one. -/
theorem block_want {bs : List Block} (hb : blocksOk [] bs) : zlibInflater.want (St.start.bits (blocksBits 0 bs)) = 0 := by
  rw [start_blocks hb]; rfl

/-- What becomes of an error that comes with the next byte: it is taken with the first bytes of what the call asks for and dropped with the last; a
byte that is taken alone comes without it. -/
theorem error_with_byte (z : St) (c : Byte) (e : Err) (s : Src) :
    Buf.zByte (zlibInflater.want z) ⟨⟨[c], some e⟩ :: s, []⟩ =
      .val (.inl (c, if 2 ≤ zlibInflater.want z then some e else none), ⟨s, []⟩) := by
  generalize zlibInflater.want z = n
  rcases n with _ | _ | n
  · simp [Buf.zByte, Buf.readByte, Buf.peek, Src.read, readBuf]
  · simp [Buf.zByte, Src.fetch]
  · simp [Buf.zByte, Src.fetch]

/-! ## Examples -/

example : blocksOk [] [Block.stored b!"ab"] ∧ (List.replicate 5 false).length = (8 - ((blocksBits 0 [Block.stored b!"ab"]).length + 3) % 8) % 8 :=
  ⟨⟨by simp [Block.Ok], trivial⟩, by decide +kernel⟩

example : zlibInflater.want (St.start.bits ([true, false, false] ++ List.replicate 5 false ++
    (numBits 16 3 ++ numBits 16 (65535 - 3) ++ dataBits b!"a"))) = 2 := data_want (bs := []) trivial true rfl (by omega) (by decide)

end Verif.Props.ZlibWant
