import Verif.Props.ZlibRefuse
import Verif.Props.LineReaderCut
import Verif.Lineproto.ZlibSum

/-!
# Damaged compressed sections, as the reader of lines sees them (C61, C121)

`LineReaderCut` is about any decompressor that does not end within the bytes that come.  Here is when the one of zlib does not.
-/

namespace Verif.Props.ZlibCut

open Verif.Lineproto Verif.Go.Inflate Verif.Go.Deflate Verif.Props.ZlibRefuse Verif.Props.LineReaderCut

/-- The failures of zlib are never `io.EOF`. -/
theorem honest : Honest zlibInflater := by
  intro z h
  have h' : zlibStatus z = .failed .eof := h
  unfold zlibStatus at h'
  split at h' <;> cases h'

theorem bits_done {s : St} (h : s.mode = .done) (bs : List Bool) : s.bits bs = s := by
  induction bs with
  | nil => rfl
  | cons b bs ih =>
    rw [bits_cons]
    have : s.bit b = s := by unfold St.bit; rw [h]
    rw [this, ih]

theorem fold_bits (p : Bytes) (s : St) : p.foldl (fun z c => (zlibInflater.step z c).1) s = s.bits (dataBits p) := by
  induction p generalizing s with
  | nil => rfl
  | cons c p ih => rw [List.foldl_cons, ih, dataBits_cons, bits_append]; rfl

/-- If the decompressor fails within some bits, it does not end within them, nor later. -/
theorem fail_unfinished {s : St} {bs : Bytes} {c : Nat} (h : (s.bits (dataBits bs)).mode = .fail c) : Unfinished zlibInflater s bs := by
  rintro p ⟨q, rfl⟩ hd
  rw [fold_bits] at hd
  have hd' : zlibStatus (s.bits (dataBits p)) = .done := hd
  have hm : (s.bits (dataBits p)).mode = .done := by
    unfold zlibStatus at hd'
    split at hd' <;> first | assumption | cases hd'
  rw [dataBits_append, bits_append, bits_done hm, hm] at h
  cases h

/-- The section does not end if it breaks the format, whatever follows. -/
theorem broken_unfinished (bs : List Block) (hbs : blocksOk [] bs) (bits rest : List Bool)
    (hb : Broken (evalAll [] bs) (blocksBits 0 bs).length bits) (body : Bytes) (hbody : dataBits body = blocksBits 0 bs ++ bits ++ rest) :
    Unfinished zlibInflater St.start body := by
  obtain ⟨-, h⟩ := broken_refused (h1 := 0x78) (h2 := 0x9c) rfl bs hbs bits rest hb body hbody
  apply fail_unfinished (c := corrupt)
  have h' : zlibStatus (St.start.bits (dataBits body)) = .failed (.other corrupt) := h
  unfold zlibStatus at h'
  split at h'
  · cases h'
  · rename_i c hm
    rw [hm]
    cases h'
    rfl
  · cases h'

theorem toSum_bits (s : St) (pad : List Bool) (h : pad.length = (8 - s.pos % 8) % 8) :
    s.toSum.bits pad = (adv s pad.length).to (.num 8 1 0 (.sum 4 0)) := by
  have hr : pad.length = s.rest := h
  unfold St.toSum
  split
  · rename_i h0
    have : pad = [] := List.length_eq_zero_iff.mp (by omega)
    subst this
    rfl
  · rename_i h0
    obtain ⟨x, h1, h2⟩ := bits_numBits pad
    rw [← hr]
    conv => lhs; rw [h2]
    rw [numBits_length, bits_ask _ _ _ _ (by omega) h1]
    rfl

theorem wrong_sum (s : St) (a b c d : Byte) (h : ((a.toNat * 256 + b.toNat) * 256 + c.toNat) * 256 + d.toNat ≠ adler32 s.hist.reverse) :
    ((s.to (.num 8 1 0 (.sum 4 0))).bits (dataBits [a, b, c, d])).mode = .fail badSum := by
  have ha := a.toNat_lt
  have hb := b.toNat_lt
  have hc := c.toNat_lt
  have hd := d.toNat_lt
  simp only [dataBits_cons, bitsOf_eq, bits_append]
  rw [bits_ask _ _ _ _ (by omega) (by omega)]
  simp only [St.gotNum]
  rw [if_pos (by omega), bits_ask _ _ _ _ (by omega) (by omega)]
  simp only [St.gotNum]
  rw [if_pos (by omega), bits_ask _ _ _ _ (by omega) (by omega)]
  simp only [St.gotNum]
  rw [if_pos (by omega), bits_ask _ _ _ _ (by omega) (by omega)]
  simp only [St.gotNum, Nat.zero_mul, Nat.zero_add]
  rw [if_neg (by omega), if_neg (by exact h)]
  rfl

/-- The section does not end if its checksum is not that of its data, whatever follows.  The bits that fill the byte before it may be
any. -/
theorem wrong_sum_unfinished (bs : List Block) (b : Block) (out : Bytes) (hok : blocksOk [] (bs ++ [b]))
    (hout : (evalAll [] (bs ++ [b])).reverse = out) (pad : List Bool)
    (hp : pad.length = (8 - (blocksBits 0 bs ++ b.bits (blocksBits 0 bs).length true).length % 8) % 8)
    (sum : Bytes) (hs : sum.length = 4) (hne : sum ≠ sumBytes (adler32 out)) (rest : Bytes) :
    Unfinished zlibInflater St.start
      (packBytes (blocksBits 0 bs ++ b.bits (blocksBits 0 bs).length true ++ pad) ++ sum ++ rest) := by
  have hsplit : ∀ (bs : List Block) (h0 : Bytes), blocksOk h0 (bs ++ [b]) → blocksOk h0 bs ∧ b.Ok (evalAll h0 bs) := by
    intro bs
    induction bs with
    | nil => intro h0 h; exact ⟨trivial, h.1⟩
    | cons x bs ih => intro h0 h; exact ⟨⟨h.1, (ih _ h.2).1⟩, (ih _ h.2).2⟩
  obtain ⟨h1, h2⟩ := hsplit bs [] hok
  have he' : b.eval (evalAll [] bs) = out.reverse := by rw [← hout, evalAll_append, List.reverse_reverse]; rfl
  generalize hA : blocksBits 0 bs ++ b.bits (blocksBits 0 bs).length true = A at *
  have h4 : St.start.bits A = (⟨A.length, true, out.reverse, .done⟩ : St).toSum := by
    rw [← hA, bits_append, start_blocks h1]
    refine (bits_block (⟨(blocksBits 0 bs).length, false, evalAll [] bs, .done⟩ : St) true b h2).trans ?_
    simp only [adv, St.withFinal, St.withHist, he', St.endBlock, List.length_append]
    rfl
  obtain ⟨x, y, z, w, rfl⟩ : ∃ x y z w, sum = [x, y, z, w] := by
    rcases sum with _ | ⟨a, _ | ⟨b, _ | ⟨c, _ | ⟨d, _ | ⟨e, r⟩⟩⟩⟩⟩ <;> simp at hs
    exact ⟨a, b, c, d, rfl⟩
  apply fail_unfinished (c := badSum)
  have hfull : (A ++ pad).length % 8 = 0 := by rw [List.length_append, hp]; omega
  rw [dataBits_append, dataBits_append, pack_full hfull, bits_append, bits_append, bits_append, h4,
    toSum_bits (⟨A.length, true, out.reverse, .done⟩ : St) pad hp]
  have h5 := wrong_sum (adv (⟨A.length, true, out.reverse, .done⟩ : St) pad.length) x y z w (by
    intro h
    apply hne
    refine be32 rfl ?_
    have h' : (adv (⟨A.length, true, out.reverse, .done⟩ : St) pad.length).hist.reverse = out := List.reverse_reverse _
    rw [h'] at h
    simpa using h)
  rw [bits_fail h5]
  exact h5

theorem src_read_left (n : Nat) (s : Src) : (s.map (·.data)).flatten = (s.read n).1.1 ++ ((s.read n).2.map (·.data)).flatten := by
  cases s with
  | nil => rfl
  | cons ev s =>
    rw [Src.read]
    split
    · simp
    · simp [← List.append_assoc]

theorem buf_read_left (n : Nat) (b : Buf) : left b = (b.read n).1.1 ++ left (b.read n).2 := by
  unfold Buf.read left
  split
  · rename_i h
    rw [h]
    exact src_read_left n b.src
  · rename_i c cs h
    rw [h]
    show c :: cs ++ _ = (c :: cs).take n ++ ((c :: cs).drop n ++ _)
    rw [← List.append_assoc, List.take_append_drop]

theorem readFull_left : ∀ (fuel n : Nat) (acc h : Bytes) (b b' : Buf), b.readFull fuel n acc = .val ((h, none), b') →
    acc ++ left b = h ++ left b' := by
  intro fuel
  induction fuel with
  | zero =>
    intro n acc h b b' e
    cases n with
    | zero => simp only [Buf.readFull, Exec.val.injEq, Prod.mk.injEq, and_true] at e; obtain ⟨rfl, rfl⟩ := e; rfl
    | succ n => simp [Buf.readFull] at e
  | succ fuel ih =>
    intro n acc h b b' e
    cases n with
    | zero => simp only [Buf.readFull, Exec.val.injEq, Prod.mk.injEq, and_true] at e; obtain ⟨rfl, rfl⟩ := e; rfl
    | succ n =>
      have hl := buf_read_left (n + 1) b
      rw [Buf.readFull] at e
      generalize b.read (n + 1) = x at *
      obtain ⟨⟨d, er⟩, b1⟩ := x
      dsimp only at e hl
      rw [hl, ← List.append_assoc]
      split at e
      · simp only [Exec.val.injEq, Prod.mk.injEq, and_true] at e
        obtain ⟨rfl, rfl⟩ := e
        rfl
      · cases er with
        | some er => simp at e
        | none => exact ih _ _ _ _ _ e

theorem enabled {r r' : Reader St} {fuel : Nat} {sched : List (Nat × Bool)} {b : Buf} (ho : r.orig = some b)
    (he : r.enableZlib zlibInflater fuel sched = .val (none, r')) :
    ∃ h1 h2 b' zr, left b = h1 :: h2 :: left b' ∧ r'.orig = some b' ∧ r'.zlib = some zr ∧ zr.z = St.start := by
  unfold Reader.enableZlib at he
  rw [ho] at he
  dsimp only at he
  split at he
  · simp at he
  · split at he
    · simp at he
    · simp at he
    · simp at he
    · rename_i h b1 hf
      have hl := readFull_left _ _ _ _ _ _ hf
      split at he
      · split at he
        · simp at he
        · rename_i h1 h2 _ z hz
          simp only [Exec.val.injEq, Prod.mk.injEq, true_and] at he
          subst he
          refine ⟨h1, h2, b1, _, by simpa using hl, rfl, rfl, ?_⟩
          have hz' : zlibHeader h1 h2 = .ok z := hz
          unfold zlibHeader at hz'
          split at hz'
          · cases hz'
          · split at hz'
            · cases hz'
            · cases hz'; rfl
      · simp at he

/-- **C121.** Compression is enabled, and what comes after the two bytes of the header is a section that does not end (`broken_unfinished`,
`wrong_sum_unfinished`): `ReadLine` and `Read` stay in the section, and no call returns `io.EOF`, now or later. -/
theorem stays_inside {r r' : Reader St} {fuel : Nat} {sched : List (Nat × Bool)} {b : Buf} {h1 h2 : Byte} {body : Bytes}
    (ho : r.orig = some b) (hb : left b = h1 :: h2 :: body) (hu : Unfinished zlibInflater St.start body)
    (he : r.enableZlib zlibInflater fuel sched = .val (none, r')) :
    Inside zlibInflater r' ∧ ∀ r1, Inside zlibInflater r1 →
      (∀ fuel line e r2, (∀ hook ∈ r1.onLine, ∀ l, hook l ≠ .fail .eof) → r1.readLine zlibInflater fuel = .val ((line, e), r2) →
        Inside zlibInflater r2 ∧ e ≠ some .eof) ∧
      (∀ fuel n d e r2, r1.read zlibInflater fuel n = .val ((d, e), r2) → Inside zlibInflater r2 ∧ e ≠ some .eof) := by
  obtain ⟨b', zr, e1, e2, e3⟩ := enable_inside zlibInflater he
  obtain ⟨x1, x2, b2, zr2, f1, f2, f3, f4⟩ := enabled ho he
  rw [e1] at f2
  rw [e2] at f3
  cases f2
  cases f3
  rw [hb] at f1
  simp only [List.cons.injEq] at f1
  refine ⟨e3 (by rw [f4, ← f1.2.2]; exact hu), fun r1 hi => ⟨fun _ _ _ _ hh h => cut_section_reported zlibInflater honest hi hh h,
    fun _ _ _ _ _ h => cut_section_read zlibInflater honest hi h⟩⟩

/-- `a|` with a wrong checksum, then anything: the section does not end. -/
example : Unfinished zlibInflater St.start ([0x4b, 0xac, 0x01, 0x00, 0x01, 0x40, 0x00, 0xdf] ++ b!"b|") :=
  fail_unfinished (c := badSum) (by
    have h : (match (St.start.bits (dataBits ([0x4b, 0xac, 0x01, 0x00, 0x01, 0x40, 0x00, 0xdf] ++ b!"b|"))).mode with
        | .fail c => c == badSum
        | _ => false) = true := by decide +kernel
    split at h
    · rename_i c hc
      rw [hc, eq_of_beq h]
    · cases h)

/-- The hypotheses about the checksum are met: the same, in parts. -/
example : blocksOk [] ([] ++ [.fixed [.lit 97, .lit 124]]) ∧ [0x01, 0x40, 0x00, 0xdf] ≠ sumBytes (adler32 b!"a|") ∧
    packBytes (blocksBits 0 [] ++ (Block.fixed [.lit 97, .lit 124]).bits 0 true ++ List.replicate 6 false) = [0x4b, 0xac, 0x01, 0x00] := by
  refine ⟨⟨⟨trivial, trivial, trivial⟩, trivial⟩, by decide +kernel, by decide +kernel⟩

end Verif.Props.ZlibCut
