import Verif.Go.DeflateBlocks
import Verif.Lineproto.Zlib
import Verif.Lineproto.ZlibWriter
import Verif.Lineproto.WriterLemmas

/-!
# Lemmas about zlib streams
-/

namespace Verif.Lineproto

open Verif.Go.Inflate Verif.Go.Deflate

/-! ### The output grows -/

/-- `h` continues the output `h0`. -/
def Grows (h0 h : Bytes) : Prop := ∃ x, h = x ++ h0

theorem Grows.refl (h : Bytes) : Grows h h := ⟨[], rfl⟩

theorem Grows.trans {a b c : Bytes} (h1 : Grows a b) (h2 : Grows b c) : Grows a c := by
  obtain ⟨x, rfl⟩ := h1
  obtain ⟨y, rfl⟩ := h2
  exact ⟨y ++ x, by simp⟩

theorem grows_cons (c : Byte) (h : Bytes) : Grows h (c :: h) := ⟨[c], rfl⟩

theorem grows_copy (d n : Nat) : ∀ h, Grows h (copyBack d n h) := by
  induction n with
  | zero => intro h; exact .refl h
  | succ n ih => intro h; exact (grows_cons _ h).trans (ih _)

theorem hist_toSum (s : St) : s.toSum.hist = s.hist := by unfold St.toSum; split <;> rfl
theorem hist_endBlock (s : St) : s.endBlock.hist = s.hist := by
  unfold St.endBlock; split
  · exact hist_toSum s
  · rfl
theorem hist_toStored (s : St) : s.toStored.hist = s.hist := by unfold St.toStored; split <;> rfl
theorem hist_toWord (s : St) (b : Book) (k : Sym) : (s.toWord b k).hist = s.hist := by unfold St.toWord; split <;> rfl
theorem hist_toLit (s : St) (b k : Book) : (s.toLit b k).hist = s.hist := hist_toWord s _ _
theorem hist_toDist (s : St) (b k : Book) (n : Nat) : (s.toDist b k n).hist = s.hist := hist_toWord s _ _
theorem hist_toLens (s : St) (a b : Nat) (c : Book) (d : List Nat) : (s.toLens a b c d).hist = s.hist := by
  unfold St.toLens
  split
  · exact hist_toWord s _ _
  · split
    · exact hist_toLit s _ _
    · rfl
theorem hist_toBook (s : St) (a b : Nat) (c : List Nat) : (s.toBook a b c).hist = s.hist := by
  unfold St.toBook
  split
  · exact hist_toLens s _ _ _ _
  · rfl
theorem hist_to (s : St) (m : Mode) : (s.to m).hist = s.hist := rfl
theorem hist_withHist (s : St) (h : Bytes) : (s.withHist h).hist = h := rfl
theorem hist_withFinal (s : St) (f : Bool) : (s.withFinal f).hist = s.hist := rfl

theorem grows_ref (s : St) (a b : Book) (n d : Nat) : Grows s.hist (s.ref a b n d).hist := by
  unfold St.ref
  split
  · rw [hist_toLit, hist_withHist]; exact grows_copy _ _ _
  · exact .refl _

theorem grows_sym (s : St) (b : Book) (v : Nat) (k : Sym) : Grows s.hist (s.gotSym b v k).hist := by
  cases k <;> simp only [St.gotSym] <;> repeat' split
  all_goals first
    | exact grows_ref _ _ _ _ _
    | (simp only [hist_toLit, hist_toLens, hist_toDist, hist_endBlock, hist_to, hist_withHist]
       first | exact .refl _ | exact grows_cons _ _)

theorem grows_num (s : St) (v : Nat) (k : Num) : Grows s.hist (s.gotNum v k).hist := by
  cases k with
  | dext lit dist len base => exact grows_ref _ _ _ _ _
  | copy n =>
    simp only [St.gotNum]
    split
    · rw [hist_endBlock]; exact grows_cons _ _
    · rw [hist_to]; exact grows_cons _ _
  | hdr =>
    simp only [St.gotNum]
    split
    · rw [hist_toStored, hist_withFinal]; exact .refl _
    · split
      · rw [hist_toLit, hist_withFinal]; exact .refl _
      · split
        · rw [hist_to, hist_withFinal]; exact .refl _
        · rw [hist_to]; exact .refl _
  | skip => exact .refl _
  | len => exact .refl _
  | nlen n =>
    simp only [St.gotNum]
    split
    · exact .refl _
    · split
      · rw [hist_endBlock]; exact .refl _
      · exact .refl _
  | counts =>
    simp only [St.gotNum]
    split
    · exact .refl _
    · split <;> exact .refl _
  | clen a b c d =>
    simp only [St.gotNum]
    split
    · exact .refl _
    · rw [hist_toBook]; exact .refl _
  | rep a b c d e f =>
    simp only [St.gotNum]
    split
    · exact .refl _
    · rw [hist_toLens]; exact .refl _
  | lext a b c => rw [St.gotNum, hist_toDist]; exact .refl _
  | skipSum => exact .refl _
  | sum a b =>
    simp only [St.gotNum]
    split
    · rw [hist_to]; exact .refl _
    · split <;> (rw [hist_to]; exact .refl _)

theorem grows_bit (s : St) (b : Bool) : Grows s.hist (s.bit b).hist := by
  unfold St.bit
  dsimp only
  split
  · split
    · exact grows_num { s with pos := s.pos + 1 } _ _
    · exact .refl _
  · split
    · exact grows_sym { s with pos := s.pos + 1 } _ _ _
    · generalize (2 * _ + if b = true then 1 else 0) = key
      split <;> (rw [hist_to]; exact .refl _)
  · exact .refl _
  · exact .refl _

theorem grows_bits (bs : List Bool) : ∀ s : St, Grows s.hist (s.bits bs).hist := by
  induction bs with
  | nil => intro s; exact .refl _
  | cons b bs ih => intro s; exact (grows_bit s b).trans (ih _)

/-! ### The end of a stream -/

/-- More is expected. -/
def Runs (s : St) : Prop := zlibStatus s = .running

theorem stop_bit {s : St} (h : ¬ Runs s) (b : Bool) : s.bit b = s := by
  unfold Runs zlibStatus at h
  unfold St.bit
  cases hm : s.mode <;> rw [hm] at h <;> simp at h <;> rfl

theorem stop_bits {s : St} (h : ¬ Runs s) : ∀ bs : List Bool, s.bits bs = s := by
  intro bs
  induction bs with
  | nil => rfl
  | cons b bs ih => rw [bits_cons, stop_bit h, ih]

theorem runs_before {s : St} {a b : List Bool} (h : Runs (s.bits (a ++ b))) : Runs (s.bits a) := by
  rw [bits_append] at h
  by_cases h0 : Runs (s.bits a)
  · exact h0
  · rw [stop_bits h0] at h; exact h

/-! ### Bytes -/

theorem byte_out {s : St} {c : Byte} {x : Bytes} (h : (s.bits (bitsOf c)).hist = x ++ s.hist) : (s.byte c).2 = x.reverse := by
  unfold St.byte
  rw [h]
  simp

theorem part_bits (body : Bytes) : ∀ (s : St) (out : Bytes), Runs (s.bits (dataBits body)) →
    (s.bits (dataBits body)).hist = out.reverse ++ s.hist → inflatePart zlibInflater s body = some out := by
  induction body with
  | nil =>
    intro s out _ h
    have : out = [] := by simpa [dataBits, bits_nil] using h
    rw [this]; rfl
  | cons c body ih =>
    intro s out hr h
    rw [dataBits_cons] at hr h
    have h0 : Runs s := runs_before (a := []) hr
    obtain ⟨x, hx⟩ := grows_bits (bitsOf c) s
    rw [bits_append] at hr h
    obtain ⟨y, hy⟩ := grows_bits (dataBits body) (s.bits (bitsOf c))
    have e : out = x.reverse ++ y.reverse := by
      rw [hy, hx, ← List.append_assoc] at h
      have := List.append_cancel_right h
      rw [← List.reverse_reverse out, ← this]
      simp
    rw [inflatePart, if_pos (show zlibInflater.status s = .running from h0)]
    have h1 := ih (s.bits (bitsOf c)) y.reverse hr (by simpa using hy)
    show (inflatePart zlibInflater (s.bits (bitsOf c)) body).map ((s.byte c).2 ++ ·) = _
    rw [h1, byte_out hx, e]
    rfl

theorem full_bits (body : Bytes) : ∀ (s : St) (c : Byte) (out : Bytes), Runs (s.bits (dataBits body)) →
    (s.bits (dataBits (body ++ [c]))).mode = .done → (s.bits (dataBits (body ++ [c]))).hist = out.reverse ++ s.hist →
    inflate zlibInflater s (body ++ [c]) = some out := by
  induction body with
  | nil =>
    intro s c out hr hd h
    have h0 : Runs s := hr
    have e1 : dataBits ([] ++ [c]) = bitsOf c := by simp [dataBits]
    rw [e1] at hd h
    rw [List.nil_append, inflate, if_pos (show zlibInflater.status s = .running from h0)]
    show (inflate zlibInflater (s.bits (bitsOf c)) []).map ((s.byte c).2 ++ ·) = _
    rw [inflate, if_pos (by show zlibStatus _ = _; unfold zlibStatus; rw [hd]), byte_out h]
    simp
  | cons d body ih =>
    intro s c out hr hd h
    rw [dataBits_cons] at hr
    rw [List.cons_append, dataBits_cons] at hd h
    have h0 : Runs s := runs_before (a := []) hr
    obtain ⟨x, hx⟩ := grows_bits (bitsOf d) s
    rw [bits_append] at hr hd h
    obtain ⟨y, hy⟩ := grows_bits (dataBits (body ++ [c])) (s.bits (bitsOf d))
    have e : out = x.reverse ++ y.reverse := by
      rw [hy, hx, ← List.append_assoc] at h
      have := List.append_cancel_right h
      rw [← List.reverse_reverse out, ← this]
      simp
    rw [List.cons_append, inflate, if_pos (show zlibInflater.status s = .running from h0)]
    have h1 := ih (s.bits (bitsOf d)) c y.reverse hr hd (by simpa using hy)
    show (inflate zlibInflater (s.bits (bitsOf d)) (body ++ [c])).map ((s.byte d).2 ++ ·) = _
    rw [h1, byte_out hx, e]
    rfl

/-! ### Bits in bytes -/

theorem bitsOf_byteOf (b0 b1 b2 b3 b4 b5 b6 b7 : Bool) : bitsOf (byteOf [b0, b1, b2, b3, b4, b5, b6, b7]) =
    [b0, b1, b2, b3, b4, b5, b6, b7] := by
  revert b0 b1 b2 b3 b4 b5 b6 b7
  decide +kernel

theorem pack_bits (bs : List Bool) : dataBits (packBytes bs) ++ packRest bs = bs := by
  fun_induction packBytes bs with
  | case1 b0 b1 b2 b3 b4 b5 b6 b7 bs ih =>
    rw [dataBits_cons, bitsOf_byteOf, packRest, List.append_assoc, ih]
    rfl
  | case2 bs h =>
    show [] ++ packRest bs = bs
    unfold packRest
    split
    · exact absurd rfl (h _ _ _ _ _ _ _ _ _)
    · rfl

theorem packRest_length (bs : List Bool) : (packRest bs).length = bs.length % 8 := by
  fun_induction packRest bs with
  | case1 _ _ _ _ _ _ _ _ bs ih => rw [ih]; simp only [List.length_cons]; omega
  | case2 bs h =>
    have : bs.length < 8 := by
      rcases bs with _ | ⟨_, _ | ⟨_, _ | ⟨_, _ | ⟨_, _ | ⟨_, _ | ⟨_, _ | ⟨_, _ | ⟨_, bs⟩⟩⟩⟩⟩⟩⟩⟩ <;> simp
      exact absurd rfl (h _ _ _ _ _ _ _ _ _)
    omega

theorem packBytes_append (a b : List Bool) : packBytes (a ++ b) = packBytes a ++ packBytes (packRest a ++ b) := by
  fun_induction packRest a with
  | case1 b0 b1 b2 b3 b4 b5 b6 b7 bs ih => simp [packBytes, ih]
  | case2 bs h =>
    have : packBytes bs = [] := by
      unfold packBytes
      split
      · exact absurd rfl (h _ _ _ _ _ _ _ _ _)
      · rfl
    rw [this]; rfl

theorem packRest_append (a b : List Bool) : packRest (a ++ b) = packRest (packRest a ++ b) := by
  fun_induction packRest a with
  | case1 b0 b1 b2 b3 b4 b5 b6 b7 bs ih => simp [packRest, ih]
  | case2 bs h => rfl

theorem pack_full {bs : List Bool} (h : bs.length % 8 = 0) : dataBits (packBytes bs) = bs := by
  have h1 := pack_bits bs
  have h2 : packRest bs = [] := List.length_eq_zero_iff.mp (by rw [packRest_length, h])
  rw [h2, List.append_nil] at h1
  exact h1

/-! ### Blocks at any position -/

theorem block_bits_mod (b : Block) (f : Bool) {p q : Nat} (h : p % 8 = q % 8) : b.bits p f = b.bits q f := by
  cases b with
  | stored d =>
    have : padBits (p + 3) = padBits (q + 3) := by unfold padBits; congr 2; omega
    rw [Block.bits, Block.bits, this]
  | fixed _ => rfl
  | coded _ _ => rfl

theorem blocks_bits_mod (bs : List Block) : ∀ {p q : Nat}, p % 8 = q % 8 → blocksBits p bs = blocksBits q bs := by
  induction bs with
  | nil => intros; rfl
  | cons b bs ih =>
    intro p q h
    rw [blocksBits, blocksBits, block_bits_mod b false h, ih (p := p + (b.bits q false).length) (q := q + (b.bits q false).length) (by omega)]

theorem blocks_bits_append (a b : List Block) : ∀ p, blocksBits p (a ++ b) = blocksBits p a ++ blocksBits (p + (blocksBits p a).length) b := by
  induction a with
  | nil => intro p; rfl
  | cons x a ih =>
    intro p
    rw [List.cons_append, blocksBits, blocksBits, ih, List.append_assoc, List.length_append, Nat.add_assoc]

theorem blocksOk_append (a b : List Block) : ∀ h, blocksOk h a → blocksOk (evalAll h a) b → blocksOk h (a ++ b) := by
  induction a with
  | nil => intro h _ hb; exact hb
  | cons x a ih => intro h ha hb; exact ⟨ha.1, ih _ ha.2 hb⟩

theorem evalAll_append (a b : List Block) (h : Bytes) : evalAll h (a ++ b) = evalAll (evalAll h a) b := by simp [evalAll]

theorem stored_aligned (p : Nat) (f : Bool) (d : Bytes) : (p + ((Block.stored d).bits p f).length) % 8 = 0 := by
  simp only [Block.bits, padBits, List.length_append, numBits_length, dataBits_length, List.length_replicate, List.length_cons,
    List.length_nil]
  omega

end Verif.Lineproto
