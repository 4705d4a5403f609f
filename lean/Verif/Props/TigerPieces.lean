import Verif.Tiger.Digest
import Verif.Props.PrivateIds

/-!
# C116: hashing by pieces
-/

namespace Verif.Props.TigerPieces

open Verif.Go Verif.Tiger

theorem compressAll_short {s : State} {p : Bytes} (h : p.length < 64) : compressAll s p = s := by
  rw [compressAll, dif_pos h]

theorem compressAll_block {s : State} {p : Bytes} (h : p.length = 64) (q : Bytes) :
    compressAll s (p ++ q) = compressAll (compress (leWords p) s) q := by
  rw [compressAll, dif_neg (by simp; omega), List.take_left' h, List.drop_left' h]

theorem compressAll_append {s : State} {p : Bytes} (h : p.length % 64 = 0) (q : Bytes) :
    compressAll s (p ++ q) = compressAll (compressAll s p) q := by
  induction hn : p.length using Nat.strongRecOn generalizing s p with
  | _ n ih =>
    subst hn
    by_cases h0 : p.length < 64
    · have : p = [] := List.length_eq_zero_iff.mp (by omega)
      rw [compressAll_short h0, this, List.nil_append]
    · have hp : p = p.take 64 ++ p.drop 64 := (List.take_append_drop 64 p).symm
      have hl : (p.take 64).length = 64 := by simp; omega
      have h1 : compressAll s (p ++ q) = compressAll (compress (leWords (p.take 64)) s) (p.drop 64 ++ q) := by
        conv => lhs; rw [hp, List.append_assoc]
        exact compressAll_block hl _
      have h2 : compressAll s p = compressAll (compress (leWords (p.take 64)) s) (p.drop 64) := by
        conv => lhs; rw [hp]
        exact compressAll_block hl _
      rw [h1, h2]
      exact ih _ (by simp; omega) (by simp; omega) rfl

/-- The bytes after the last whole block do not count. -/
theorem compressAll_rest {s : State} {p r : Bytes} (h : p.length % 64 = 0) (hr : r.length < 64) : compressAll s (p ++ r) = compressAll s p := by
  rw [compressAll_append h, compressAll_short hr]

/-- What a hash value is after the bytes `D`: they are `w`, whole blocks, and `x`. -/
def Holds (d : Digest) (D : Bytes) : Prop :=
  ∃ w, D = w ++ d.x ∧ w.length % 64 = 0 ∧ d.x.length < 64 ∧ d.st = compressAll start w ∧ d.len = D.length % 2 ^ 64

theorem holds_new : Holds .new [] := ⟨[], rfl, rfl, by decide, by rw [compressAll_short (by decide)]; rfl, rfl⟩

theorem holds_tail {d : Digest} {w p : Bytes} (hx : d.x = [] ∨ p = []) (hl : d.x.length < 64) (hw : w.length % 64 = 0) (hs : d.st = compressAll start w)
    (hn : d.len = (w ++ d.x ++ p).length % 2 ^ 64) : Holds (d.tail p) (w ++ d.x ++ p) := by
  rcases hx with hx | rfl
  · unfold Digest.tail
    split
    · rename_i h
      refine ⟨w ++ p, ?_, ?_, hl, ?_, hn⟩
      · simp [hx]
      · simp; omega
      · rw [compressAll_append hw, hs]
    · rename_i h
      have hp : p = p.take (p.length / 64 * 64) ++ p.drop (p.length / 64 * 64) := (List.take_append_drop _ p).symm
      have hpl : (p.take (p.length / 64 * 64)).length = p.length / 64 * 64 := by
        rw [List.length_take]; omega
      refine ⟨w ++ p.take (p.length / 64 * 64), ?_, ?_, ?_, ?_, hn⟩
      · simp [hx]
      · simp; omega
      · simp; omega
      · simp only
        rw [compressAll_append hw, hs]
        conv => lhs; rw [hp]
        rw [compressAll_rest (by rw [hpl]; omega) (by simp; omega)]
  · refine ⟨w, ?_, hw, ?_, ?_, ?_⟩
    · simp [Digest.tail]
    · simpa [Digest.tail] using hl
    · simp only [Digest.tail, List.length_nil, Nat.zero_mod, if_true]
      rw [compressAll_short (by decide), hs]
    · simpa [Digest.tail] using hn

theorem holds_write {d : Digest} {D : Bytes} (h : Holds d D) (p : Bytes) : Holds (d.write p) (D ++ p) := by
  obtain ⟨w, rfl, hw, hx, hs, hn⟩ := h
  have hlen : (d.len + p.length) % 2 ^ 64 = (w ++ d.x ++ p).length % 2 ^ 64 := by
    rw [hn]; simp only [List.length_append]; omega
  unfold Digest.write
  simp only
  split
  · generalize hk : (if 64 - d.x.length < p.length then 64 - d.x.length else p.length) = n
    have hnp : n ≤ p.length := by split at hk <;> omega
    have hp : w ++ d.x ++ p = w ++ d.x ++ p.take n ++ p.drop n := by rw [List.append_assoc (w ++ d.x), List.take_append_drop]
    split
    · rename_i h64
      rw [hp]
      have := holds_tail (d := { st := compress (leWords (d.x ++ p.take n)) d.st, x := [], len := (d.len + p.length) % 2 ^ 64 })
        (w := w ++ (d.x ++ p.take n)) (p := p.drop n) (.inl rfl) (by simp) (by simp at h64 ⊢; omega)
        (by
          simp only
          rw [compressAll_append hw, ← hs]
          have := compressAll_block (s := d.st) h64 []
          rw [List.append_nil] at this
          rw [this, compressAll_short (by simp)])
        (by simp only; rw [hlen, hp]; simp)
      simpa using this
    · rename_i h64
      have hall : n = p.length := by
        split at hk
        · exfalso
          apply h64
          rw [List.length_append, List.length_take]
          omega
        · exact hk.symm
      have hlt : (d.x ++ p.take n).length < 64 := by
        rw [List.length_append, List.length_take] at h64 ⊢
        split at hk <;> omega
      have := holds_tail (d := { st := d.st, x := d.x ++ p.take n, len := (d.len + p.length) % 2 ^ 64 })
        (w := w) (p := p.drop n) (.inr (by simp [hall])) hlt hw hs
        (by simp only; rw [hlen, hp]; simp)
      simp only at this
      rw [hp]
      simpa using this
  · rename_i h0
    have hx0 : d.x = [] := List.length_eq_zero_iff.mp (by omega)
    exact holds_tail (d := { d with len := (d.len + p.length) % 2 ^ 64 }) (.inl hx0) hx hw hs hlen

theorem holds_sum {d : Digest} {D : Bytes} (h : Holds d D) (pre : Bytes) : d.sum pre = pre ++ tiger D := by
  have hlen : d.len = D.length % 2 ^ 64 := by obtain ⟨w, -, -, -, -, hn⟩ := h; exact hn
  have hsize : d.len % 64 = D.length % 64 := by rw [hlen]; omega
  have hpad : (1 :: List.replicate ((if d.len % 64 < 56 then 56 - d.len % 64 else 64 + 56 - d.len % 64) - 1) 0 : Bytes) ++
      leBytes (d.len * 8 % 2 ^ 64) = padding D.length := by
    unfold padding leBytes
    rw [hsize, List.cons_append, List.cons_append]
    congr 2
    · congr 1
      split <;> omega
    · refine List.map_congr_left fun i hi => ?_
      rw [List.mem_range] at hi
      congr 1
      unfold byteOf
      rw [hlen]
      have : i = 0 ∨ i = 1 ∨ i = 2 ∨ i = 3 ∨ i = 4 ∨ i = 5 ∨ i = 6 ∨ i = 7 := by omega
      rcases this with rfl | rfl | rfl | rfl | rfl | rfl | rfl | rfl <;> omega
  unfold Digest.sum tiger
  simp only
  have hw := holds_write (holds_write h (1 :: List.replicate ((if d.len % 64 < 56 then 56 - d.len % 64 else 64 + 56 - d.len % 64) - 1) 0))
    (leBytes (d.len * 8 % 2 ^ 64))
  rw [List.append_assoc, hpad] at hw
  obtain ⟨w, hD, hw, hx, hs, -⟩ := hw
  rw [hs, hD, compressAll_rest hw hx]

/-- **C116.** Whatever is written, in whatever pieces, the sum is the hash of all of it, appended to what is given. -/
theorem pieces (ps : List Bytes) (pre : Bytes) : (ps.foldl Digest.write .new).sum pre = pre ++ tiger ps.flatten := by
  have : ∀ (d : Digest) (D : Bytes), Holds d D → Holds (ps.foldl Digest.write d) (D ++ ps.flatten) := by
    induction ps with
    | nil => intro d D h; simpa using h
    | cons p ps ih =>
      intro d D h
      have := ih _ _ (holds_write h p)
      simpa using this
  have h := this _ _ holds_new
  rw [holds_sum h]
  rfl

/-- What the sums of a series of calls should be: of everything written since the beginning or the last `Reset`. -/
def sums (D : Bytes) : List DigestCall → List Bytes
  | [] => []
  | .write p :: cs => sums (D ++ p) cs
  | .sum :: cs => tiger D :: sums D cs
  | .reset :: cs => sums [] cs

/-- **C116.** `Sum` can be called at any time and changes nothing; `Reset` starts over. -/
theorem series (cs : List DigestCall) : Digest.new.run cs = sums [] cs := by
  have : ∀ (d : Digest) (D : Bytes), Holds d D → d.run cs = sums D cs := by
    induction cs with
    | nil => intro d D _; rfl
    | cons c cs ih =>
      intro d D h
      cases c with
      | write p => exact ih _ _ (holds_write h p)
      | sum => rw [Digest.run, sums, holds_sum h, ih _ _ h]; rfl
      | reset => exact ih _ _ holds_new
  exact this _ _ holds_new

/-- **C116.** `HashBytes` is the Tiger function: it does not panic and its 24 bytes are the digest. -/
theorem hash_bytes (b : Bytes) : ∃ h : Hash, Adc.hashBytes tigerHasher b = .ok h ∧ h.bytes = tiger b := by
  have hd : tigerHasher.digest b = tiger b := by
    have := pieces [b] []
    simpa [tigerHasher] using this
  unfold Adc.hashBytes
  rw [show tigerHasher.write b = none from rfl, hd]
  refine ⟨_, rfl, ?_⟩
  unfold Adc.sumInto
  rw [dif_pos (by rw [tiger_length]; exact Nat.le_refl _)]
  simp [tiger_length]

/-- The client identifier of a private one is its Tiger hash. -/
theorem cid_tiger (pid : Adc.CID) : ∃ cid : Adc.CID, Adc.CID.hash tigerHasher pid = .ok cid ∧ cid.bytes = tiger pid.bytes := hash_bytes pid.bytes

/-! ## Examples -/

example : Digest.new.run [.write b!"a", .sum, .write [], .write b!"bc", .sum, .reset, .sum] = [tiger b!"a", tiger b!"abc", tiger []] :=
  series _

/-- The hash of a zero byte is the tree hash of nothing, `tiger/tth_test.go:15-17`. -/
example : Base32.encode (tiger [0]) = b!"LWPNACQDBZRYXW3VHJVCJ64QBZNGHOHHHZWCLNQ" := by decide +kernel

example : (Digest.new.write (List.replicate 100 c!"x")).x.length = 36 := by decide +kernel

end Verif.Props.TigerPieces
