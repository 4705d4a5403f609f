import Verif.Lineproto.ZlibLaw

/-!
# Bits that break the format, and what the decompressor does with them
-/

namespace Verif.Go.Deflate

open Verif.Go.Inflate Verif.Lineproto

theorem bits_fail {s : St} {c : Nat} (h : s.mode = .fail c) (bs : List Bool) : s.bits bs = s := by
  induction bs with
  | nil => rfl
  | cons b bs ih =>
    rw [bits_cons]
    have : s.bit b = s := by unfold St.bit; rw [h]
    rw [this, ih]

theorem byte_bits (s : St) (c : Byte) : (s.byte c).1 = s.bits (bitsOf c) := rfl

/-- Data that is accepted has been read to its end. -/
theorem inflate_mode : ∀ (body : Bytes) (s : St) (out : Bytes), inflate zlibInflater s body = some out →
    (s.bits (dataBits body)).mode = .done := by
  intro body
  induction body with
  | nil =>
    intro s out h
    unfold inflate at h
    split at h
    · rename_i hd
      have hd' : zlibStatus s = .done := hd
      show s.mode = .done
      unfold zlibStatus at hd'
      split at hd' <;> first | assumption | cases hd'
    · cases h
  | cons c body ih =>
    intro s out h
    unfold inflate at h
    split at h
    · rw [dataBits_cons, bits_append]
      cases h2 : inflate zlibInflater (zlibInflater.step s c).1 body with
      | none => rw [h2] at h; cases h
      | some o => exact ih _ _ h2
    · cases h

/-- Any bits are the bits of a number. -/
theorem bits_numBits (bs : List Bool) : ∃ x, x < 2 ^ bs.length ∧ bs = numBits bs.length x := by
  induction bs with
  | nil => exact ⟨0, by simp, rfl⟩
  | cons b bs ih =>
    obtain ⟨x, h1, h2⟩ := ih
    refine ⟨2 * x + (if b then 1 else 0), ?_, ?_⟩
    · rw [List.length_cons, Nat.pow_succ]
      split <;> omega
    · rw [List.length_cons, numBits]
      have e1 : (2 * x + (if b then 1 else 0)) / 2 = x := by split <;> omega
      have e2 : ((2 * x + (if b then 1 else 0)) % 2 == 1) = b := by cases b <;> simp <;> omega
      rw [e1, e2, ← h2]

/-- Any bits fill the byte. -/
theorem bits_any_pad (s : St) (pad : List Bool) (h : pad.length = (8 - s.pos % 8) % 8) :
    s.toStored.bits pad = (adv s pad.length).to (.num 16 1 0 .len) := by
  have hr : pad.length = s.rest := h
  unfold St.toStored
  split
  · rename_i h0
    have : pad = [] := List.length_eq_zero_iff.mp (by omega)
    subst this
    rfl
  · rename_i h0
    obtain ⟨x, h1, h2⟩ := bits_numBits pad
    rw [← hr]
    conv => lhs; rw [h2]
    rw [numBits_length, bits_ask _ _ _ _ (by omega) h1]
    rfl

/-- Some tokens, not yet the end of the block. -/
theorem bits_some_toks {lit dist : Book} (hl : Book.Good lit) (hd : Book.Good dist) : ∀ (ts : List Tok) (s : St),
    toksOk s.hist ts → (∀ t ∈ ts, t.Said lit dist) →
    (s.toLit lit dist).bits (ts.flatMap (Tok.bits lit dist)) =
      ((adv s (ts.flatMap (Tok.bits lit dist)).length).withHist (ts.foldl Tok.eval s.hist)).toLit lit dist := by
  intro ts
  induction ts with
  | nil => intros; rfl
  | cons t ts ih =>
    intro s ho hs
    rw [List.flatMap_cons, bits_append, bits_tok hl hd s t ho.1 (hs t (by simp)), ih _ ho.2 (fun x hx => hs x (by simp [hx])),
      List.length_append, ← adv_adv]
    rfl

/-- A reference that goes back too far. -/
theorem bits_far {lit dist : Book} (hl : Book.Good lit) (hd : Book.Good dist) (s : St) {len d : Nat} (h1 : 3 ≤ len) (h2 : len ≤ 258)
    (h3 : d ≤ 32768) (h4 : s.hist.length < d) (hs : (Tok.ref len d).Said lit dist) :
    ((s.toLit lit dist).bits ((Tok.ref len d).bits lit dist)).mode = .fail corrupt := by
  rw [Tok.bits, bits_append, bits_len hl s h1 h2 hs.1]
  obtain ⟨a2, a3, a4⟩ := distSym_spec d (by omega) h3
  generalize hs1 : adv s _ = s1
  have hh : s1.hist = s.hist := by rw [← hs1]; rfl
  clear hs1
  rw [bits_append, St.toDist, bits_sym hd hs.2]
  generalize (wordBits (Book.key dist (distSym d))).length = n
  simp only [St.gotSym]
  rw [if_neg (by omega)]
  by_cases h0 : (distBase (distSym d)).2 = 0
  · rw [if_pos h0]
    rw [h0] at a4 ⊢
    rw [numBits, bits_nil, show (distBase (distSym d)).1 = d by omega, St.ref, if_neg]
    · rfl
    · show ¬ d ≤ s1.hist.length
      rw [hh]; omega
  · rw [if_neg h0, bits_ask _ _ _ _ h0 a4, adv_adv]
    simp only [St.gotNum]
    rw [show (distBase (distSym d)).1 + (d - (distBase (distSym d)).1) = d by omega, St.ref, if_neg]
    · rfl
    · show ¬ d ≤ s1.hist.length
      rw [hh]; omega

/-- A symbol that stands for nothing. -/
theorem bits_no_symbol {lit dist : Book} (hl : Book.Good lit) (s : St) {v : Nat} (h : 286 ≤ v) (hw : HasWord lit v) :
    ((s.toLit lit dist).bits (wordBits (Book.key lit v))).mode = .fail corrupt := by
  rw [St.toLit, bits_sym hl hw]
  simp only [St.gotSym]
  rw [if_neg (by omega), if_neg (by omega), if_pos h]
  rfl

/-- A distance that stands for nothing. -/
theorem bits_no_distance {lit dist : Book} (hd : Book.Good dist) (s : St) {len v : Nat} (h : 30 ≤ v) (hw : HasWord dist v) :
    ((s.toDist lit dist len).bits (wordBits (Book.key dist v))).mode = .fail corrupt := by
  rw [St.toDist, bits_sym hd hw]
  simp only [St.gotSym]
  rw [if_pos h]
  rfl

/-- The bits that open a block in these codes. -/
inductive Opens (f : Bool) : Book → Book → List Bool → Prop
  | fixed : Opens f fixedLit fixedDist [f, true, false]
  | coded (hd : Header) (lit dist : Book) (h : hd.Ok lit dist) : Opens f lit dist ([f, false, true] ++ hd.bits)

theorem Opens.bits {f : Bool} {lit dist : Book} {bs : List Bool} (h : Opens f lit dist bs) (s : St) :
    Book.Good lit ∧ Book.Good dist ∧
      (s.to (.num 3 1 0 .hdr)).bits bs = ((adv s bs.length).withFinal f).toLit lit dist := by
  cases h with
  | fixed =>
    refine ⟨mkBook_good fixedLit_mk, mkBook_good fixedDist_mk, ?_⟩
    rw [bits_hdr]
    cases f <;> rfl
  | coded hd _ _ h =>
    have h' := h
    unfold Header.Ok at h'
    obtain ⟨_, _, _, _, _, _, _, _, _, h9, h10⟩ := h'
    refine ⟨mkBook_good h9, mkBook_good h10, ?_⟩
    rw [bits_append, bits_hdr]
    have h1 : (adv s 3).gotNum ((if f then 1 else 0) + 2 * ((if false then 1 else 0) + 2 * (if true then 1 else 0))) .hdr =
        ((adv s 3).withFinal f).to (.num 14 1 0 .counts) := by cases f <;> rfl
    rw [h1, bits_header hd lit dist h, List.length_append, ← adv_adv]
    rfl

/-- A block in codes of its own begins: after the counts. -/
theorem bits_counts (s : St) (f : Bool) {v : Nat} (hv : v < 2 ^ 14) :
    (s.to (.num 3 1 0 .hdr)).bits ([f, false, true] ++ numBits 14 v) = ((adv (adv s 3) 14).withFinal f).gotNum v .counts := by
  rw [bits_append, bits_hdr]
  have h1 : (adv s 3).gotNum ((if f then 1 else 0) + 2 * ((if false then 1 else 0) + 2 * (if true then 1 else 0))) .hdr =
      ((adv s 3).withFinal f).to (.num 14 1 0 .counts) := by cases f <;> rfl
  rw [h1, bits_ask _ _ _ _ (by omega) hv]
  rfl

/-- A block in codes of its own begins: after the lengths of the code of lengths. -/
theorem bits_cl (s : St) (f : Bool) {v : Nat} {cl : List Nat} (hv : v < 2 ^ 14) (h1 : v % 32 + 257 ≤ 286) (h2 : v / 32 % 32 + 1 ≤ 30)
    (h3 : cl.length = v / 1024 + 4) (h4 : ∀ x ∈ cl, x < 8) :
    ∃ s1, (s.to (.num 3 1 0 .hdr)).bits ([f, false, true] ++ numBits 14 v ++ cl.flatMap (numBits 3)) =
      St.toBook s1 (v % 32 + 257) (v / 32 % 32 + 1) cl := by
  have h5 := bits_clen (v % 32 + 257) (v / 32 % 32 + 1) cl [] ((adv (adv s 3) 14).withFinal f) (by intro h; simp [h] at h3) h4
  rw [bits_append, bits_counts s f hv, gotCounts h1 h2, ← h3, h5, List.nil_append]
  exact ⟨_, rfl⟩

end Verif.Go.Deflate
