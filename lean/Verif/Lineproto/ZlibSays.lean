import Verif.Lineproto.ZlibParse

/-!
# The decompressor reads what the format allows
-/

namespace Verif.Go.Deflate

open Verif.Go.Inflate Verif.Lineproto

theorem run_ext (s : St) (n v : Nat) (k : Num) (n0 : n ≠ 0) (hv : v < 2 ^ n) : (s.to (.num n 1 0 k)).bits (numBits n v) = (adv s n).gotNum v k :=
  bits_ask s n v k n0 hv

theorem run_ref {lit dist : Book} (hl : Book.Good lit) (hd : Book.Good dist) (s : St) {v x w y : Nat} (h1 : 257 ≤ v) (h2 : v ≤ 285)
    (hv : HasWord lit v) (hx : x < 2 ^ (lenBase v).2) (h3 : w ≤ 29) (hw : HasWord dist w) (hy : y < 2 ^ (distBase w).2)
    (hb : (distBase w).1 + y ≤ s.hist.length) :
    (s.toLit lit dist).bits
        (wordBits (Book.key lit v) ++ (numBits (lenBase v).2 x ++ (wordBits (Book.key dist w) ++ numBits (distBase w).2 y))) =
      ((adv s (wordBits (Book.key lit v) ++ (numBits (lenBase v).2 x ++ (wordBits (Book.key dist w) ++
        numBits (distBase w).2 y))).length).withHist (copyBack ((distBase w).1 + y) ((lenBase v).1 + x) s.hist)).toLit lit dist := by
  have step1 : ∀ s1 : St, (s1.toLit lit dist).bits (wordBits (Book.key lit v) ++ numBits (lenBase v).2 x) =
      (adv s1 (wordBits (Book.key lit v) ++ numBits (lenBase v).2 x).length).toDist lit dist ((lenBase v).1 + x) := by
    intro s1
    rw [bits_append, St.toLit, bits_sym hl hv, List.length_append, numBits_length, ← adv_adv]
    simp only [St.gotSym]
    rw [if_neg (by omega), if_neg (by omega), if_neg (by omega)]
    by_cases h0 : (lenBase v).2 = 0
    · rw [if_pos h0]
      rw [h0] at hx ⊢
      rw [show x = 0 by omega]
      rfl
    · rw [if_neg h0, run_ext _ _ _ _ h0 hx]
      rfl
  have step2 : ∀ (s1 : St) (len : Nat), s1.hist = s.hist →
      (s1.toDist lit dist len).bits (wordBits (Book.key dist w) ++ numBits (distBase w).2 y) =
      ((adv s1 (wordBits (Book.key dist w) ++ numBits (distBase w).2 y).length).withHist
        (copyBack ((distBase w).1 + y) len s.hist)).toLit lit dist := by
    intro s1 len hh
    have hr : ∀ s2 : St, s2.hist = s.hist → s2.ref lit dist len ((distBase w).1 + y) =
        (s2.withHist (copyBack ((distBase w).1 + y) len s.hist)).toLit lit dist := by
      intro s2 h
      unfold St.ref
      rw [h, if_pos hb]
    rw [bits_append, St.toDist, bits_sym hd hw, List.length_append, numBits_length, ← adv_adv]
    simp only [St.gotSym]
    rw [if_neg (by omega)]
    by_cases h0 : (distBase w).2 = 0
    · rw [if_pos h0]
      rw [h0] at hy
      have hy0 : y = 0 := by omega
      subst hy0
      rw [h0]
      exact hr _ hh
    · rw [if_neg h0, run_ext _ _ _ _ h0 hy]
      exact hr _ hh
  rw [← List.append_assoc, bits_append, step1, step2 (adv s _) _ rfl,
    List.length_append (as := wordBits (Book.key lit v) ++ numBits (lenBase v).2 x), ← adv_adv]

theorem run_toks {lit dist : Book} (hl : Book.Good lit) (hd : Book.Good dist) {h h' : Bytes} {a : List Bool} (ht : ToksSay lit dist h a h') :
    ∀ s : St, s.hist = h → (s.toLit lit dist).bits a = ((adv s a.length).withHist h').toLit lit dist := by
  induction ht with
  | nil h => intro s hs; subst hs; rfl
  | cons ht hts ih =>
    intro s hs
    subst hs
    rw [bits_append, List.length_append, ← adv_adv]
    cases ht with
    | lit c hw =>
      have h1 : (s.toLit lit dist).bits (wordBits (Book.key lit c.toNat)) =
          ((adv s (wordBits (Book.key lit c.toNat)).length).withHist (c :: s.hist)).toLit lit dist := by
        rw [St.toLit, bits_sym hl hw]
        simp only [St.gotSym]
        rw [if_pos (by have := c.toNat_lt; omega), UInt8.ofNat_toNat]
        rfl
      rw [h1, ih _ rfl]
      rfl
    | ref v x w y h1 h2 hv hx h3 hw hy hb =>
      rw [run_ref hl hd s h1 h2 hv hx h3 hw hy hb, ih _ rfl]
      rfl

theorem run_end {lit dist : Book} (hl : Book.Good lit) (h256 : HasWord lit 256) (s : St) :
    (s.toLit lit dist).bits (wordBits (Book.key lit 256)) = (adv s (wordBits (Book.key lit 256)).length).endBlock := by
  rw [St.toLit, bits_sym hl h256]
  simp only [St.gotSym]
  rw [if_neg (by omega), if_pos trivial]

theorem run_block {f : Bool} {a : List Bool} {h' : Bytes} (s : St) (hb : BlockSays f s.pos s.hist a h') :
    (s.to (.num 3 1 0 .hdr)).bits a = (((adv s a.length).withFinal f).withHist h').endBlock := by
  cases hb with
  | stored pad p hpad hp =>
    rw [bits_append, bits_hdr]
    have h1 : (adv s 3).gotNum ((if f then 1 else 0) + 2 * ((if false then 1 else 0) + 2 * (if false then 1 else 0))) .hdr =
        ((adv s 3).withFinal f).toStored := by cases f <;> rfl
    rw [h1, bits_append, bits_any_pad _ pad (by exact hpad), bits_stored p hp]
    have e : ([f, false, false] ++ (pad ++ (numBits 16 p.length ++ numBits 16 (65535 - p.length) ++ dataBits p))).length =
        3 + (pad.length + (32 + (dataBits p).length)) := by
      simp only [List.length_append, numBits_length, List.length_cons, List.length_nil]
    rw [e, ← adv_adv s, ← adv_adv (adv s 3)]
    rfl
  | fixed ts h' hts =>
    have gl := mkBook_good fixedLit_mk
    rw [bits_append, bits_hdr]
    have h1 : (adv s 3).gotNum ((if f then 1 else 0) + 2 * ((if true then 1 else 0) + 2 * (if false then 1 else 0))) .hdr =
        ((adv s 3).withFinal f).toLit fixedLit fixedDist := by cases f <;> rfl
    have e : ([f, true, false] ++ (ts ++ wordBits (Book.key fixedLit 256))).length = 3 + (ts.length + (wordBits (Book.key fixedLit 256)).length) := by
      simp only [List.length_append, List.length_cons, List.length_nil]
    rw [h1, bits_append, run_toks gl (mkBook_good fixedDist_mk) hts ((adv s 3).withFinal f) rfl,
      run_end gl (hasWord_of_any (fixedLit_any _ (by omega))), e, ← adv_adv s, ← adv_adv (adv s 3)]
    rfl
  | coded hd lit dist ts h' hhd h256 hts =>
    have hhd' := hhd
    unfold Header.Ok at hhd'
    obtain ⟨_, _, _, _, _, _, _, _, _, h9, h10⟩ := hhd'
    have gl := mkBook_good h9
    rw [bits_append, bits_hdr]
    have h1 : (adv s 3).gotNum ((if f then 1 else 0) + 2 * ((if false then 1 else 0) + 2 * (if true then 1 else 0))) .hdr =
        ((adv s 3).withFinal f).to (.num 14 1 0 .counts) := by cases f <;> rfl
    have e : ([f, false, true] ++ (hd.bits ++ (ts ++ wordBits (Book.key lit 256)))).length =
        3 + (hd.bits.length + (ts.length + (wordBits (Book.key lit 256)).length)) := by
      simp only [List.length_append, List.length_cons, List.length_nil]
    rw [h1, bits_append, bits_header hd lit dist hhd, bits_append, run_toks gl (mkBook_good h10) hts (adv ((adv s 3).withFinal f) hd.bits.length) rfl,
      run_end gl h256, e, ← adv_adv s, ← adv_adv (adv s 3), ← adv_adv (adv (adv s 3) _)]
    rfl

theorem run_stream {pos : Nat} {h h' : Bytes} {a : List Bool} (hs : StreamSays pos h a h') : ∀ s : St, s.pos = pos → s.hist = h →
    (s.to (.num 3 1 0 .hdr)).bits a = (((adv s a.length).withFinal true).withHist h').toSum := by
  induction hs with
  | last hb => intro s h1 h2; subst h1 h2; rw [run_block s hb]; rfl
  | more hb _ ih =>
    intro s h1 h2
    subst h1 h2
    rw [bits_append, run_block s hb, List.length_append, ← adv_adv]
    exact ih _ rfl rfl

end Verif.Go.Deflate
