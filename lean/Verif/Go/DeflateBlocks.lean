import Verif.Go.DeflateLemmas
import Verif.Go.DeflateTables

/-!
# The decompressor reads the blocks that a compressor writes
-/

namespace Verif.Go.Deflate

open Verif.Go.Inflate

theorem HasWord.ne_nil {b : Book} {v : Nat} (h : HasWord b v) : b ≠ [] := by
  obtain ⟨k, hk⟩ := h
  intro h0
  simp [h0] at hk

theorem toWord_ne {b : Book} (h : b ≠ []) (s : St) (k : Sym) : s.toWord b k = s.to (.word b 1 k) := by
  cases b with
  | nil => exact absurd rfl h
  | cons _ _ => rfl

/-- The word of a symbol. -/
theorem bits_sym {b : Book} (hg : Book.Good b) {v : Nat} (hv : HasWord b v) (s : St) (k : Sym) :
    (s.toWord b k).bits (wordBits (Book.key b v)) = (adv s (wordBits (Book.key b v)).length).gotSym b v k := by
  rw [toWord_ne hv.ne_nil, bits_walk b k v _ 1 _ (walk_key hg hv) rfl, adv_to, gotSym_to]

theorem adv_zero (s : St) : adv s 0 = s := rfl

theorem numBits_length (n v : Nat) : (numBits n v).length = n := by
  induction n generalizing v with
  | zero => rfl
  | succ n ih => simp [numBits, ih]

/-- A number. -/
theorem bits_ask (s : St) (n x : Nat) (k : Num) (h0 : n ≠ 0) (hx : x < 2 ^ n) :
    (s.to (.num n 1 0 k)).bits (numBits n x) = (adv s n).gotNum x k := by
  obtain ⟨m, rfl⟩ := Nat.exists_eq_succ_of_ne_zero h0
  rw [bits_num m _ 1 0 x k hx rfl, adv_to, gotNum_to]
  simp

/-- The symbol and the extra bits of a length. -/
theorem bits_len {lit dist : Book} (hg : Book.Good lit) (s : St) {len : Nat} (h1 : 3 ≤ len) (h2 : len ≤ 258)
    (hw : HasWord lit (lenSym len)) :
    (s.toLit lit dist).bits (wordBits (Book.key lit (lenSym len)) ++
        numBits (lenBase (lenSym len)).2 (len - (lenBase (lenSym len)).1)) =
      (adv s (wordBits (Book.key lit (lenSym len)) ++
        numBits (lenBase (lenSym len)).2 (len - (lenBase (lenSym len)).1)).length).toDist lit dist len := by
  obtain ⟨a1, a2, a3, a4⟩ := lenSym_spec len (by omega) h1
  rw [bits_append, St.toLit, bits_sym hg hw, List.length_append, numBits_length]
  generalize hn : (wordBits (Book.key lit (lenSym len))).length = n
  simp only [St.gotSym]
  rw [if_neg (by omega), if_neg (by omega), if_neg (by omega)]
  by_cases h0 : (lenBase (lenSym len)).2 = 0
  · rw [if_pos h0]
    rw [h0] at a4 ⊢
    rw [numBits, bits_nil, show (lenBase (lenSym len)).1 = len by omega]
    rfl
  · rw [if_neg h0, bits_ask _ _ _ _ h0 a4, adv_adv]
    simp only [St.gotNum]
    congr 1
    omega

/-- The symbol and the extra bits of a distance. -/
theorem bits_dist {lit dist : Book} (hg : Book.Good dist) (s : St) {len d : Nat} (h1 : 1 ≤ d) (h2 : d ≤ 32768)
    (hd : d ≤ s.hist.length) (hw : HasWord dist (distSym d)) :
    (s.toDist lit dist len).bits (wordBits (Book.key dist (distSym d)) ++
        numBits (distBase (distSym d)).2 (d - (distBase (distSym d)).1)) =
      ((adv s (wordBits (Book.key dist (distSym d)) ++
        numBits (distBase (distSym d)).2 (d - (distBase (distSym d)).1)).length).withHist (copyBack d len s.hist)).toLit lit dist := by
  obtain ⟨a2, a3, a4⟩ := distSym_spec d h1 h2
  rw [bits_append, St.toDist, bits_sym hg hw, List.length_append, numBits_length]
  generalize hn : (wordBits (Book.key dist (distSym d))).length = n
  simp only [St.gotSym]
  rw [if_neg (by omega)]
  by_cases h0 : (distBase (distSym d)).2 = 0
  · rw [if_pos h0]
    rw [h0] at a4 ⊢
    rw [numBits, bits_nil, show (distBase (distSym d)).1 = d by omega, St.ref, if_pos (by exact hd)]
    rfl
  · rw [if_neg h0, bits_ask _ _ _ _ h0 a4, adv_adv]
    simp only [St.gotNum]
    rw [show (distBase (distSym d)).1 + (d - (distBase (distSym d)).1) = d by omega, St.ref, if_pos (by exact hd)]
    rfl

theorem withHist_to (s : St) (m : Mode) (h : Bytes) : (s.to m).withHist h = (s.withHist h).to m := rfl

/-- A token. -/
theorem bits_tok {lit dist : Book} (hl : Book.Good lit) (hd : Book.Good dist) (s : St) (t : Tok) (ho : t.Ok s.hist)
    (hs : t.Said lit dist) :
    (s.toLit lit dist).bits (t.bits lit dist) = ((adv s (t.bits lit dist).length).withHist (t.eval s.hist)).toLit lit dist := by
  cases t with
  | lit c =>
    rw [Tok.bits, St.toLit, bits_sym hl hs]
    simp only [St.gotSym, Tok.eval]
    rw [if_pos c.toNat_lt, UInt8.ofNat_toNat]
    rfl
  | ref len d =>
    obtain ⟨h1, h2, h3, h4, h5⟩ := ho
    rw [Tok.bits, bits_append, bits_len hl s h1 h2 hs.1]
    refine (bits_dist hd (adv s _) h3 h4 h5 hs.2).trans ?_
    rw [adv_adv, ← List.length_append]
    rfl

theorem adv_withHist (s : St) (n : Nat) (h : Bytes) : adv (s.withHist h) n = (adv s n).withHist h := rfl

/-- The tokens of a block. -/
theorem bits_toks {lit dist : Book} (hl : Book.Good lit) (hd : Book.Good dist) (h256 : HasWord lit 256) : ∀ (ts : List Tok) (s : St),
    toksOk s.hist ts → (∀ t ∈ ts, t.Said lit dist) →
    (s.toLit lit dist).bits (toksBits lit dist ts) =
      ((adv s (toksBits lit dist ts).length).withHist (ts.foldl Tok.eval s.hist)).endBlock := by
  intro ts
  induction ts with
  | nil =>
    intro s _ _
    rw [toksBits, List.flatMap_nil, List.nil_append, St.toLit, bits_sym hl h256]
    simp only [St.gotSym]
    rfl
  | cons t ts ih =>
    intro s ho hs
    rw [toksBits, List.flatMap_cons, List.append_assoc, bits_append, bits_tok hl hd s t ho.1 (hs t (by simp))]
    have := ih ((adv s (t.bits lit dist).length).withHist (t.eval s.hist)) ho.2 (fun t' h' => hs t' (by simp [h']))
    rw [toksBits] at this
    rw [this, adv_withHist, adv_adv, ← List.length_append]
    rfl

/-! ### Stored blocks -/

theorem numBits_zero (n : Nat) : numBits n 0 = List.replicate n false := by
  induction n with
  | zero => rfl
  | succ n ih => simp [numBits, ih, List.replicate_succ]

theorem bits_pad (s : St) : s.toStored.bits (padBits s.pos) = (adv s (padBits s.pos).length).to (.num 16 1 0 .len) := by
  unfold padBits St.toStored
  rw [List.length_replicate]
  show (if s.rest = 0 then s.to (.num 16 1 0 .len) else s.to (.num s.rest 1 0 .skip)).bits (List.replicate s.rest false) =
    (adv s s.rest).to (.num 16 1 0 .len)
  split
  · rename_i h
    rw [h]; rfl
  · rename_i h
    rw [← numBits_zero, bits_ask _ _ _ _ h (Nat.two_pow_pos _)]
    rfl

theorem bitsOf_eq : ∀ c : Byte, bitsOf c = numBits 8 c.toNat := by
  apply forall_byte
  decide +kernel

theorem dataBits_length (p : Bytes) : (dataBits p).length = 8 * p.length := by
  induction p with
  | nil => rfl
  | cons c p ih =>
    have : dataBits (c :: p) = bitsOf c ++ dataBits p := by simp [dataBits]
    rw [this, List.length_append, ih]
    simp [bitsOf]
    omega

theorem dataBits_cons (c : Byte) (p : Bytes) : dataBits (c :: p) = bitsOf c ++ dataBits p := by simp [dataBits]

theorem dataBits_append (p q : Bytes) : dataBits (p ++ q) = dataBits p ++ dataBits q := by simp [dataBits]

theorem bits_copy (p : Bytes) : ∀ (s : St), p ≠ [] → (s.to (.num 8 1 0 (.copy p.length))).bits (dataBits p) =
    ((adv s (dataBits p).length).withHist (p.reverse ++ s.hist)).endBlock := by
  induction p with
  | nil => intro s h; exact absurd rfl h
  | cons c p ih =>
    intro s _
    rw [dataBits_cons, bits_append, bitsOf_eq, bits_ask _ _ _ _ (by omega) c.toNat_lt]
    simp only [St.gotNum, UInt8.ofNat_toNat]
    cases p with
    | nil =>
      rw [if_pos (by simp)]
      simp [dataBits, bits_nil, numBits_length]
      rfl
    | cons d p =>
      rw [if_neg (by simp)]
      have h1 := ih ((adv s 8).withHist (c :: s.hist)) (by simp)
      rw [show (c :: d :: p).length - 1 = (d :: p).length by simp]
      have h2 : (adv s 8).hist = s.hist := rfl
      rw [h2, h1, adv_withHist, adv_adv, List.length_append, numBits_length]
      simp only [List.reverse_cons, List.append_assoc, List.singleton_append]
      rfl

theorem bits_stored (p : Bytes) (hp : p.length ≤ 65535) (s : St) :
    (s.to (.num 16 1 0 .len)).bits (numBits 16 p.length ++ numBits 16 (65535 - p.length) ++ dataBits p) =
      ((adv s (32 + (dataBits p).length)).withHist (p.reverse ++ s.hist)).endBlock := by
  rw [bits_append, bits_append, bits_ask _ _ _ _ (by omega) (by omega)]
  simp only [St.gotNum]
  rw [bits_ask _ _ _ _ (by omega) (by omega)]
  simp only [St.gotNum, adv_adv]
  rw [if_neg (by omega)]
  split
  · rename_i h
    have : p = [] := List.length_eq_zero_iff.mp h
    subst this
    rfl
  · rename_i h
    rw [bits_copy p _ (by intro h0; simp [h0] at h), adv_adv]
    rfl

/-! ### Codes in the stream -/

theorem bits_clen (nlit ndist : Nat) : ∀ (cl got : List Nat) (s : St), cl ≠ [] → (∀ x ∈ cl, x < 8) →
    (s.to (.num 3 1 0 (.clen nlit ndist cl.length got))).bits (cl.flatMap (numBits 3)) =
      (adv s (cl.flatMap (numBits 3)).length).toBook nlit ndist (got ++ cl) := by
  intro cl
  induction cl with
  | nil => intro got s h; exact absurd rfl h
  | cons x cl ih =>
    intro got s _ hx
    have hx0 := hx x (by simp)
    rw [List.flatMap_cons, bits_append, bits_ask _ _ _ _ (by omega) (by omega)]
    simp only [St.gotNum]
    cases cl with
    | nil =>
      rw [if_neg (by simp)]
      simp only [List.flatMap_nil, bits_nil, List.append_nil, numBits_length]
    | cons y cl =>
      rw [if_pos (by simp)]
      have h1 := ih (got ++ [x]) (adv s 3) (by simp) (fun z hz => hx z (by simp [hz]))
      rw [show (x :: y :: cl).length - 1 = (y :: cl).length by simp, h1]
      simp only [adv_adv, List.length_append, numBits_length, List.append_assoc, List.singleton_append]

theorem LenOp.eval_length_le (o : LenOp) (got : List Nat) : got.length ≤ (o.eval got).length := by
  cases o <;> simp [LenOp.eval]

theorem ops_length_le (os : List LenOp) : ∀ got : List Nat, got.length ≤ (os.foldl LenOp.eval got).length := by
  induction os with
  | nil => intro got; exact Nat.le_refl _
  | cons o os ih => intro got; exact Nat.le_trans (o.eval_length_le got) (ih _)

theorem LenOp.eval_length_lt (o : LenOp) (got : List Nat) (h : o.Ok got) : got.length < (o.eval got).length := by
  cases o <;> simp [LenOp.eval, LenOp.Ok] at h ⊢ <;> omega

theorem bits_op {b : Book} (hg : Book.Good b) (nlit ndist : Nat) (s : St) (got : List Nat) (o : LenOp) (ho : o.Ok got)
    (hw : HasWord b o.sym) (hl : (o.eval got).length ≤ nlit + ndist) :
    (s.toLens nlit ndist b got).bits (o.bits b) = (adv s (o.bits b).length).toLens nlit ndist b (o.eval got) := by
  have hlt := o.eval_length_lt got ho
  have h0 : s.toLens nlit ndist b got = s.toWord b (.clen nlit ndist got) := by
    rw [St.toLens, if_pos (by omega)]
  rw [h0]
  cases o with
  | len n =>
    replace hw : HasWord b n := hw
    replace ho : n < 16 := ho
    rw [LenOp.bits, bits_sym hg hw]
    simp only [St.gotSym]
    rw [if_pos ho]
    rfl
  | again t =>
    replace hw : HasWord b 16 := hw
    obtain ⟨h1, h2, h3⟩ := ho
    simp only [LenOp.eval, List.length_append, List.length_replicate] at hl
    rw [LenOp.bits, bits_append, bits_sym hg hw]
    simp only [St.gotSym]
    rw [if_neg (by simp), if_pos trivial, if_neg (by simpa using h3), bits_ask _ _ _ _ (by omega) (by omega)]
    simp only [St.gotNum, adv_adv]
    rw [show 3 + (t - 3) = t by omega, if_neg (by omega), List.length_append, numBits_length]
    rfl
  | zeros t =>
    replace hw : HasWord b 17 := hw
    obtain ⟨h1, h2⟩ := ho
    simp only [LenOp.eval, List.length_append, List.length_replicate] at hl
    rw [LenOp.bits, bits_append, bits_sym hg hw]
    simp only [St.gotSym]
    rw [if_neg (by simp), if_neg (by simp), if_pos trivial, bits_ask _ _ _ _ (by omega) (by omega)]
    simp only [St.gotNum, adv_adv]
    rw [show 3 + (t - 3) = t by omega, if_neg (by omega), List.length_append, numBits_length]
    rfl
  | manyZeros t =>
    replace hw : HasWord b 18 := hw
    obtain ⟨h1, h2⟩ := ho
    simp only [LenOp.eval, List.length_append, List.length_replicate] at hl
    rw [LenOp.bits, bits_append, bits_sym hg hw]
    simp only [St.gotSym]
    rw [if_neg (by decide), if_neg (by decide), if_neg (by decide), bits_ask _ _ _ _ (by omega) (by omega)]
    simp only [St.gotNum, adv_adv]
    rw [show 11 + (t - 11) = t by omega, if_neg (by omega), List.length_append, numBits_length]
    rfl

theorem bits_ops {b : Book} (hg : Book.Good b) (nlit ndist : Nat) : ∀ (os : List LenOp) (got : List Nat) (s : St), opsOk b got os →
    (os.foldl LenOp.eval got).length ≤ nlit + ndist →
    (s.toLens nlit ndist b got).bits (os.flatMap (LenOp.bits b)) =
      (adv s (os.flatMap (LenOp.bits b)).length).toLens nlit ndist b (os.foldl LenOp.eval got) := by
  intro os
  induction os with
  | nil => intros; rfl
  | cons o os ih =>
    intro got s ho hl
    obtain ⟨h1, h2, h3⟩ := ho
    have hle : (o.eval got).length ≤ nlit + ndist := Nat.le_trans (ops_length_le os _) hl
    rw [List.flatMap_cons, bits_append, bits_op hg nlit ndist s got o h1 h2 hle, ih _ _ h3 hl, adv_adv, ← List.length_append]
    rfl

theorem toLens_full {s : St} {nlit ndist : Nat} {b lit dist : Book} {lens : List Nat} (h0 : lens.length = nlit + ndist)
    (h1 : mkBook (lens.take nlit) = some lit) (h2 : mkBook (lens.drop nlit) = some dist) :
    s.toLens nlit ndist b lens = s.toLit lit dist := by
  unfold St.toLens
  rw [if_neg (by omega), h1, h2]

theorem toBook_some {s : St} {nlit ndist : Nat} {cl : List Nat} {b : Book} (h : mkBook (clens cl) = some b) :
    s.toBook nlit ndist cl = s.toLens nlit ndist b [] := by
  unfold St.toBook
  rw [h]

theorem gotCounts {s : St} {v : Nat} (h1 : v % 32 + 257 ≤ 286) (h2 : v / 32 % 32 + 1 ≤ 30) :
    s.gotNum v .counts = s.to (.num 3 1 0 (.clen (v % 32 + 257) (v / 32 % 32 + 1) (v / 1024 + 4) [])) := by
  simp only [St.gotNum]
  rw [if_neg (by omega), if_neg (by omega)]

theorem bits_header (hd : Header) (lit dist : Book) (h : hd.Ok lit dist) (s : St) :
    (s.to (.num 14 1 0 .counts)).bits hd.bits = (adv s hd.bits.length).toLit lit dist := by
  unfold Header.Ok at h
  obtain ⟨h1, h2, h3, h4, h5, h6, h7, hb, h8, h9, h10⟩ := h
  obtain ⟨b, hb, hops⟩ := hb
  have hbo : bookOf (clens hd.cl) = b := by unfold bookOf; rw [hb]; rfl
  unfold Header.bits
  rw [hbo]
  generalize hv : hd.nlit - 257 + 32 * (hd.ndist - 1) + 1024 * (hd.cl.length - 4) = v
  have e0 : v < 2 ^ 14 := by omega
  have e1 : v % 32 + 257 = hd.nlit := by omega
  have e2 : v / 32 % 32 + 1 = hd.ndist := by omega
  have e3 : v / 1024 + 4 = hd.cl.length := by omega
  have hne : hd.cl ≠ [] := by intro h0; rw [h0] at h5; exact absurd h5 (by decide)
  have hlen : (hd.ops.foldl LenOp.eval []).length ≤ hd.nlit + hd.ndist := Nat.le_of_eq h8
  rw [bits_append, bits_append, bits_ask _ _ _ _ (by omega) e0, gotCounts (by omega) (by omega), e1, e2, e3,
    bits_clen _ _ hd.cl [] _ hne h7, List.nil_append, toBook_some hb, bits_ops (mkBook_good hb) _ _ _ _ _ hops hlen]
  refine (toLens_full (lens := hd.lens) h8 h9 h10).trans ?_
  rw [adv_adv, adv_adv, List.length_append, List.length_append, numBits_length, Nat.add_assoc]

/-! ### Blocks -/

theorem hdr_bits (f b0 b1 : Bool) : [f, b0, b1] =
    numBits 3 ((if f then 1 else 0) + 2 * ((if b0 then 1 else 0) + 2 * (if b1 then 1 else 0))) := by
  cases f <;> cases b0 <;> cases b1 <;> rfl

theorem bits_hdr (s : St) (f b0 b1 : Bool) : (s.to (.num 3 1 0 .hdr)).bits [f, b0, b1] =
    (adv s 3).gotNum ((if f then 1 else 0) + 2 * ((if b0 then 1 else 0) + 2 * (if b1 then 1 else 0))) .hdr := by
  rw [hdr_bits, bits_ask _ _ _ _ (by omega)]
  cases f <;> cases b0 <;> cases b1 <;> decide

theorem fixed_said (t : Tok) (h : Bytes) (ho : t.Ok h) : t.Said fixedLit fixedDist := by
  cases t with
  | lit c => exact hasWord_of_any (fixedLit_any _ (by have := c.toNat_lt; omega))
  | ref len d =>
    obtain ⟨h1, h2, h3, h4, h5⟩ := ho
    have := lenSym_spec len (by omega) h1
    have := distSym_spec d h3 h4
    exact ⟨hasWord_of_any (fixedLit_any _ (by omega)), hasWord_of_any (fixedDist_any _ (by omega))⟩

theorem fixed_said_all (ts : List Tok) : ∀ h : Bytes, toksOk h ts → ∀ t ∈ ts, t.Said fixedLit fixedDist := by
  induction ts with
  | nil => intro h _ t ht; simp at ht
  | cons t ts ih =>
    intro h ho t' ht'
    rcases List.mem_cons.mp ht' with rfl | h1
    · exact fixed_said _ h ho.1
    · exact ih _ ho.2 t' h1

/-- The decompressor reads a block. -/
theorem bits_block (s : St) (f : Bool) (b : Block) (hb : b.Ok s.hist) :
    (s.to (.num 3 1 0 .hdr)).bits (b.bits s.pos f) =
      (((adv s (b.bits s.pos f).length).withFinal f).withHist (b.eval s.hist)).endBlock := by
  cases b with
  | stored p =>
    rw [Block.bits, List.append_assoc, List.append_assoc, List.append_assoc, bits_append, bits_hdr]
    have h1 : (adv s 3).gotNum ((if f then 1 else 0) + 2 * ((if false then 1 else 0) + 2 * (if false then 1 else 0))) .hdr =
        ((adv s 3).withFinal f).toStored := by cases f <;> rfl
    rw [h1, bits_append]
    have h2 := bits_pad ((adv s 3).withFinal f)
    have h3 : ((adv s 3).withFinal f).pos = s.pos + 3 := rfl
    rw [h3] at h2
    rw [h2, ← List.append_assoc, bits_stored p hb]
    simp only [List.length_append, numBits_length, List.length_cons, List.length_nil]
    rw [show (0 + 1 + 1 + 1 + ((padBits (s.pos + 3)).length + (16 + 16 + (dataBits p).length))) =
      3 + ((padBits (s.pos + 3)).length + (32 + (dataBits p).length)) by omega, ← adv_adv s, ← adv_adv (adv s 3)]
    rfl
  | fixed ts =>
    rw [Block.bits, bits_append, bits_hdr]
    have h1 : (adv s 3).gotNum ((if f then 1 else 0) + 2 * ((if true then 1 else 0) + 2 * (if false then 1 else 0))) .hdr =
        ((adv s 3).withFinal f).toLit fixedLit fixedDist := by cases f <;> rfl
    rw [h1]
    refine (bits_toks (mkBook_good fixedLit_mk) (mkBook_good fixedDist_mk) (hasWord_of_any (fixedLit_any _ (by omega))) ts
      ((adv s 3).withFinal f) hb (fixed_said_all ts _ hb)).trans ?_
    rw [List.length_append, ← adv_adv s]
    rfl
  | coded hd ts =>
    obtain ⟨ht, lit, dist, hh, h256, hs⟩ := hb
    have el : bookOf (hd.lens.take hd.nlit) = lit := by simp [bookOf, hh.2.2.2.2.2.2.2.2.2.1]
    have ed : bookOf (hd.lens.drop hd.nlit) = dist := by simp [bookOf, hh.2.2.2.2.2.2.2.2.2.2]
    rw [Block.bits, el, ed, bits_append, bits_append, bits_hdr]
    have h1 : (adv s 3).gotNum ((if f then 1 else 0) + 2 * ((if false then 1 else 0) + 2 * (if true then 1 else 0))) .hdr =
        ((adv s 3).withFinal f).to (.num 14 1 0 .counts) := by cases f <;> rfl
    rw [h1, bits_header hd lit dist hh]
    refine (bits_toks (mkBook_good hh.2.2.2.2.2.2.2.2.2.1) (mkBook_good hh.2.2.2.2.2.2.2.2.2.2) h256 ts
      (adv ((adv s 3).withFinal f) hd.bits.length) ht hs).trans ?_
    rw [List.length_append, List.length_append, ← adv_adv s, ← adv_adv s]
    rfl

/-- The decompressor reads some blocks. -/
theorem bits_blocks : ∀ (bs : List Block) (s : St), s.final = false → blocksOk s.hist bs →
    (s.to (.num 3 1 0 .hdr)).bits (blocksBits s.pos bs) =
      ((adv s (blocksBits s.pos bs).length).withHist (evalAll s.hist bs)).to (.num 3 1 0 .hdr) := by
  intro bs
  induction bs with
  | nil => intro s _ _; rfl
  | cons b bs ih =>
    intro s hf ho
    rw [blocksBits, bits_append, bits_block s false b ho.1, List.length_append, ← adv_adv s]
    exact ih (((adv s (b.bits s.pos false).length).withFinal false).withHist (b.eval s.hist)) rfl ho.2 |>.trans (by
      show _ = ((adv (adv s _) _).withHist _).to _
      have : (adv s (b.bits s.pos false).length).withFinal false = adv s (b.bits s.pos false).length := by
        simp [St.withFinal, adv, hf]
      rw [this]
      rfl)

end Verif.Go.Deflate
