import Verif.Lineproto.ZlibBroken

/-!
# Compressed sections that break the format are refused (C121)
-/

namespace Verif.Props.ZlibRefuse

open Verif.Lineproto Verif.Go.Inflate Verif.Go.Deflate

/-- Bits that may not be at the beginning of a block, after `pos` bits of blocks that say `h` (last byte first). -/
inductive Broken (h : Bytes) (pos : Nat) : List Bool → Prop
  /-- The kind of the block is the one that is reserved. -/
  | reserved (f : Bool) : Broken h pos [f, true, true]
  /-- The length of a stored block and its complement do not fit. -/
  | length (f : Bool) (pad : List Bool) (l n : Nat) (hp : pad.length = (8 - (pos + 3) % 8) % 8) (hl : l < 2 ^ 16) (hn : n < 2 ^ 16)
      (hne : l + n ≠ 65535) : Broken h pos ([f, false, false] ++ pad ++ numBits 16 l ++ numBits 16 n)
  /-- A reference goes back to before the first byte. -/
  | far (f : Bool) (lit dist : Book) (bs : List Bool) (ts : List Tok) (len d : Nat) (ho : Opens f lit dist bs) (hts : toksOk h ts)
      (hs : ∀ t ∈ ts ++ [.ref len d], t.Said lit dist) (h1 : 3 ≤ len) (h2 : len ≤ 258) (h3 : d ≤ 32768)
      (h4 : (ts.foldl Tok.eval h).length < d) :
      Broken h pos (bs ++ ts.flatMap (Tok.bits lit dist) ++ (Tok.ref len d).bits lit dist)
  /-- One of the two symbols that stand for nothing. -/
  | symbol (f : Bool) (ts : List Tok) (v : Nat) (hts : toksOk h ts) (hv : v = 286 ∨ v = 287) :
      Broken h pos ([f, true, false] ++ ts.flatMap (Tok.bits fixedLit fixedDist) ++ wordBits (Book.key fixedLit v))
  /-- One of the two distances that stand for nothing. -/
  | distance (f : Bool) (ts : List Tok) (len v : Nat) (hts : toksOk h ts) (h1 : 3 ≤ len) (h2 : len ≤ 258) (hv : v = 30 ∨ v = 31) :
      Broken h pos ([f, true, false] ++ ts.flatMap (Tok.bits fixedLit fixedDist) ++ (wordBits (Book.key fixedLit (lenSym len)) ++
        numBits (lenBase (lenSym len)).2 (len - (lenBase (lenSym len)).1)) ++ wordBits (Book.key fixedDist v))
  /-- Too many symbols or distances in a code. -/
  | counts (f : Bool) (v : Nat) (hv : v < 2 ^ 14) (h1 : 286 < v % 32 + 257 ∨ 30 < v / 32 % 32 + 1) :
      Broken h pos ([f, false, true] ++ numBits 14 v)
  /-- The lengths of the code of lengths give no code. -/
  | lengths (f : Bool) (v : Nat) (cl : List Nat) (hv : v < 2 ^ 14) (h1 : v % 32 + 257 ≤ 286) (h2 : v / 32 % 32 + 1 ≤ 30)
      (h3 : cl.length = v / 1024 + 4) (h4 : ∀ x ∈ cl, x < 8) (hb : mkBook (clens cl) = none) :
      Broken h pos ([f, false, true] ++ numBits 14 v ++ cl.flatMap (numBits 3))
  /-- The lengths of one of the codes of a block give no code. -/
  | codes (f : Bool) (v : Nat) (cl : List Nat) (b : Book) (os : List LenOp) (hv : v < 2 ^ 14) (h1 : v % 32 + 257 ≤ 286)
      (h2 : v / 32 % 32 + 1 ≤ 30) (h3 : cl.length = v / 1024 + 4) (h4 : ∀ x ∈ cl, x < 8) (hb : mkBook (clens cl) = some b)
      (ho : opsOk b [] os) (hlen : (os.foldl LenOp.eval []).length = v % 32 + 257 + (v / 32 % 32 + 1))
      (hno : mkBook ((os.foldl LenOp.eval []).take (v % 32 + 257)) = none ∨ mkBook ((os.foldl LenOp.eval []).drop (v % 32 + 257)) = none) :
      Broken h pos ([f, false, true] ++ numBits 14 v ++ cl.flatMap (numBits 3) ++ os.flatMap (LenOp.bits b))
  /-- The first length is to be repeated, but there is none. -/
  | again (f : Bool) (v : Nat) (cl : List Nat) (b : Book) (hv : v < 2 ^ 14) (h1 : v % 32 + 257 ≤ 286)
      (h2 : v / 32 % 32 + 1 ≤ 30) (h3 : cl.length = v / 1024 + 4) (h4 : ∀ x ∈ cl, x < 8) (hb : mkBook (clens cl) = some b)
      (hw : HasWord b 16) : Broken h pos ([f, false, true] ++ numBits 14 v ++ cl.flatMap (numBits 3) ++ wordBits (Book.key b 16))
  /-- A repetition goes beyond the last length. -/
  | over (f : Bool) (v : Nat) (cl : List Nat) (b : Book) (os : List LenOp) (o : LenOp) (hv : v < 2 ^ 14) (h1 : v % 32 + 257 ≤ 286)
      (h2 : v / 32 % 32 + 1 ≤ 30) (h3 : cl.length = v / 1024 + 4) (h4 : ∀ x ∈ cl, x < 8) (hb : mkBook (clens cl) = some b)
      (ho : opsOk b [] (os ++ [o])) (hlt : (os.foldl LenOp.eval []).length < v % 32 + 257 + (v / 32 % 32 + 1))
      (hov : v % 32 + 257 + (v / 32 % 32 + 1) < (o.eval (os.foldl LenOp.eval [])).length) :
      Broken h pos ([f, false, true] ++ numBits 14 v ++ cl.flatMap (numBits 3) ++ os.flatMap (LenOp.bits b) ++ o.bits b)

theorem opsOk_split {b : Book} {o : LenOp} : ∀ (os : List LenOp) (got : List Nat), opsOk b got (os ++ [o]) →
    opsOk b got os ∧ o.Ok (os.foldl LenOp.eval got) ∧ HasWord b o.sym := by
  intro os
  induction os with
  | nil => intro got h; exact ⟨trivial, h.1, h.2.1⟩
  | cons x os ih => intro got h; exact ⟨⟨h.1, h.2.1, (ih _ h.2.2).1⟩, (ih _ h.2.2).2⟩

theorem toLens_fail {s : St} {nlit ndist : Nat} {b : Book} {lens : List Nat} (h0 : lens.length = nlit + ndist)
    (h : mkBook (lens.take nlit) = none ∨ mkBook (lens.drop nlit) = none) : (s.toLens nlit ndist b lens).mode = .fail corrupt := by
  unfold St.toLens
  rw [if_neg (by omega)]
  rcases h with h | h
  · rw [h]; rfl
  · rw [h]
    cases mkBook (lens.take nlit) <;> rfl

/-- The decompressor is at the beginning of a block, and stops. -/
theorem broken_fails {h : Bytes} {pos : Nat} {bits : List Bool} (hb : Broken h pos bits) (s : St) (hp : s.pos = pos) (hh : s.hist = h) :
    ((s.to (.num 3 1 0 .hdr)).bits bits).mode = .fail corrupt := by
  subst hp hh
  have hfl := mkBook_good fixedLit_mk
  have hfd := mkBook_good fixedDist_mk
  cases hb with
  | reserved f => rw [bits_hdr]; cases f <;> rfl
  | length f pad l n hp hl hn hne =>
    rw [List.append_assoc, List.append_assoc, bits_append, bits_hdr]
    have h1 : (adv s 3).gotNum ((if f then 1 else 0) + 2 * ((if false then 1 else 0) + 2 * (if false then 1 else 0))) .hdr =
        ((adv s 3).withFinal f).toStored := by cases f <;> rfl
    rw [h1, bits_append, bits_any_pad _ pad (by exact hp), bits_append, bits_ask _ _ _ _ (by omega) hl]
    simp only [St.gotNum]
    rw [bits_ask _ _ _ _ (by omega) hn]
    simp only [St.gotNum]
    rw [if_pos hne]
    rfl
  | far f lit dist bs ts len d ho hts hs h1 h2 h3 h4 =>
    obtain ⟨gl, gd, hb⟩ := ho.bits s
    rw [bits_append, bits_append, hb, bits_some_toks gl gd ts _ (by exact hts) (fun t ht => hs t (by simp [ht]))]
    exact bits_far gl gd _ h1 h2 h3 (by exact h4) (hs _ (by simp))
  | symbol f ts v hts hv =>
    obtain ⟨gl, gd, hb⟩ := (Opens.fixed (f := f)).bits s
    rw [bits_append, bits_append, hb, bits_some_toks gl gd ts _ (by exact hts) (fixed_said_all ts _ hts)]
    exact bits_no_symbol gl _ (by omega) (hasWord_of_any (fixedLit_any _ (by omega)))
  | distance f ts len v hts h1 h2 hv =>
    obtain ⟨gl, gd, hb⟩ := (Opens.fixed (f := f)).bits s
    obtain ⟨a1, a2, a3, a4⟩ := lenSym_spec len (by omega) h1
    rw [bits_append, bits_append _ _ (_ ++ _), bits_append _ [f, true, false], hb,
      bits_some_toks gl gd ts _ (by exact hts) (fixed_said_all ts _ hts), bits_len gl _ h1 h2 (hasWord_of_any (fixedLit_any _ (by omega)))]
    exact bits_no_distance gd _ (by omega) (hasWord_of_any (fixedDist_any _ (by omega)))
  | counts f v hv h1 =>
    rw [bits_counts s f hv]
    simp only [St.gotNum]
    by_cases h2 : 286 < v % 32 + 257
    · rw [if_pos h2]; rfl
    · rw [if_neg h2, if_pos (h1.resolve_left h2)]; rfl
  | lengths f v cl hv h1 h2 h3 h4 hb =>
    obtain ⟨s1, e⟩ := bits_cl s f hv h1 h2 h3 h4
    rw [e]
    unfold St.toBook
    rw [hb]
    rfl
  | codes f v cl b os hv h1 h2 h3 h4 hb ho hlen hno =>
    obtain ⟨s1, e⟩ := bits_cl s f hv h1 h2 h3 h4
    rw [bits_append, e, toBook_some hb, bits_ops (mkBook_good hb) _ _ _ _ _ ho (Nat.le_of_eq hlen)]
    exact toLens_fail hlen hno
  | again f v cl b hv h1 h2 h3 h4 hb hw =>
    obtain ⟨s1, e⟩ := bits_cl s f hv h1 h2 h3 h4
    rw [bits_append, e, toBook_some hb]
    have h0 : s1.toLens (v % 32 + 257) (v / 32 % 32 + 1) b [] = s1.toWord b (.clen (v % 32 + 257) (v / 32 % 32 + 1) []) := by
      rw [St.toLens, if_pos (by rw [List.length_nil]; omega)]
    rw [h0, bits_sym (mkBook_good hb) hw]
    rfl
  | over f v cl b os o hv h1 h2 h3 h4 hb ho hlt hov =>
    obtain ⟨s1, e⟩ := bits_cl s f hv h1 h2 h3 h4
    obtain ⟨ho1, ho2, ho3⟩ := opsOk_split os [] ho
    have hg := mkBook_good hb
    rw [bits_append, bits_append, e, toBook_some hb, bits_ops hg _ _ _ _ _ ho1 (Nat.le_of_lt hlt)]
    generalize adv s1 _ = s2
    generalize os.foldl LenOp.eval [] = got at *
    have h0 : s2.toLens (v % 32 + 257) (v / 32 % 32 + 1) b got = s2.toWord b (.clen (v % 32 + 257) (v / 32 % 32 + 1) got) := by
      rw [St.toLens, if_pos hlt]
    rw [h0]
    cases o with
    | len n => simp [LenOp.eval] at hov; omega
    | again t =>
      obtain ⟨k1, k2, k3⟩ := ho2
      simp only [LenOp.eval, List.length_append, List.length_replicate] at hov
      rw [LenOp.bits, bits_append, bits_sym hg (by exact ho3)]
      simp only [St.gotSym]
      rw [if_neg (by simp), if_pos trivial, if_neg (by simpa using k3), bits_ask _ _ _ _ (by omega) (by omega)]
      simp only [St.gotNum]
      rw [if_pos (by omega)]
      rfl
    | zeros t =>
      obtain ⟨k1, k2⟩ := ho2
      simp only [LenOp.eval, List.length_append, List.length_replicate] at hov
      rw [LenOp.bits, bits_append, bits_sym hg (by exact ho3)]
      simp only [St.gotSym]
      rw [if_neg (by simp), if_neg (by simp), if_pos trivial, bits_ask _ _ _ _ (by omega) (by omega)]
      simp only [St.gotNum]
      rw [if_pos (by omega)]
      rfl
    | manyZeros t =>
      obtain ⟨k1, k2⟩ := ho2
      simp only [LenOp.eval, List.length_append, List.length_replicate] at hov
      rw [LenOp.bits, bits_append, bits_sym hg (by exact ho3)]
      simp only [St.gotSym]
      rw [if_neg (by decide), if_neg (by decide), if_neg (by decide), bits_ask _ _ _ _ (by omega) (by omega)]
      simp only [St.gotNum]
      rw [if_pos (by omega)]
      rfl

/-- **C121.** A section with a proper header, some proper blocks and then something that breaks the format is refused, whatever follows: it is
no stream, and the decompressor reports corrupt data. -/
theorem broken_refused {h1 h2 : Byte} {z : St} (hh : zlibInflater.header h1 h2 = .ok z) (bs : List Block) (hbs : blocksOk [] bs)
    (bits rest : List Bool) (hb : Broken (evalAll [] bs) (blocksBits 0 bs).length bits) (body : Bytes)
    (hbody : dataBits body = blocksBits 0 bs ++ bits ++ rest) :
    inflate zlibInflater z body = none ∧ zlibInflater.status (z.bits (dataBits body)) = .failed (.other corrupt) := by
  have hz : z = St.start := by
    have hh' : zlibHeader h1 h2 = .ok z := hh
    unfold zlibHeader at hh'
    split at hh'
    · cases hh'
    · split at hh'
      · cases hh'
      · cases hh'; rfl
  subst hz
  have hm : (St.start.bits (dataBits body)).mode = .fail corrupt := by
    rw [hbody, bits_append, bits_append, start_blocks hbs]
    have := broken_fails hb (⟨(blocksBits 0 bs).length, false, evalAll [] bs, .done⟩ : St) rfl rfl
    have h3 : (St.bits ⟨(blocksBits 0 bs).length, false, evalAll [] bs, .num 3 1 0 .hdr⟩ bits).mode = .fail corrupt := this
    rw [bits_fail h3]
    exact h3
  constructor
  · cases hi : inflate zlibInflater St.start body with
    | none => rfl
    | some out => rw [inflate_mode _ _ _ hi] at hm; cases hm
  · show zlibStatus _ = _
    unfold zlibStatus
    rw [hm]

/-- After a stored block: a reference to the byte before the first one. -/
example : blocksOk [] [.stored b!"ab"] ∧ Broken (evalAll [] [.stored b!"ab"]) (blocksBits 0 [.stored b!"ab"]).length
    ([true, true, false] ++ [Tok.lit 99].flatMap (Tok.bits fixedLit fixedDist) ++ (Tok.ref 3 4).bits fixedLit fixedDist) := by
  refine ⟨⟨by simp [Block.Ok], trivial⟩, .far true fixedLit fixedDist _ [.lit 99] 3 4 .fixed ⟨trivial, trivial⟩ ?_ (by omega) (by omega)
    (by omega) (by decide)⟩
  intro t ht
  simp at ht
  rcases ht with rfl | rfl
  · exact hasWord_of_any (fixedLit_any _ (by decide))
  · exact ⟨hasWord_of_any (fixedLit_any _ (by decide)), hasWord_of_any (fixedDist_any _ (by decide))⟩

/-- The reserved kind, whatever follows. -/
example : dataBits [0x07, 0x55] = blocksBits 0 [] ++ [true, true, true] ++ (dataBits [0x07, 0x55]).drop 3 ∧
    Broken [] 0 [true, true, true] := ⟨by decide, .reserved true⟩

/-- Codes of lengths that leave a gap, or that need more words than there are. -/
example : mkBook (clens [0, 0, 1, 2]) = none ∧ mkBook (clens [1, 1, 1, 0]) = none := by decide

/-- Counts: 288 symbols. -/
example : Broken [] 0 ([false, false, true] ++ numBits 14 31) := .counts false 31 (by decide) (.inl (by decide))

/-! ### The header, and the end -/

/-- **C121.** The header of a section is accepted if and only if it names the method DEFLATE, a window of at most 32 KiB and no dictionary,
and is a multiple of 31. -/
theorem header_iff (a b : Byte) : (∃ z, zlibInflater.header a b = .ok z) ↔
    a.toNat % 16 = 8 ∧ a.toNat / 16 ≤ 7 ∧ b.toNat / 32 % 2 = 0 ∧ (256 * a.toNat + b.toNat) % 31 = 0 := by
  show (∃ z, zlibHeader a b = .ok z) ↔ _
  unfold zlibHeader
  split
  · rename_i h
    constructor
    · rintro ⟨z, hz⟩; cases hz
    · intro h'; omega
  · split
    · constructor
      · rintro ⟨z, hz⟩; cases hz
      · intro h'; omega
    · exact ⟨fun _ => by omega, fun _ => ⟨_, rfl⟩⟩

/-- **C121.** A section has one end: no part at its beginning is a section, and none that is longer. -/
theorem one_end {z : St} {p q out out' : Bytes} (h1 : inflate zlibInflater z p = some out) (h2 : inflate zlibInflater z (p ++ q) = some out') :
    q = [] := by
  induction p generalizing z out out' with
  | nil =>
    unfold inflate at h1
    split at h1
    · rename_i hd
      cases q with
      | nil => rfl
      | cons c q =>
        rw [List.nil_append] at h2
        unfold inflate at h2
        rw [if_neg (by rw [hd]; simp)] at h2
        cases h2
    · cases h1
  | cons c p ih =>
    rw [List.cons_append] at h2
    unfold inflate at h1 h2
    split at h1
    · rename_i hr
      rw [if_pos hr] at h2
      cases e1 : inflate zlibInflater (zlibInflater.step z c).1 p with
      | none => rw [e1] at h1; cases h1
      | some o1 =>
        cases e2 : inflate zlibInflater (zlibInflater.step z c).1 (p ++ q) with
        | none => rw [e2] at h2; cases h2
        | some o2 => exact ih e1 e2
    · cases h1

example : (inflate zlibInflater St.start [0x4b, 0xac, 0x01, 0x00, 0x01, 0x40, 0x00, 0xde]).isSome := by decide +kernel

end Verif.Props.ZlibRefuse
