import Verif.Lineproto.ZlibLemmas

/-!
# What the compressor writes and the decompressor reads
-/

namespace Verif.Lineproto

open Verif.Go.Inflate Verif.Go.Deflate

/-! ### Unfinished streams -/

theorem start_eq : St.start = (⟨0, false, [], .done⟩ : St).to (.num 3 1 0 .hdr) := rfl

theorem start_blocks {bs : List Block} (h : blocksOk [] bs) :
    St.start.bits (blocksBits 0 bs) = (⟨(blocksBits 0 bs).length, false, evalAll [] bs, .num 3 1 0 .hdr⟩ : St) := by
  rw [start_eq]
  refine (bits_blocks bs (⟨0, false, [], .done⟩ : St) rfl h).trans ?_
  simp [adv, St.withHist, St.to]

theorem runs_hdr (n : Nat) (f : Bool) (h : Bytes) : Runs ⟨n, f, h, .num 3 1 0 .hdr⟩ := rfl

/-- Blocks that end at a byte can be read. -/
theorem part_blocks {bs : List Block} {out : Bytes} (h : blocksOk [] bs) (ha : (blocksBits 0 bs).length % 8 = 0)
    (he : evalAll [] bs = out.reverse) : inflatePart zlibInflater St.start (packBytes (blocksBits 0 bs)) = some out := by
  apply part_bits
  · rw [pack_full ha, start_blocks h]; exact runs_hdr _ _ _
  · rw [pack_full ha, start_blocks h, he]; simp [St.start]

theorem aligned_end (bs : List Block) (d : Bytes) : (blocksBits 0 (bs ++ [.stored d])).length % 8 = 0 := by
  rw [blocks_bits_append, List.length_append]
  have := stored_aligned (0 + (blocksBits 0 bs).length) false d
  simp only [blocksBits, List.append_nil]
  omega

/-! ### Finished streams -/

theorem adler_lt (p : Bytes) : adler32 p < 2 ^ 32 := by
  have : ∀ (p : Bytes) (s : Nat × Nat), s.1 < 65521 → s.2 < 65521 → (p.foldl adlerStep s).1 < 65521 ∧ (p.foldl adlerStep s).2 < 65521 := by
    intro p
    induction p with
    | nil => intro s h1 h2; exact ⟨h1, h2⟩
    | cons c p ih => intro s h1 h2; exact ih _ (Nat.mod_lt _ (by omega)) (Nat.mod_lt _ (by omega))
  have := this p (1, 0) (by decide) (by decide)
  unfold adler32
  omega

theorem sum_byte (s : St) (c : Byte) (left acc : Nat) (h : 1 < left) : (s.to (.num 8 1 0 (.sum left acc))).bits (bitsOf c) =
    (adv s 8).to (.num 8 1 0 (.sum (left - 1) (acc * 256 + c.toNat))) := by
  rw [bitsOf_eq, bits_ask _ _ _ _ (by omega) c.toNat_lt]
  simp only [St.gotNum]
  rw [if_pos h]

theorem sum_first (s : St) (c1 c2 c3 : Byte) : (s.to (.num 8 1 0 (.sum 4 0))).bits (dataBits [c1, c2, c3]) =
    (adv s 24).to (.num 8 1 0 (.sum 1 ((c1.toNat * 256 + c2.toNat) * 256 + c3.toNat))) := by
  rw [dataBits_cons, bits_append, sum_byte _ _ _ _ (by omega), dataBits_cons, bits_append, sum_byte _ _ _ _ (by omega), dataBits_cons,
    bits_append, sum_byte _ _ _ _ (by omega)]
  simp only [adv_adv, Nat.zero_mul, Nat.zero_add]
  rfl

theorem sum_last (s : St) (c : Byte) (acc : Nat) : (s.to (.num 8 1 0 (.sum 1 acc))).bits (bitsOf c) =
    if acc * 256 + c.toNat = adler32 s.hist.reverse then (adv s 8).to .done else (adv s 8).to (.fail badSum) := by
  rw [bitsOf_eq, bits_ask _ _ _ _ (by omega) c.toNat_lt]
  simp only [St.gotNum]
  rw [if_neg (by omega)]
  rfl

theorem byteOf_bitsOf : ∀ c : Byte, packBytes (bitsOf c) = [c] := by
  apply forall_byte
  decide +kernel

theorem packRest_bitsOf : ∀ c : Byte, packRest (bitsOf c) = [] := by
  apply forall_byte
  decide +kernel

theorem pack_data (q : Bytes) : packBytes (dataBits q) = q := by
  induction q with
  | nil => rfl
  | cons c q ih => rw [dataBits_cons, packBytes_append, byteOf_bitsOf, packRest_bitsOf, List.nil_append, ih]; rfl

/-- After the last block comes the checksum. -/
theorem full_of_run {A : List Bool} {out : Bytes} (hlen : A.length % 8 = 0)
    (hrun : St.start.bits A = (⟨A.length, true, out.reverse, .done⟩ : St).to (.num 8 1 0 (.sum 4 0))) :
    inflate zlibInflater St.start (packBytes A ++ sumBytes (adler32 out)) = some out := by
  have hlt := adler_lt out
  generalize hn : adler32 out = n at hlt
  have hd1 : dataBits (packBytes A) = A := pack_full hlen
  have hsplit : packBytes A ++ sumBytes n =
      (packBytes A ++ [UInt8.ofNat (n / 16777216), UInt8.ofNat (n / 65536 % 256), UInt8.ofNat (n / 256 % 256)]) ++
        [UInt8.ofNat (n % 256)] := by
    simp [sumBytes]
  have hfirst : St.start.bits (dataBits (packBytes A ++ [UInt8.ofNat (n / 16777216), UInt8.ofNat (n / 65536 % 256),
      UInt8.ofNat (n / 256 % 256)])) = (adv (⟨A.length, true, out.reverse, .done⟩ : St) 24).to (.num 8 1 0 (.sum 1 (n / 256))) := by
    rw [dataBits_append, hd1, bits_append, hrun, sum_first]
    have hs : ((UInt8.ofNat (n / 16777216)).toNat * 256 + (UInt8.ofNat (n / 65536 % 256)).toNat) * 256 +
        (UInt8.ofNat (n / 256 % 256)).toNat = n / 256 := by
      simp only [UInt8.toNat_ofNat']
      omega
    rw [hs]
  have hlast : St.start.bits (dataBits (packBytes A ++ sumBytes n)) = (⟨A.length + 32, true, out.reverse, .done⟩ : St) := by
    rw [hsplit, dataBits_append, bits_append, hfirst, show dataBits [UInt8.ofNat (n % 256)] = bitsOf (UInt8.ofNat (n % 256)) by
      simp [dataBits], sum_last, if_pos]
    · simp [adv, St.to]
    · show _ = adler32 out.reverse.reverse
      rw [List.reverse_reverse, hn]
      simp only [UInt8.toNat_ofNat']
      omega
  rw [hsplit]
  apply full_bits
  · rw [hfirst]; rfl
  · rw [← hsplit, hlast]
  · rw [← hsplit, hlast]; simp [St.start]

theorem bits_toSum (s : St) : s.toSum.bits (padBits s.pos) = (adv s (padBits s.pos).length).to (.num 8 1 0 (.sum 4 0)) := by
  unfold padBits St.toSum
  rw [List.length_replicate]
  show (if s.rest = 0 then s.to (.num 8 1 0 (.sum 4 0)) else s.to (.num s.rest 1 0 .skipSum)).bits (List.replicate s.rest false) =
    (adv s s.rest).to (.num 8 1 0 (.sum 4 0))
  split
  · rename_i h
    rw [h]; rfl
  · rename_i h
    rw [← numBits_zero, bits_ask _ _ _ _ h (Nat.two_pow_pos _)]
    rfl

theorem padBits_aligned (p : Nat) : (p + (padBits p).length) % 8 = 0 := by
  unfold padBits
  rw [List.length_replicate]
  omega

/-- Blocks, a last block, the rest of the byte and the checksum can be read. -/
theorem full_last {bs : List Block} {b : Block} {out : Bytes} {A : List Bool} (h : blocksOk [] (bs ++ [b]))
    (he : evalAll [] (bs ++ [b]) = out.reverse) (hA : A = blocksBits 0 bs ++ b.bits (blocksBits 0 bs).length true) :
    inflate zlibInflater St.start (packBytes (A ++ padBits A.length) ++ sumBytes (adler32 out)) = some out := by
  have hsplit : ∀ (bs : List Block) (h0 : Bytes), blocksOk h0 (bs ++ [b]) → blocksOk h0 bs ∧ b.Ok (evalAll h0 bs) := by
    intro bs
    induction bs with
    | nil => intro h0 h; exact ⟨trivial, h.1⟩
    | cons x bs ih => intro h0 h; exact ⟨⟨h.1, (ih _ h.2).1⟩, (ih _ h.2).2⟩
  obtain ⟨h1, h2⟩ := hsplit bs [] h
  have he' : b.eval (evalAll [] bs) = out.reverse := by rw [← he, evalAll_append]; rfl
  apply full_of_run
  · rw [List.length_append]; exact padBits_aligned _
  · have h3 := bits_block (⟨(blocksBits 0 bs).length, false, evalAll [] bs, .done⟩ : St) true b h2
    have h4 : St.start.bits A = (⟨A.length, true, out.reverse, .done⟩ : St).toSum := by
      rw [hA, bits_append, start_blocks h1]
      refine h3.trans ?_
      simp only [adv, St.withFinal, St.withHist, he', St.endBlock, List.length_append]
      rfl
    rw [bits_append, h4]
    refine (bits_toSum (⟨A.length, true, out.reverse, .done⟩ : St)).trans ?_
    simp [adv, St.to]

/-- Blocks, an empty last block and the checksum can be read. -/
theorem full_blocks {bs : List Block} {out : Bytes} (h : blocksOk [] bs) (he : evalAll [] bs = out.reverse) :
    inflate zlibInflater St.start (packBytes (blocksBits 0 bs ++ (Block.stored []).bits (blocksBits 0 bs).length true) ++
      sumBytes (adler32 out)) = some out := by
  have h1 := full_last (bs := bs) (b := .stored []) (out := out) (blocksOk_append _ _ _ h ⟨by simp [Block.Ok], trivial⟩)
    (by rw [evalAll_append, he]; rfl) rfl
  have h2 : padBits (blocksBits 0 bs ++ (Block.stored []).bits (blocksBits 0 bs).length true).length = [] := by
    have := stored_aligned (blocksBits 0 bs).length true []
    unfold padBits
    rw [List.length_append, this]
    rfl
  rw [h2, List.append_nil] at h1
  exact h1

/-! ### The compressor -/

/-- What is known after some calls: the blocks so far. -/
structure ZInv (d : ZComp) (out w : Bytes) (bs : List Block) : Prop where
  ok : blocksOk [] bs
  hist : d.hist = evalAll [] bs
  data : d.pend.reverse ++ d.hist = w.reverse
  acc : d.acc = packRest (blocksBits 0 bs)
  out : if d.head then out = zlibHead d.lvl ++ packBytes (blocksBits 0 bs) else out = [] ∧ bs = []

theorem ZInv.put {d : ZComp} {out w w' : Bytes} {bs cs : List Block} {pend : Bytes} (h : ZInv d out w bs) (hc : blocksOk d.hist cs)
    (hd : pend.reverse ++ evalAll d.hist cs = w'.reverse) :
    ZInv (d.put (blocksBits d.acc.length cs) (evalAll d.hist cs) pend).1
      (out ++ (d.put (blocksBits d.acc.length cs) (evalAll d.hist cs) pend).2.1.flatten) w' (bs ++ cs) := by
  have hmod : blocksBits d.acc.length cs = blocksBits (0 + (blocksBits 0 bs).length) cs := by
    apply blocks_bits_mod
    rw [h.acc, packRest_length]
    omega
  refine ⟨blocksOk_append _ _ _ h.ok (h.hist ▸ hc), ?_, hd, ?_, ?_⟩
  · show evalAll d.hist cs = _
    rw [evalAll_append, h.hist]
  · show packRest (d.acc ++ _) = _
    rw [hmod, h.acc, blocks_bits_append, ← packRest_append]
  · have ho := h.out
    show if true = true then out ++ [d.header, packBytes (d.acc ++ blocksBits d.acc.length cs)].flatten =
      zlibHead d.lvl ++ packBytes (blocksBits 0 (bs ++ cs)) else _
    rw [if_pos rfl, hmod, h.acc, blocks_bits_append]
    simp only [List.flatten_cons, List.flatten_nil, List.append_nil]
    cases hh : d.head with
    | true =>
      rw [hh, if_pos rfl] at ho
      rw [ho, ZComp.header, hh, if_pos rfl, List.nil_append, List.append_assoc, ← packBytes_append]
    | false =>
      rw [hh, if_neg (by simp)] at ho
      obtain ⟨h1, h2⟩ := ho
      rw [h1, h2, ZComp.header, hh, if_neg (by simp)]
      rfl

theorem ZInv.write {P : ZPlan} (hP : P.Ok) {d : ZComp} {out w p : Bytes} {bs : List Block} (h : ZInv d out w bs) :
    ∃ bs', ZInv (ZComp.write P d p).1 (out ++ (ZComp.write P d p).2.1.flatten) (w ++ p) bs' := by
  refine ⟨_, h.put (hP.cutOk _ _ _) ?_⟩
  rw [hP.cutData, List.reverse_append, List.append_assoc, h.data, List.reverse_append]

theorem ZInv.flush {P : ZPlan} (hP : P.Ok) {d : ZComp} {out w : Bytes} {bs : List Block} (h : ZInv d out w bs) :
    ZInv (ZComp.flush P d).1 (out ++ (ZComp.flush P d).2.1.flatten) w (bs ++ (P.all d.lvl d.hist d.pend ++ [.stored []])) := by
  have e : evalAll d.hist (P.all d.lvl d.hist d.pend ++ [.stored []]) = evalAll d.hist (P.all d.lvl d.hist d.pend) := by
    rw [evalAll_append]; rfl
  have := h.put (cs := P.all d.lvl d.hist d.pend ++ [.stored []]) (pend := []) (w' := w)
    (blocksOk_append _ _ _ (hP.allOk _ _ _) ⟨by simp [Block.Ok], trivial⟩) (by
      rw [e, hP.allData, ← h.data]; rfl)
  rw [e] at this
  exact this

theorem ZInv.start (lvl : Int) : ZInv ⟨lvl, false, [], [], []⟩ [] [] [] :=
  ⟨trivial, rfl, rfl, rfl, by simp⟩

theorem ZInv.trace {P : ZPlan} (hP : P.Ok) (ops : List ZOp) : ∀ {d : ZComp} {out w : Bytes} {bs : List Block}, ZInv d out w bs →
    ∃ bs', ZInv ((zlibDeflater P).trace d ops).1 (out ++ ((zlibDeflater P).trace d ops).2) (w ++ writtenZ ops) bs' := by
  induction ops with
  | nil => intro d out w bs h; exact ⟨bs, by simpa [Deflater.trace, writtenZ] using h⟩
  | cons op ops ih =>
    intro d out w bs h
    cases op with
    | write p =>
      obtain ⟨bs1, h1⟩ := h.write hP (p := p)
      obtain ⟨bs2, h2⟩ := ih h1
      refine ⟨bs2, ?_⟩
      simp only [Deflater.trace, Deflater.exec, writtenZ]
      rw [List.append_assoc, List.append_assoc] at h2
      exact h2
    | flush =>
      obtain ⟨bs2, h2⟩ := ih (h.flush hP)
      refine ⟨bs2, ?_⟩
      simp only [Deflater.trace, Deflater.exec, writtenZ]
      rw [List.append_assoc] at h2
      exact h2

theorem head_ok (lvl : Int) : ∃ b, zlibHead lvl = [0x78, b] ∧ zlibHeader 0x78 b = .ok St.start := by
  unfold zlibHead
  refine ⟨_, rfl, ?_⟩
  repeat' split
  all_goals rfl

theorem start_form {P : ZPlan} {d : ZComp} (h : (zlibDeflater P).Start d) : ∃ lvl, d = ⟨lvl, false, [], [], []⟩ := by
  rcases h with ⟨lvl, h⟩ | ⟨d0, h⟩
  · simp only [zlibDeflater] at h
    split at h
    · cases h; exact ⟨_, rfl⟩
    · cases h
  · exact ⟨_, h⟩

/-- The law of the compressor. -/
theorem zlib_law {P : ZPlan} (hP : P.Ok) : (zlibDeflater P).Law zlibInflater where
  levels lvl := by
    simp only [zlibDeflater]
    split <;> simp_all
  noErr d _ ops op := by cases op <;> rfl
  complete d hd ops := by
    refine ⟨rfl, ?_⟩
    obtain ⟨lvl, rfl⟩ := start_form hd
    obtain ⟨bs, h⟩ := (ZInv.start lvl).trace hP ops
    generalize ((zlibDeflater P).trace ⟨lvl, false, [], [], []⟩ ops).1 = d at h
    generalize ((zlibDeflater P).trace ⟨lvl, false, [], [], []⟩ ops).2 = o at h
    rw [List.nil_append, List.nil_append] at h
    obtain ⟨b, hb1, hb2⟩ := head_ok d.lvl
    generalize hcs : P.all d.lvl d.hist d.pend = cs
    have hok : blocksOk [] (bs ++ cs) := by
      refine blocksOk_append _ _ _ h.ok ?_
      rw [← h.hist, ← hcs]; exact hP.allOk _ _ _
    have hev : evalAll [] (bs ++ cs) = (writtenZ ops).reverse := by
      rw [evalAll_append, ← h.hist, ← hcs, hP.allData, h.data]
    have hev' : evalAll d.hist cs = (writtenZ ops).reverse := by
      rw [h.hist, ← evalAll_append]; exact hev
    refine ⟨0x78, b, St.start, _, ?_, hb2, full_blocks hok hev⟩
    have hl : d.acc.length % 8 = (blocksBits 0 bs).length % 8 := by rw [h.acc, packRest_length]; omega
    have hmod : blocksBits d.acc.length cs = blocksBits (0 + (blocksBits 0 bs).length) cs := by
      apply blocks_bits_mod
      omega
    have hmod2 : (Block.stored []).bits (d.acc.length + (blocksBits d.acc.length cs).length) true =
        (Block.stored []).bits (blocksBits 0 (bs ++ cs)).length true := by
      apply block_bits_mod
      rw [hmod, blocks_bits_append, List.length_append]
      omega
    show o ++ (ZComp.close P d).2.1.flatten = 0x78 :: b :: _
    have hfin : ∀ A : List Bool, A.length % 8 = 0 → ∀ q, packBytes (A ++ dataBits q) = packBytes A ++ q := by
      intro A hA q
      have h2 : packRest A = [] := List.length_eq_zero_iff.mp (by rw [packRest_length, hA])
      rw [packBytes_append, h2, List.nil_append, pack_data]
    have e1 : (ZComp.close P d).2.1.flatten = d.header ++ packBytes (d.acc ++ (blocksBits d.acc.length cs ++
        (Block.stored []).bits (d.acc.length + (blocksBits d.acc.length cs).length) true ++
          dataBits (sumBytes (adler32 (evalAll d.hist cs).reverse)))) := by
      simp only [ZComp.close, ZComp.put, hcs, List.flatten_cons, List.flatten_nil, List.append_nil]
    have e2 : o ++ (d.header ++ packBytes (d.acc ++ (blocksBits d.acc.length cs ++
        (Block.stored []).bits (d.acc.length + (blocksBits d.acc.length cs).length) true ++
          dataBits (sumBytes (adler32 (evalAll d.hist cs).reverse))))) =
        zlibHead d.lvl ++ packBytes ((blocksBits 0 (bs ++ cs) ++ (Block.stored []).bits (blocksBits 0 (bs ++ cs)).length true) ++
          dataBits (sumBytes (adler32 (writtenZ ops)))) := by
      rw [hmod2, hmod, hev', List.reverse_reverse, blocks_bits_append, h.acc]
      have ho := h.out
      cases hh : d.head with
      | true =>
        rw [hh, if_pos rfl] at ho
        rw [ho, ZComp.header, hh, if_pos rfl, List.nil_append, List.append_assoc, ← packBytes_append]
        simp only [List.append_assoc]
      | false =>
        rw [hh, if_neg (by simp)] at ho
        obtain ⟨h1, h2⟩ := ho
        rw [h1, h2, ZComp.header, hh, if_neg (by simp)]
        rfl
    rw [e1, e2, hfin _ (by rw [List.length_append]; exact stored_aligned _ _ _), hb1]
    rfl
  flushed d hd ops := by
    obtain ⟨lvl, rfl⟩ := start_form hd
    obtain ⟨bs, h⟩ := (ZInv.start lvl).trace hP ops
    rw [(trace_snoc _ _ _ _).2]
    generalize ((zlibDeflater P).trace ⟨lvl, false, [], [], []⟩ ops).1 = d at h
    generalize ((zlibDeflater P).trace ⟨lvl, false, [], [], []⟩ ops).2 = o at h
    rw [List.nil_append, List.nil_append] at h
    have h1 := h.flush hP
    show IsPart zlibInflater (o ++ (ZComp.flush P d).2.1.flatten) _
    generalize hd1 : (ZComp.flush P d).1 = d1 at h1
    generalize o ++ (ZComp.flush P d).2.1.flatten = o1 at h1
    have hh : d1.head = true := by rw [← hd1]; rfl
    have ho := h1.out
    rw [hh, if_pos rfl] at ho
    have hp : d1.pend = [] := by rw [← hd1]; rfl
    obtain ⟨b, hb1, hb2⟩ := head_ok d1.lvl
    rw [hb1] at ho
    refine ⟨0x78, b, St.start, _, ho, hb2, part_blocks h1.ok ?_ ?_⟩
    · rw [← List.append_assoc]; exact aligned_end _ _
    · have := h1.data
      rw [hp, h1.hist] at this
      exact this

/-- The plan with literals only. -/
theorem literalPlan_ok : literalPlan.Ok where
  cutOk _ _ _ := trivial
  cutData _ _ _ := rfl
  allOk lvl h p := by
    have : ∀ (p : Bytes) (h : Bytes), toksOk h (p.map .lit) := by
      intro p
      induction p with
      | nil => intro h; trivial
      | cons c p ih => intro h; exact ⟨trivial, ih _⟩
    simp only [literalPlan]
    split
    · trivial
    · exact ⟨this p h, trivial⟩
  allData lvl h p := by
    have : ∀ (p : Bytes) (h : Bytes), (p.map Tok.lit).foldl Tok.eval h = p.reverse ++ h := by
      intro p
      induction p with
      | nil => intro h; rfl
      | cons c p ih => intro h; simp [Tok.eval, ih]
    simp only [literalPlan]
    split
    · rename_i hp
      have : p = [] := List.isEmpty_iff.mp hp
      subst this; rfl
    · exact this p h

end Verif.Lineproto
