import Verif.Lineproto.ZlibLaw
import Verif.Lineproto.ZlibSum
import Verif.Props.LineDuplex

/-!
# Compressed sections in the format of zlib (C120)

The other theorems about compressed sections take any decompressor, and any compressor that fits to it.  Here both are zlib: the decompressor
of the Go standard library, and a compressor that writes its format, whatever it chooses to write.
-/

namespace Verif.Props.ZlibFormat

open Verif.Lineproto Verif.Go.Inflate Verif.Go.Deflate Verif.Props.LineReader Verif.Props.LineWriter Verif.Props.LineDuplex

/-! ### Streams -/

/-- **C120.** A stream: the header for some level, blocks of any kind and in any number, of which the last one is marked, zeros up to the
end of the byte, and the checksum.  It is accepted, and decompresses to what the blocks say. -/
theorem stream_read (lvl : Int) (bs : List Block) (b : Block) (out : Bytes) (hok : blocksOk [] (bs ++ [b]))
    (hout : (evalAll [] (bs ++ [b])).reverse = out) {bits : List Bool}
    (hbits : bits = blocksBits 0 bs ++ b.bits (blocksBits 0 bs).length true) :
    IsStream zlibInflater (zlibHead lvl ++ packBytes (bits ++ padBits bits.length) ++ sumBytes (adler32 out)) out := by
  obtain ⟨h2, h3, h4⟩ := head_ok lvl
  refine ⟨0x78, h2, St.start, packBytes (bits ++ padBits bits.length) ++ sumBytes (adler32 out), ?_, h4,
    full_last hok (by rw [← hout, List.reverse_reverse]) hbits⟩
  rw [h3]
  rfl

/-- Blocks that end with a byte can be read before more comes. -/
theorem part_read (lvl : Int) (bs : List Block) (out : Bytes) (hok : blocksOk [] bs) (hout : (evalAll [] bs).reverse = out)
    (ha : (blocksBits 0 bs).length % 8 = 0) : IsPart zlibInflater (zlibHead lvl ++ packBytes (blocksBits 0 bs)) out := by
  obtain ⟨h2, h3, h4⟩ := head_ok lvl
  refine ⟨0x78, h2, St.start, packBytes (blocksBits 0 bs), ?_, h4, part_blocks hok ha (by rw [← hout, List.reverse_reverse])⟩
  rw [h3]
  rfl

/-- The header of a block with its own code: symbols `a` and `b` (97, 98) and the end of the block, no distances. -/
def someHeader : Header :=
  ⟨257, 1, [0, 0, 1, 0, 0, 0, 0, 0, 0, 0, 0, 0, 0, 0, 0, 2, 0, 2], [.manyZeros 97, .len 1, .len 2, .manyZeros 138, .manyZeros 19, .len 2, .len 1]⟩

/-- Its code for literals. -/
def someLit : Book := [(2, 97), (6, 98), (7, 256)]

theorem someHeader_ok : someHeader.Ok someLit [(2, 0)] := by
  refine ⟨by decide, by decide, by decide, by decide, by decide, by decide, by decide, ⟨[(2, 18), (6, 1), (7, 2)], by decide +kernel, ?_⟩,
    by decide +kernel, by decide +kernel, by decide +kernel⟩
  simp only [someHeader, opsOk, LenOp.Ok, LenOp.sym]
  exact ⟨by decide, ⟨2, by decide⟩, by decide, ⟨6, by decide⟩, by decide, ⟨7, by decide⟩, by decide, ⟨2, by decide⟩, by decide,
    ⟨2, by decide⟩, by decide, ⟨7, by decide⟩, by decide, ⟨6, by decide⟩, trivial⟩

/-- All kinds of blocks, with a reference that goes back into an earlier block and overlaps itself. -/
example : blocksOk [] ([.stored b!"ab|", .fixed [.lit 99, .ref 5 2]] ++ [.coded someHeader [.lit 97, .lit 98]]) ∧
    (evalAll [] ([.stored b!"ab|", .fixed [.lit 99, .ref 5 2]] ++ [.coded someHeader [.lit 97, .lit 98]])).reverse = b!"ab|c|c|c|ab" := by
  refine ⟨⟨by simp [Block.Ok], ⟨trivial, ?_, trivial⟩, ⟨⟨trivial, trivial, trivial⟩, someLit, [(2, 0)], someHeader_ok, ⟨7, by decide⟩, ?_⟩, trivial⟩, by decide⟩
  · simp [Tok.Ok, Block.eval, Tok.eval]
  · intro t ht
    simp at ht
    rcases ht with rfl | rfl
    · exact ⟨2, by decide⟩
    · exact ⟨6, by decide⟩

/-! ### Codes -/

/-- The code of a block is read off the lengths of its words, if they leave no gap; then every word stands for its symbol, whatever
comes after it: no word is the beginning of another one. -/
theorem code_prefix_free {lens : List Nat} {b : Book} (h : mkBook lens = some b) :
    (∀ e ∈ b, b.find e.1 = some e.2) ∧ ∀ e ∈ b, ∀ j, b.find (e.1 / 2 ^ (j + 1)) = none :=
  ⟨fun _ he => (mkBook_good h).find he, fun _ he j => (mkBook_good h).find_none he j⟩

example : mkBook [2, 1, 3, 3] = some [(2, 1), (6, 0), (14, 2), (15, 3)] := by decide

/-! ### The checksum -/

/-- **C120.** A stream that is accepted as complete ends with the checksum of what it decompressed to. -/
theorem accepted_sum {h1 h2 : Byte} {z : St} {body out : Bytes} (hh : zlibInflater.header h1 h2 = .ok z)
    (h : inflate zlibInflater z body = some out) : ∃ blocks, body = blocks ++ sumBytes (adler32 out) := by
  have hz : z = St.start := by
    have hh' : zlibHeader h1 h2 = .ok z := hh
    unfold zlibHeader at hh'
    split at hh'
    · cases hh'
    · split at hh'
      · cases hh'
      · cases hh'; rfl
  subst hz
  obtain ⟨pre, sum, e1, e2, e3⟩ := early_inflate body St.start out trivial id rfl h
  refine ⟨pre, ?_⟩
  have : (out.reverse ++ St.start.hist).reverse = out := by simp [St.start]
  rw [this] at e3
  rw [e1, be32 e2 e3]

/-- The bytes of the checksum determine it. -/
theorem sum_inj {m n : Nat} (hm : m < 2 ^ 32) (hn : n < 2 ^ 32) (h : sumBytes m = sumBytes n) : m = n := by
  simp only [sumBytes, List.cons.injEq, and_true] at h
  obtain ⟨a, b, c, d⟩ := h
  have a' := congrArg UInt8.toNat a
  have b' := congrArg UInt8.toNat b
  have c' := congrArg UInt8.toNat c
  have d' := congrArg UInt8.toNat d
  simp only [UInt8.toNat_ofNat'] at a' b' c' d'
  omega

/-- A stream is not accepted with the checksum of other data that differs in one byte. -/
theorem one_byte {h1 h2 : Byte} {z : St} {body x y : Bytes} {c d : Byte} (hh : zlibInflater.header h1 h2 = .ok z)
    (h : inflate zlibInflater z (body ++ sumBytes (adler32 (x ++ c :: y))) = some (x ++ d :: y)) : c = d := by
  obtain ⟨pre, hp⟩ := accepted_sum hh h
  have h3 := sum_inj (adler_lt _) (adler_lt _) (List.append_inj' hp (by simp [sumBytes])).2
  have hsum : ∀ (p : Bytes) (s : Nat × Nat), s.1 < 65521 → (p.foldl adlerStep s).1 = (s.1 + (p.map UInt8.toNat).sum) % 65521 := by
    intro p
    induction p with
    | nil => intro s hs; simpa using (Nat.mod_eq_of_lt hs).symm
    | cons a p ih =>
      intro s hs
      rw [List.foldl_cons, ih _ (Nat.mod_lt _ (by omega))]
      simp only [adlerStep, List.map_cons, List.sum_cons]
      omega
  have h4 := hsum (x ++ c :: y) (1, 0) (by decide)
  have h5 := hsum (x ++ d :: y) (1, 0) (by decide)
  unfold adler32 at h3
  have hlt : ∀ p : Bytes, (p.foldl adlerStep (1, 0)).1 < 65521 := by
    intro p; rw [hsum p (1, 0) (by decide)]; exact Nat.mod_lt _ (by omega)
  have h6 := hlt (x ++ c :: y)
  have h7 := hlt (x ++ d :: y)
  have h8 : ((x ++ c :: y).foldl adlerStep (1, 0)).1 = ((x ++ d :: y).foldl adlerStep (1, 0)).1 := by omega
  rw [h4, h5] at h8
  simp only [List.map_append, List.map_cons, List.sum_append, List.sum_cons] at h8
  have := c.toNat_lt
  have := d.toNat_lt
  apply UInt8.toNat_inj.mp
  omega

/-! ### The writer and the reader -/

/-- **C120.** Whatever a compressor chooses to write, if its blocks say the data: it fits to the decompressor. -/
theorem fits {P : ZPlan} (hP : P.Ok) : (zlibDeflater P).Law zlibInflater := zlib_law hP

/-- Such a choice: blocks of literals in the fixed code. -/
example : literalPlan.Ok := literalPlan_ok

/-- **C120.** Lines that are written, some of them compressed, are read again on the other side; nothing is assumed of the compressor but
that its blocks say the data. -/
theorem lines_arrive {P : ZPlan} (hP : P.Ok) (size : Int) (tmo : List (Option Err)) (script : List SEv)
    (ops : List WOp) (hnc : .close ∉ ops) {rs} {w w' : Writer ZComp}
    (hr : Writer.run (zlibDeflater P) ops (newWriter size tmo ⟨[], script⟩) = .val (rs, w)) (hok : ∀ r ∈ rs, r.2 = none)
    (hf : w.flush (zlibDeflater P) = .val (none, w'))
    (ps : List Part) (final : List Bytes) (delim : Byte) (max : Int) (hp : Proper delim max ps final)
    (hsec : (sections [] (.plain []) ops).1 ++ [(sections [] (.plain []) ops).2] = segsOf ps final)
    (cs : List Bytes) (hcs : ∀ c ∈ cs, c ≠ []) (hsent : cs.flatten = w'.sink.sent) (sched : List (Nat × Bool)) :
    ∃ r', Reader.Runs zlibInflater ((newReader (chunks cs) delim).setMaxLine max)
      (readObs sched ps final ++ [.line ([], some .eof)]) r' :=
  LineDuplex.lines_arrive (zlibDeflater P) zlibInflater (fits hP) size tmo script ops hnc hr hok hf ps final delim max hp hsec cs hcs
    hsent sched

/-- The calls succeed, and these bytes are sent. -/
example : ∃ (rs : List (Nat × Option Err)) (w w' : Writer ZComp),
    Writer.run (zlibDeflater literalPlan) [.line b!"a|", .enable 6, .line b!"b|", .flush, .disable, .line b!"c|"]
      (newWriter 3 [] ⟨[], []⟩) = .val (rs, w) ∧ (∀ r ∈ rs, r.2 = none) ∧ w.flush (zlibDeflater literalPlan) = .val (none, w') ∧
    w'.sink.sent = b!"a|" ++ [0x78, 0x9c, 0x4a, 0xaa, 0x01, 0x00, 0x00, 0x00, 0xff, 0xff, 0x01, 0x00, 0x00, 0xff, 0xff, 0x01, 0x42, 0x00, 0xdf] ++
      b!"c|" := by
  have h : (match Writer.run (zlibDeflater literalPlan) [.line b!"a|", .enable 6, .line b!"b|", .flush, .disable, .line b!"c|"]
      (newWriter 3 [] ⟨[], []⟩) with
    | .val (rs, w) => rs.all (·.2.isNone) && (match w.flush (zlibDeflater literalPlan) with
      | .val (none, w') => w'.sink.sent == b!"a|" ++ [0x78, 0x9c, 0x4a, 0xaa, 0x01, 0x00, 0x00, 0x00, 0xff, 0xff, 0x01, 0x00, 0x00, 0xff, 0xff,
          0x01, 0x42, 0x00, 0xdf] ++ b!"c|"
      | _ => false)
    | _ => false) = true := by decide +kernel
  split at h
  · rename_i rs w hr
    simp only [Bool.and_eq_true] at h
    obtain ⟨h1, h2⟩ := h
    split at h2
    · rename_i w' hf
      exact ⟨rs, w, w', hr, by simpa using h1, hf, eq_of_beq h2⟩
    · cases h2
  · cases h

/-! ### What is delivered before the checksum -/

/-- `EnableZlib`, and `ReadLine` twice: what the latter return. -/
def twoLines (fuel : Nat) (r : Reader St) : Option ((Bytes × Option Err) × (Bytes × Option Err)) :=
  match r.enableZlib zlibInflater fuel [] with
  | .val (none, r) => match r.readLine zlibInflater fuel with
    | .val (a, r) => match r.readLine zlibInflater fuel with
      | .val (b, _) => some (a, b)
      | _ => none
    | _ => none
  | _ => none

/-- `a|` in a block of its own, but the last byte of the checksum is wrong. -/
def damaged : Bytes := [0x78, 0x9c, 0x4b, 0xac, 0x01, 0x00, 0x01, 0x40, 0x00, 0xdf]

/-- Finding: the checksum of a compressed section is compared at its end, so a section that is damaged is not refused before its lines are
delivered: no data has this section as its compressed form, but a line comes out of it without an error.  The error is with the next one. -/
theorem damaged_delivered : (∀ out, ¬ IsStream zlibInflater damaged out) ∧
    twoLines 60 (newReader [⟨damaged, none⟩] 124) = some ((b!"a|", none), ([], some (.other badSum))) := by
  refine ⟨?_, by decide +kernel⟩
  rintro out ⟨h1, h2, z, body, e1, e2, e3⟩
  simp only [damaged, List.cons.injEq] at e1
  obtain ⟨rfl, rfl, rfl⟩ := e1
  have : zlibInflater.header 0x78 0x9c = .ok St.start := rfl
  rw [this] at e2
  cases e2
  revert e3
  have : inflate zlibInflater St.start [0x4b, 0xac, 0x01, 0x00, 0x01, 0x40, 0x00, 0xdf] = none := by decide +kernel
  rw [this]
  simp

/-- With the right byte it is the compressed form of `a|`. -/
example : IsStream zlibInflater [0x78, 0x9c, 0x4b, 0xac, 0x01, 0x00, 0x01, 0x40, 0x00, 0xde] b!"a|" :=
  ⟨0x78, 0x9c, St.start, _, rfl, rfl, by decide +kernel⟩

end Verif.Props.ZlibFormat
