import Verif.Go.Basic

/-!
# `compress/flate` and `hash/adler32`: decompression

`lineproto.Reader` reads compressed sections through `compress/zlib` (lineproto/reader.go:282-303), and
`lineproto.Writer` makes them with it (lineproto/writer.go:97-125).  This is the decompressor of the Go standard library, bit by bit:
stored blocks, blocks with the fixed code and blocks that carry their own codes.  All of it follows `compress/flate/inflate.go`
(RFC 1951) and `compress/zlib/reader.go` (RFC 1950).

Simplification: a symbol is decoded with the byte that completes its code.  The Go code may ask for one more byte first if the code of the
end of the block is longer than the code of that symbol (`f.h1.min`).
-/

namespace Verif.Go.Inflate

/-! ### The checksum -/

/-- `hash/adler32`, `update`: the two sums after one more byte. -/
def adlerStep (s : Nat × Nat) (c : Byte) : Nat × Nat :=
  ((s.1 + c.toNat) % 65521, (s.2 + (s.1 + c.toNat) % 65521) % 65521)

/-- `adler32.Checksum`. -/
def adler32 (p : Bytes) : Nat :=
  (p.foldl adlerStep (1, 0)).2 * 65536 + (p.foldl adlerStep (1, 0)).1

/-! ### Huffman codes -/

/-- The words of a code with their symbols. A word is written as a number: the digit 1, then its bits, first bit first. -/
abbrev Book := List (Nat × Nat)

/-- The symbols with words of length `len`, in order. -/
def symsOf (len : Nat) (lens : List Nat) : List Nat :=
  lens.zipIdx.filterMap fun (l, i) => if l = len then some i else none

/-- inflate.go, `huffmanDecoder.init` (RFC 1951, 3.2.2): the words longer than `len`, for `n` lengths; `code` follows the last word of length
`len`.  For each length there are consecutive words in the order of the symbols. -/
def bookFrom (lens : List Nat) : Nat → Nat → Nat → Book
  | 0, _, _ => []
  | n + 1, len, code =>
    ((symsOf (len + 1) lens).zipIdx.map fun (s, i) => (2 ^ (len + 1) + (2 * code + i), s)) ++
      bookFrom lens n (len + 1) (2 * code + (symsOf (len + 1) lens).length)

/-- inflate.go, `huffmanDecoder.init`: the value of `code` after the loop. -/
def lastCode (lens : List Nat) : Nat → Nat → Nat → Nat
  | 0, _, code => code
  | n + 1, len, code => lastCode lens n (len + 1) (2 * code + (symsOf (len + 1) lens).length)

/-- The length of the longest word. -/
def maxLen (lens : List Nat) : Nat := lens.foldl max 0

/-- inflate.go, `huffmanDecoder.init`: the code with words of these lengths. It has to be complete, but for the code without words and
the code with one word of length 1. -/
def mkBook (lens : List Nat) : Option Book :=
  if maxLen lens = 0 then some []
  else if lastCode lens (maxLen lens) 0 0 = 2 ^ maxLen lens ∨ (lastCode lens (maxLen lens) 0 0 = 1 ∧ maxLen lens = 1) then
    some (bookFrom lens (maxLen lens) 0 0)
  else none

/-- inflate.go, `fixedHuffmanDecoderInit`. -/
def fixedLens : List Nat :=
  List.replicate 144 8 ++ List.replicate 112 9 ++ List.replicate 24 7 ++ List.replicate 8 8

/-- The fixed code of literals and lengths. -/
def fixedLit : Book := bookFrom fixedLens 9 0 0

/-- inflate.go, `huffmanBlock` with `f.hd == nil`: five bits, first bit first. -/
def fixedDist : Book := (List.range 32).map fun i => (32 + i, i)

/-- The symbol with this word. -/
def Book.find (b : Book) (key : Nat) : Option Nat := List.lookup key b

/-- No word begins with these bits (or follows them in the order of words). -/
def Book.stuck (b : Book) (key : Nat) : Bool := b.all fun e => e.1 < 2 * key

/-! ### The decompressor -/

/-- What a number that is being read is for. -/
inductive Num where
  /-- `nextBlock`: three bits. -/
  | hdr
  /-- `dataBlock`: the rest of the byte. -/
  | skip
  /-- `dataBlock`: LEN. -/
  | len
  /-- `dataBlock`: NLEN. -/
  | nlen (len : Nat)
  /-- `copyData`: a byte, so many left with it. -/
  | copy (n : Nat)
  /-- `readHuffman`: HLIT, HDIST, HCLEN. -/
  | counts
  /-- `readHuffman`: lengths of the words of the code of lengths, so many left with this one. -/
  | clen (nlit ndist left : Nat) (got : List Nat)
  /-- `readHuffman`: how often `b` is repeated. -/
  | rep (nlit ndist : Nat) (book : Book) (got : List Nat) (b base : Nat)
  /-- `huffmanBlock`: extra bits of a length. -/
  | lext (lit dist : Book) (base : Nat)
  /-- `huffmanBlock`: extra bits of a distance. -/
  | dext (lit dist : Book) (len base : Nat)
  /-- The rest of the byte before the checksum. -/
  | skipSum
  /-- zlib/reader.go, `Read`: a byte of the checksum, so many left with it. -/
  | sum (left : Nat) (acc : Nat)

/-- What a symbol that is being read is for. -/
inductive Sym where
  | clen (nlit ndist : Nat) (got : List Nat)
  | lit (dist : Book)
  | dist (lit : Book) (len : Nat)

/-- What the decompressor is doing. -/
inductive Mode where
  /-- It reads a number: so many bits left, the weight of the next bit, its value so far. -/
  | num (left w v : Nat) (k : Num)
  /-- It reads a word: the bits so far, with the digit 1 before them. -/
  | word (book : Book) (key : Nat) (k : Sym)
  | done
  | fail (code : Nat)

/-- inflate.go, `decompressor`: the number of bits taken from the current byte, whether this is the last block, the output so far (last
byte first), and what is going on. -/
structure St where
  pos : Nat
  final : Bool
  hist : Bytes
  mode : Mode

/-- `flate.CorruptInputError`. -/
def corrupt : Nat := 1951

/-- `zlib.ErrChecksum`. -/
def badSum : Nat := 1950

/-- The next thing to do. -/
def St.to (s : St) (m : Mode) : St := { s with mode := m }

/-- `f.final`. -/
def St.withFinal (s : St) (f : Bool) : St := { s with final := f }

/-- More output. -/
def St.withHist (s : St) (h : Bytes) : St := { s with hist := h }

/-- Bits that are left of the current byte. -/
def St.rest (s : St) : Nat := (8 - s.pos % 8) % 8

/-- zlib/reader.go, `Read`: the checksum begins with the next byte. -/
def St.toSum (s : St) : St :=
  if s.rest = 0 then s.to (.num 8 1 0 (.sum 4 0)) else s.to (.num s.rest 1 0 .skipSum)

/-- inflate.go, `finishBlock`. -/
def St.endBlock (s : St) : St := if s.final then s.toSum else s.to (.num 3 1 0 .hdr)

/-- inflate.go, `dataBlock`: the lengths begin with the next byte. -/
def St.toStored (s : St) : St :=
  if s.rest = 0 then s.to (.num 16 1 0 .len) else s.to (.num s.rest 1 0 .skip)

/-- inflate.go, `huffSym`: an empty code has no symbol. -/
def St.toWord (s : St) (b : Book) (k : Sym) : St :=
  if b.isEmpty then s.to (.fail corrupt) else s.to (.word b 1 k)

/-- inflate.go, `huffmanBlock`: the next symbol of a block. -/
def St.toLit (s : St) (lit dist : Book) : St := s.toWord lit (.lit dist)

/-- inflate.go, `codeOrder`. -/
def codeOrder : List Nat := [16, 17, 18, 0, 8, 7, 9, 6, 10, 5, 11, 4, 12, 3, 13, 2, 14, 1, 15]

/-- inflate.go, `readHuffman`: the lengths of the code of lengths, in the order of its symbols; those that are not given are 0. -/
def clens (got : List Nat) : List Nat :=
  (List.range 19).map fun i => ((codeOrder.zip got).lookup i).getD 0

/-- inflate.go, `readHuffman`: some lengths are known; the next one, or the block. -/
def St.toLens (s : St) (nlit ndist : Nat) (book : Book) (got : List Nat) : St :=
  if got.length < nlit + ndist then s.toWord book (.clen nlit ndist got)
  else
    match mkBook (got.take nlit), mkBook (got.drop nlit) with
    | some l, some d => s.toLit l d
    | _, _ => s.to (.fail corrupt)

/-- inflate.go, `readHuffman`: the lengths of the code of lengths are known. -/
def St.toBook (s : St) (nlit ndist : Nat) (got : List Nat) : St :=
  match mkBook (clens got) with
  | some b => s.toLens nlit ndist b []
  | none => s.to (.fail corrupt)

/-- inflate.go, `dictDecoder.writeCopy`: bytes from a distance, one after the other; the new history. -/
def copyBack (d : Nat) : Nat → Bytes → Bytes
  | 0, h => h
  | n + 1, h => copyBack d n (h.getD (d - 1) 0 :: h)

/-- inflate.go, `huffmanBlock`: a reference is complete. -/
def St.ref (s : St) (lit dist : Book) (len d : Nat) : St :=
  if d ≤ s.hist.length then (s.withHist (copyBack d len s.hist)).toLit lit dist
  else s.to (.fail corrupt)

/-- inflate.go, `huffmanBlock`: base and number of extra bits of a length symbol. -/
def lenBase (v : Nat) : Nat × Nat :=
  if v < 265 then (v - 254, 0)
  else if v < 269 then (v * 2 - 519, 1)
  else if v < 273 then (v * 4 - 1057, 2)
  else if v < 277 then (v * 8 - 2149, 3)
  else if v < 281 then (v * 16 - 4365, 4)
  else if v < 285 then (v * 32 - 8861, 5)
  else (258, 0)

/-- inflate.go, `huffmanBlock`: base and number of extra bits of a distance symbol. -/
def distBase (v : Nat) : Nat × Nat :=
  if v < 4 then (v + 1, 0)
  else (2 ^ ((v - 2) / 2 + 1) + 1 + v % 2 * 2 ^ ((v - 2) / 2), (v - 2) / 2)

/-- inflate.go, `huffmanBlock`: the length is known. -/
def St.toDist (s : St) (lit dist : Book) (len : Nat) : St := s.toWord dist (.dist lit len)

/-- A symbol has been read. -/
def St.gotSym (s : St) (book : Book) (v : Nat) : Sym → St
  | .clen nlit ndist got =>
    if v < 16 then s.toLens nlit ndist book (got ++ [v])
    else if v = 16 then
      if got.isEmpty then s.to (.fail corrupt)
      else s.to (.num 2 1 0 (.rep nlit ndist book got (got.getLastD 0) 3))
    else if v = 17 then s.to (.num 3 1 0 (.rep nlit ndist book got 0 3))
    else s.to (.num 7 1 0 (.rep nlit ndist book got 0 11))
  | .lit dist =>
    if v < 256 then (s.withHist (UInt8.ofNat v :: s.hist)).toLit book dist
    else if v = 256 then s.endBlock
    else if 286 ≤ v then s.to (.fail corrupt)
    else if (lenBase v).2 = 0 then s.toDist book dist (lenBase v).1
    else s.to (.num (lenBase v).2 1 0 (.lext book dist (lenBase v).1))
  | .dist lit len =>
    if 30 ≤ v then s.to (.fail corrupt)
    else if (distBase v).2 = 0 then s.ref lit book len (distBase v).1
    else s.to (.num (distBase v).2 1 0 (.dext lit book len (distBase v).1))

/-- A number has been read. -/
def St.gotNum (s : St) (v : Nat) : Num → St
  | .hdr =>
    if v / 2 = 0 then (s.withFinal (v % 2 == 1)).toStored
    else if v / 2 = 1 then (s.withFinal (v % 2 == 1)).toLit fixedLit fixedDist
    else if v / 2 = 2 then (s.withFinal (v % 2 == 1)).to (.num 14 1 0 .counts)
    else s.to (.fail corrupt)
  | .skip => s.to (.num 16 1 0 .len)
  | .len => s.to (.num 16 1 0 (.nlen v))
  | .nlen len =>
    if len + v ≠ 65535 then s.to (.fail corrupt)
    else if len = 0 then s.endBlock
    else s.to (.num 8 1 0 (.copy len))
  | .copy n =>
    if n ≤ 1 then (s.withHist (UInt8.ofNat v :: s.hist)).endBlock
    else (s.withHist (UInt8.ofNat v :: s.hist)).to (.num 8 1 0 (.copy (n - 1)))
  | .counts =>
    if 286 < v % 32 + 257 then s.to (.fail corrupt)
    else if 30 < v / 32 % 32 + 1 then s.to (.fail corrupt)
    else s.to (.num 3 1 0 (.clen (v % 32 + 257) (v / 32 % 32 + 1) (v / 1024 + 4) []))
  | .clen nlit ndist left got =>
    if 1 < left then s.to (.num 3 1 0 (.clen nlit ndist (left - 1) (got ++ [v])))
    else s.toBook nlit ndist (got ++ [v])
  | .rep nlit ndist book got b base =>
    if nlit + ndist < got.length + (base + v) then s.to (.fail corrupt)
    else s.toLens nlit ndist book (got ++ List.replicate (base + v) b)
  | .lext lit dist base => s.toDist lit dist (base + v)
  | .dext lit dist len base => s.ref lit dist len (base + v)
  | .skipSum => s.to (.num 8 1 0 (.sum 4 0))
  | .sum left acc =>
    if 1 < left then s.to (.num 8 1 0 (.sum (left - 1) (acc * 256 + v)))
    else if acc * 256 + v = adler32 s.hist.reverse then s.to .done
    else s.to (.fail badSum)

/-- One bit. -/
def St.bit (s0 : St) (b : Bool) : St :=
  let s := { s0 with pos := s0.pos + 1 }
  match s0.mode with
  | .num left w v k =>
    if left ≤ 1 then s.gotNum (v + if b then w else 0) k
    else s.to (.num (left - 1) (2 * w) (v + if b then w else 0) k)
  | .word book key k =>
    match book.find (2 * key + if b then 1 else 0) with
    | some v => s.gotSym book v k
    | none =>
      if book.stuck (2 * key + if b then 1 else 0) then s.to (.fail corrupt)
      else s.to (.word book (2 * key + if b then 1 else 0) k)
  | .done => s0
  | .fail _ => s0

/-- Several bits. -/
def St.bits (s : St) (bs : List Bool) : St := bs.foldl St.bit s

/-- The bits of a byte, lowest first. -/
def bitsOf (c : Byte) : List Bool := (List.range 8).map fun i => c.toNat / 2 ^ i % 2 == 1

/-- One byte, and the output that comes with it. -/
def St.byte (s : St) (c : Byte) : St × Bytes :=
  (s.bits (bitsOf c), ((s.bits (bitsOf c)).hist.take ((s.bits (bitsOf c)).hist.length - s.hist.length)).reverse)

/-- The state before the first block. -/
def St.start : St := ⟨0, false, [], .num 3 1 0 .hdr⟩

end Verif.Go.Inflate
