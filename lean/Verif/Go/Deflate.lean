import Verif.Go.Inflate

/-!
# `compress/flate`: what a compressor writes

A compressor chooses how to cut the data into blocks and which parts of a block to say as references to earlier data.  Here the choice is
left open: a block is given, with the code it uses, and its bits are determined (RFC 1951; `compress/flate/huffman_bit_writer.go`).
-/

namespace Verif.Go.Deflate

open Verif.Go.Inflate

/-- A literal byte, or a reference: so many bytes, beginning so many bytes before. -/
inductive Tok where
  | lit (c : Byte)
  | ref (len dist : Nat)
deriving Repr, DecidableEq

/-- How the lengths of the words of a code are said: a length, the last length again (3 to 6 times), the length 0 (3 to 10 times), the
length 0 (11 to 138 times). -/
inductive LenOp where
  | len (n : Nat)
  | again (times : Nat)
  | zeros (times : Nat)
  | manyZeros (times : Nat)
deriving Repr, DecidableEq

/-- huffman_bit_writer.go, `writeDynamicHeader`: the codes of a block. Number of symbols for literals and lengths, number of symbols for
distances, lengths of the words of the code for the lengths (in the order `codeOrder`), and the lengths. -/
structure Header where
  nlit : Nat
  ndist : Nat
  cl : List Nat
  ops : List LenOp
deriving Repr, DecidableEq

/-- A block: data as it is, tokens in the fixed code, or tokens in a code of its own. -/
inductive Block where
  | stored (p : Bytes)
  | fixed (ts : List Tok)
  | coded (hd : Header) (ts : List Tok)
deriving Repr, DecidableEq

/-! ### What blocks mean -/

/-- The history (last byte first) after a token. -/
def Tok.eval (h : Bytes) : Tok → Bytes
  | .lit c => c :: h
  | .ref len dist => copyBack dist len h

/-- The history after a block. -/
def Block.eval (h : Bytes) : Block → Bytes
  | .stored p => p.reverse ++ h
  | .fixed ts => ts.foldl Tok.eval h
  | .coded _ ts => ts.foldl Tok.eval h

/-- The history after some blocks. -/
def evalAll (h : Bytes) (bs : List Block) : Bytes := bs.foldl Block.eval h

/-- The format can express the token: lengths 3 to 258, distances up to 32 KiB within the data so far. -/
def Tok.Ok (h : Bytes) : Tok → Prop
  | .lit _ => True
  | .ref len dist => 3 ≤ len ∧ len ≤ 258 ∧ 1 ≤ dist ∧ dist ≤ 32768 ∧ dist ≤ h.length

/-- All tokens can be expressed. -/
def toksOk (h : Bytes) : List Tok → Prop
  | [] => True
  | t :: ts => t.Ok h ∧ toksOk (t.eval h) ts

/-- The lengths after one more operation. -/
def LenOp.eval (got : List Nat) : LenOp → List Nat
  | .len n => got ++ [n]
  | .again t => got ++ List.replicate t (got.getLastD 0)
  | .zeros t => got ++ List.replicate t 0
  | .manyZeros t => got ++ List.replicate t 0

/-- The lengths that a header says. -/
def Header.lens (hd : Header) : List Nat := hd.ops.foldl LenOp.eval []

/-- The symbol has a word. -/
def HasWord (b : Book) (v : Nat) : Prop := ∃ key, (key, v) ∈ b

/-- The symbol of an operation. -/
def LenOp.sym : LenOp → Nat
  | .len n => n
  | .again _ => 16
  | .zeros _ => 17
  | .manyZeros _ => 18

/-- The format can express the operation. -/
def LenOp.Ok (got : List Nat) : LenOp → Prop
  | .len n => n < 16
  | .again t => 3 ≤ t ∧ t ≤ 6 ∧ got ≠ []
  | .zeros t => 3 ≤ t ∧ t ≤ 10
  | .manyZeros t => 11 ≤ t ∧ t ≤ 138

/-- All operations can be expressed in the code. -/
def opsOk (b : Book) (got : List Nat) : List LenOp → Prop
  | [] => True
  | o :: os => o.Ok got ∧ HasWord b o.sym ∧ opsOk b (o.eval got) os

/-- The last symbol in the list whose base is not above `x`. -/
def symFor (base : Nat → Nat × Nat) (x : Nat) : List Nat → Nat → Nat
  | [], best => best
  | v :: vs, best => symFor base x vs (if (base v).1 ≤ x then v else best)

/-- huffman_bit_writer.go, `lengthCodes`. -/
def lenSym (len : Nat) : Nat := symFor lenBase len ((List.range 29).map (257 + ·)) 257

/-- huffman_bit_writer.go, `offsetCode`. -/
def distSym (d : Nat) : Nat := symFor distBase d (List.range 30) 0

/-- The token can be said in these codes. -/
def Tok.Said (lit dist : Book) : Tok → Prop
  | .lit c => HasWord lit c.toNat
  | .ref len d => HasWord lit (lenSym len) ∧ HasWord dist (distSym d)

/-- The header is well formed and gives these codes for literals, for distances. -/
def Header.Ok (hd : Header) (lit dist : Book) : Prop :=
  257 ≤ hd.nlit ∧ hd.nlit ≤ 286 ∧ 1 ≤ hd.ndist ∧ hd.ndist ≤ 30 ∧ 4 ≤ hd.cl.length ∧ hd.cl.length ≤ 19 ∧ (∀ x ∈ hd.cl, x < 8) ∧
    (∃ b, mkBook (clens hd.cl) = some b ∧ opsOk b [] hd.ops) ∧ hd.lens.length = hd.nlit + hd.ndist ∧
    mkBook (hd.lens.take hd.nlit) = some lit ∧ mkBook (hd.lens.drop hd.nlit) = some dist

/-- The format can express the block. -/
def Block.Ok (h : Bytes) : Block → Prop
  | .stored p => p.length ≤ 65535
  | .fixed ts => toksOk h ts
  | .coded hd ts => toksOk h ts ∧ ∃ lit dist, hd.Ok lit dist ∧ HasWord lit 256 ∧ ∀ t ∈ ts, t.Said lit dist

/-- All blocks can be expressed. -/
def blocksOk (h : Bytes) : List Block → Prop
  | [] => True
  | b :: bs => b.Ok h ∧ blocksOk (b.eval h) bs

/-! ### Their bits -/

/-- huffman_bit_writer.go, `writeBits`: a number in `n` bits, lowest first. -/
def numBits : Nat → Nat → List Bool
  | 0, _ => []
  | n + 1, v => (v % 2 == 1) :: numBits n (v / 2)

/-- The last `n` bits of a number, highest first. -/
def lastBits : Nat → Nat → List Bool
  | 0, _ => []
  | n + 1, key => (key / 2 ^ n % 2 == 1) :: lastBits n key

/-- The bits of a word, first bit first, from the number that stands for it in a `Book`. -/
def wordBits (key : Nat) : List Bool := lastBits key.log2 key

/-- The number that stands for the word of a symbol. -/
def Book.key (b : Book) (v : Nat) : Nat :=
  match b.find? (fun e => e.2 == v) with
  | some e => e.1
  | none => 0

/-- huffman_bit_writer.go, `writeTokens`: one token in these codes. -/
def Tok.bits (lit dist : Book) : Tok → List Bool
  | .lit c => wordBits (Book.key lit c.toNat)
  | .ref len d =>
    wordBits (Book.key lit (lenSym len)) ++ numBits (lenBase (lenSym len)).2 (len - (lenBase (lenSym len)).1) ++
      (wordBits (Book.key dist (distSym d)) ++ numBits (distBase (distSym d)).2 (d - (distBase (distSym d)).1))

/-- huffman_bit_writer.go, `writeTokens`: the tokens and the end of the block. -/
def toksBits (lit dist : Book) (ts : List Tok) : List Bool :=
  ts.flatMap (Tok.bits lit dist) ++ wordBits (Book.key lit 256)

/-- huffman_bit_writer.go, `writeDynamicHeader`: one operation. -/
def LenOp.bits (b : Book) : LenOp → List Bool
  | .len n => wordBits (Book.key b n)
  | .again t => wordBits (Book.key b 16) ++ numBits 2 (t - 3)
  | .zeros t => wordBits (Book.key b 17) ++ numBits 3 (t - 3)
  | .manyZeros t => wordBits (Book.key b 18) ++ numBits 7 (t - 11)

/-- A code, or the empty one. -/
def bookOf (lens : List Nat) : Book := (mkBook lens).getD []

/-- huffman_bit_writer.go, `writeDynamicHeader`. -/
def Header.bits (hd : Header) : List Bool :=
  numBits 14 (hd.nlit - 257 + 32 * (hd.ndist - 1) + 1024 * (hd.cl.length - 4)) ++ hd.cl.flatMap (numBits 3) ++
    hd.ops.flatMap (LenOp.bits (bookOf (clens hd.cl)))

/-- The bits that fill the current byte. -/
def padBits (pos : Nat) : List Bool := List.replicate ((8 - pos % 8) % 8) false

/-- The bits of a byte sequence. -/
def dataBits (p : Bytes) : List Bool := p.flatMap bitsOf

/-- huffman_bit_writer.go, `writeFixedHeader`, `writeStoredHeader`, `writeBytes`, `writeDynamicHeader`: a block, `pos` bits after the beginning of the stream. -/
def Block.bits (pos : Nat) (final : Bool) : Block → List Bool
  | .stored p =>
    [final, false, false] ++ padBits (pos + 3) ++ numBits 16 p.length ++ numBits 16 (65535 - p.length) ++ dataBits p
  | .fixed ts => [final, true, false] ++ toksBits fixedLit fixedDist ts
  | .coded hd ts => [final, false, true] ++ hd.bits ++
      toksBits (bookOf (hd.lens.take hd.nlit)) (bookOf (hd.lens.drop hd.nlit)) ts

/-- The bits of some blocks, none of them the last. -/
def blocksBits (pos : Nat) : List Block → List Bool
  | [] => []
  | b :: bs => b.bits pos false ++ blocksBits (pos + (b.bits pos false).length) bs

/-- Eight bits, lowest first. -/
def byteOf (bs : List Bool) : Byte := UInt8.ofNat (bs.foldr (fun b v => (if b then 1 else 0) + 2 * v) 0)

/-- The complete bytes in a sequence of bits. -/
def packBytes : List Bool → Bytes
  | b0 :: b1 :: b2 :: b3 :: b4 :: b5 :: b6 :: b7 :: bs => byteOf [b0, b1, b2, b3, b4, b5, b6, b7] :: packBytes bs
  | _ => []

/-- The bits after the last complete byte. -/
def packRest : List Bool → List Bool
  | _ :: _ :: _ :: _ :: _ :: _ :: _ :: _ :: bs => packRest bs
  | bs => bs

/-- zlib/writer.go, `Close`: the checksum, high byte first. -/
def sumBytes (n : Nat) : Bytes :=
  [UInt8.ofNat (n / 16777216), UInt8.ofNat (n / 65536 % 256), UInt8.ofNat (n / 256 % 256), UInt8.ofNat (n % 256)]

end Verif.Go.Deflate
