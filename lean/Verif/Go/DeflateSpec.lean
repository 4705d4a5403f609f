import Verif.Go.Deflate

/-!
# The format of DEFLATE, as a relation

What RFC 1951 allows, with no choice made: the bits that fill a byte may be any, and a length or a distance may be said in each way there is
(the length 258 has two).
-/

namespace Verif.Go.Deflate

open Verif.Go.Inflate

/-- RFC 1951, 3.2.5: after the data `h` (last byte first) these bits are one literal or one reference, and the data is then this. -/
inductive TokSays (lit dist : Book) (h : Bytes) : List Bool → Bytes → Prop
  | lit (c : Byte) (hw : HasWord lit c.toNat) : TokSays lit dist h (wordBits (Book.key lit c.toNat)) (c :: h)
  | ref (v x w y : Nat) (h1 : 257 ≤ v) (h2 : v ≤ 285) (hv : HasWord lit v) (hx : x < 2 ^ (lenBase v).2) (h3 : w ≤ 29) (hw : HasWord dist w)
      (hy : y < 2 ^ (distBase w).2) (hd : (distBase w).1 + y ≤ h.length) :
      TokSays lit dist h
        (wordBits (Book.key lit v) ++ (numBits (lenBase v).2 x ++ (wordBits (Book.key dist w) ++ numBits (distBase w).2 y)))
        (copyBack ((distBase w).1 + y) ((lenBase v).1 + x) h)

/-- Some literals and references. -/
inductive ToksSay (lit dist : Book) : Bytes → List Bool → Bytes → Prop
  | nil (h : Bytes) : ToksSay lit dist h [] h
  | cons {h h1 h2 : Bytes} {a b : List Bool} (ht : TokSays lit dist h a h1) (hts : ToksSay lit dist h1 b h2) :
      ToksSay lit dist h (a ++ b) h2

/-- RFC 1951, 3.2.3 to 3.2.7: a block that begins `pos` bits after the beginning of the stream. -/
inductive BlockSays (f : Bool) (pos : Nat) (h : Bytes) : List Bool → Bytes → Prop
  | stored (pad : List Bool) (p : Bytes) (hpad : pad.length = (8 - (pos + 3) % 8) % 8) (hp : p.length ≤ 65535) :
      BlockSays f pos h ([f, false, false] ++ (pad ++ (numBits 16 p.length ++ numBits 16 (65535 - p.length) ++ dataBits p))) (p.reverse ++ h)
  | fixed (ts : List Bool) (h' : Bytes) (hts : ToksSay fixedLit fixedDist h ts h') :
      BlockSays f pos h ([f, true, false] ++ (ts ++ wordBits (Book.key fixedLit 256))) h'
  | coded (hd : Header) (lit dist : Book) (ts : List Bool) (h' : Bytes) (hhd : hd.Ok lit dist) (h256 : HasWord lit 256)
      (hts : ToksSay lit dist h ts h') :
      BlockSays f pos h ([f, false, true] ++ (hd.bits ++ (ts ++ wordBits (Book.key lit 256)))) h'

/-- Blocks; the last one, and no other, is marked. -/
inductive StreamSays : Nat → Bytes → List Bool → Bytes → Prop
  | last {pos : Nat} {h h' : Bytes} {a : List Bool} (hb : BlockSays true pos h a h') : StreamSays pos h a h'
  | more {pos : Nat} {h h1 h2 : Bytes} {a b : List Bool} (hb : BlockSays false pos h a h1) (hs : StreamSays (pos + a.length) h1 b h2) :
      StreamSays pos h (a ++ b) h2

end Verif.Go.Deflate
