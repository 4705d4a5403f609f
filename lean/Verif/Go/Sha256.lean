import Verif.Go.Words

/-!
# `crypto/sha256`: `Sum256`

Words are numbers below `2^32`, the words of a block the list of the next sixteen words of the schedule.
-/

namespace Verif.Go.Sha256

/-- Addition of words. -/
def add (x y : Nat) : Nat := (x + y) % 2 ^ 32

/-- `bits.RotateLeft32(x, -n)`. -/
def rotr (n x : Nat) : Nat := x / 2 ^ n + x % 2 ^ n * 2 ^ (32 - n)

/-- `_K`. -/
def k : List Nat :=
  [0x428a2f98, 0x71374491, 0xb5c0fbcf, 0xe9b5dba5, 0x3956c25b, 0x59f111f1, 0x923f82a4, 0xab1c5ed5,
   0xd807aa98, 0x12835b01, 0x243185be, 0x550c7dc3, 0x72be5d74, 0x80deb1fe, 0x9bdc06a7, 0xc19bf174,
   0xe49b69c1, 0xefbe4786, 0x0fc19dc6, 0x240ca1cc, 0x2de92c6f, 0x4a7484aa, 0x5cb0a9dc, 0x76f988da,
   0x983e5152, 0xa831c66d, 0xb00327c8, 0xbf597fc7, 0xc6e00bf3, 0xd5a79147, 0x06ca6351, 0x14292967,
   0x27b70a85, 0x2e1b2138, 0x4d2c6dfc, 0x53380d13, 0x650a7354, 0x766a0abb, 0x81c2c92e, 0x92722c85,
   0xa2bfe8a1, 0xa81a664b, 0xc24b8b70, 0xc76c51a3, 0xd192e819, 0xd6990624, 0xf40e3585, 0x106aa070,
   0x19a4c116, 0x1e376c08, 0x2748774c, 0x34b0bcb5, 0x391c0cb3, 0x4ed8aa4a, 0x5b9cca4f, 0x682e6ff3,
   0x748f82ee, 0x78a5636f, 0x84c87814, 0x8cc70208, 0x90befffa, 0xa4506ceb, 0xbef9a3f7, 0xc67178f2]

/-- `init0` to `init7`. -/
def init : List Nat :=
  [0x6a09e667, 0xbb67ae85, 0x3c6ef372, 0xa54ff53a, 0x510e527f, 0x9b05688c, 0x1f83d9ab, 0x5be0cd19]

/-- The two sums of the schedule and the two of a round. -/
def sig0 (x : Nat) : Nat := rotr 7 x ^^^ rotr 18 x ^^^ x / 2 ^ 3
def sig1 (x : Nat) : Nat := rotr 17 x ^^^ rotr 19 x ^^^ x / 2 ^ 10
def sum0 (x : Nat) : Nat := rotr 2 x ^^^ rotr 13 x ^^^ rotr 22 x
def sum1 (x : Nat) : Nat := rotr 6 x ^^^ rotr 11 x ^^^ rotr 25 x

/-- `(e & f) ^ (^e & g)`. -/
def ch (e f g : Nat) : Nat := (e &&& f) ^^^ ((2 ^ 32 - 1 - e) &&& g)
/-- `(a & b) ^ (a & c) ^ (b & c)`. -/
def maj (a b c : Nat) : Nat := (a &&& b) ^^^ (a &&& c) ^^^ (b &&& c)

/-- The rounds of a block, one for each constant. -/
def rounds : List Nat → List Nat → List Nat → List Nat
  | k :: ks, w0 :: w1 :: ws, [a, b, c, d, e, f, g, h] =>
    let t1 := add (add (add (add h (sum1 e)) (ch e f g)) k) w0
    let t2 := add (sum0 a) (maj a b c)
    strict (add t1 t2) fun a' => strict (add d t1) fun e' =>
      strict (add (add (add (sig1 (ws.getD 12 0)) (ws.getD 7 0)) (sig0 w1)) w0) fun w =>
        rounds ks (w1 :: ws ++ [w]) [a', a, b, c, e', e, f, g]
  | _, _, s => s

/-- The words of a block. -/
def words : Bytes → List Nat
  | a :: b :: c :: d :: s => (((a.toNat * 256 + b.toNat) * 256 + c.toNat) * 256 + d.toNat) :: words s
  | _ => []

/-- One block. -/
def addBlock : List Nat → List Nat → List Nat
  | x :: xs, y :: ys => strict (add x y) fun z => z :: addBlock xs ys
  | _, _ => []

/-- `block`. -/
def blocks (s : List Nat) (p : Bytes) : List Nat :=
  if _h : p.length < 64 then s
  else blocks (addBlock s (rounds k (words (p.take 64)) s)) (p.drop 64)
termination_by p.length
decreasing_by simp; omega

/-- The padding: a bit, zeros up to eight bytes before the end of a block, and the number of bits. -/
def pad (n : Nat) : Bytes :=
  0x80 :: List.replicate ((119 - n % 64) % 64) 0 ++ ((List.range 8).map fun i => UInt8.ofNat (n * 8 / 256 ^ (7 - i) % 256))

/-- The bytes of a word. -/
def wordBytes (x : Nat) : Bytes := [x / 256 ^ 3 % 256, x / 256 ^ 2 % 256, x / 256 % 256, x % 256].map UInt8.ofNat

/-- `Sum256`. -/
def sum256 (b : Bytes) : Bytes := (blocks init (b ++ pad b.length)).flatMap wordBytes

end Verif.Go.Sha256
