import Verif.Tiger.Function
import Verif.Adc.Pid

/-!
# The hash value that `New` returns (`tiger/tiger.go`, `github.com/cxmcc/tiger`)

`New` (`tiger/tiger.go:16-18`) returns the `digest` of the package; its methods are modelled from what is known of its source.
Of the buffer only the bytes in use are kept.
-/

namespace Verif.Tiger

open Verif.Go

/-- `digest`: the state, the bytes that do not yet fill a block, and the number of bytes, a 64-bit number. -/
structure Digest where
  st : State
  x : Bytes
  len : Nat

/-- `New`, `tiger/tiger.go:16-18`. -/
def Digest.new : Digest := ⟨start, [], 0⟩

/-- The end of `Write`: whole blocks from the data itself, the rest into the empty buffer. -/
def Digest.tail (d : Digest) (p : Bytes) : Digest :=
  if p.length % 64 = 0 then { d with st := compressAll d.st p }
  else { d with st := compressAll d.st p, x := p.drop (p.length / 64 * 64) }

/-- `Write`: a buffer that is in use is filled first. -/
def Digest.write (d : Digest) (p : Bytes) : Digest :=
  let d := { d with len := (d.len + p.length) % 2 ^ 64 }
  if 0 < d.x.length then
    let n := if 64 - d.x.length < p.length then 64 - d.x.length else p.length
    let x := d.x ++ p.take n
    let d := if x.length = 64 then { d with st := compress (leWords x) d.st, x := [] } else { d with x := x }
    d.tail (p.drop n)
  else d.tail p

/-- `Sum`: the padding and the number of bits are written to a copy, and the digest is appended. -/
def Digest.sum (d : Digest) (pre : Bytes) : Bytes :=
  let size := d.len % 64
  let pad := 1 :: List.replicate ((if size < 56 then 56 - size else 64 + 56 - size) - 1) 0
  let bits := d.len * 8 % 2 ^ 64
  let d := (d.write pad).write (leBytes bits)
  pre ++ (leBytes d.st.a ++ leBytes d.st.b ++ leBytes d.st.c)

/-- What is done with a hash value: `Write`, `Sum` and `Reset`. -/
inductive DigestCall where
  | write (p : Bytes)
  | sum
  | reset
deriving DecidableEq, Repr

/-- A series of calls; the results of `Sum(nil)`. -/
def Digest.run (d : Digest) : List DigestCall → List Bytes
  | [] => []
  | .write p :: cs => (d.write p).run cs
  | .sum :: cs => d.sum [] :: d.run cs
  | .reset :: cs => Digest.new.run cs

/-- `New`, `Write` and `Sum` as `HashBytes` uses them, `tiger/tiger.go:28-32`: `Write` does not fail. -/
def tigerHasher : Adc.Hasher := ⟨fun _ => none, fun b => (Digest.new.write b).sum []⟩

end Verif.Tiger
