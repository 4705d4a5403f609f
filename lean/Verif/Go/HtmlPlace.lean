import Verif.Go.Html

/-!
# `html.UnescapeString`, in its buffer

`html/escape.go`, `UnescapeString` and `unescapeEntity`.  The text is copied into a buffer once, and the result is written over the front of that buffer while the rest of
it is still being read.  `Verif.Go.htmlUnescape` is the same function without the buffer.
-/

namespace Verif.Go

/-- `b[dst]...` = `v`: writing `v` into the buffer at `dst`; `none` is the panic of an index out of range (`utf8.EncodeRune` and `b[dst:dst1]`
both have one).  The room between the length and the capacity of the buffer is taken to be empty. -/
def putAt (b : Bytes) (dst : Nat) (v : Bytes) : Option Bytes :=
  if dst + v.length ≤ b.length then some (b.take dst ++ v ++ b.drop (dst + v.length)) else none

/-- `copy(b[dst:], v)`: the buffer afterwards and the number of bytes copied, which is what fits; `none` is the panic when `dst` is beyond the end. -/
def copyAt (b : Bytes) (dst : Nat) (v : Bytes) : Option (Bytes × Nat) :=
  if dst ≤ b.length then
    let w := v.take (b.length - dst)
    some (b.take dst ++ w ++ b.drop (dst + w.length), w.length)
  else none

/-- `unescapeEntity(b, dst, src)`, `html/escape.go`: it reads at `src`, writes at `dst`, and returns both positions after that. -/
def unescapeAt [HtmlEntities] (b : Bytes) (dst src : Nat) : Option (Bytes × Nat × Nat) :=
  let e := unescapeEntity (b.drop src)
  (putAt b dst e.1).map fun b' => (b', dst + e.1.length, src + e.2)

/-- The loop of `html.UnescapeString`, `html/escape.go`; `fuel` bounds the number of rounds, and `none` is also what an exhausted bound
gives. -/
def placeLoop [HtmlEntities] (s : Bytes) : Nat → Bytes → Nat → Nat → Option Bytes
  | 0, _, _, _ => none
  | fuel + 1, b, dst, src =>
    if s.length < src then none
    else if (s.drop src).length = 0 then some (b.take dst)
    else
      match indexByte (s.drop src) c!"&" with
      | none => (copyAt b dst (s.drop src)).map fun r => r.1.take (dst + r.2)
      | some i =>
        (copyAt b dst ((s.drop src).take i)).bind fun r =>
          (unescapeAt r.1 (dst + i) (src + i)).bind fun t => placeLoop s fuel t.1 t.2.1 t.2.2

/-- `html.UnescapeString`, `html/escape.go`. -/
def unescapeString [HtmlEntities] (s : Bytes) : Option Bytes :=
  match indexByte s c!"&" with
  | none => some s
  | some i => (unescapeAt s i i).bind fun t => placeLoop s (s.length + 1) t.1 t.2.1 t.2.2

end Verif.Go
