import Verif.Tiger.HashVar

/-!
# Private identifiers and their hashes (`adc/types/types.go`, `tiger/tiger.go`)

The random source and the hash function are parameters.
-/

namespace Verif.Adc

open Verif.Go Verif.Tiger

/-- What one call of `rand.Reader.Read` does to the 24 bytes it is given: the bytes afterwards, the number and the error it returns. -/
abbrev RandomRead := Hash → Hash × Nat × Option Err

/-- `NewPID`, `adc/types/types.go:149-152`: one call; the number is not looked at. -/
def newPID (read : RandomRead) : Hash × Option Err :=
  let (id, _, err) := read .zero
  (id, err)

/-- `h.Sum(out[:0])`, `tiger/tiger.go:32`: the digest is appended to the empty start of an array of 24 zero bytes; if it is longer, `append`
takes another array and this one stays as it is. -/
def sumInto (digest : Bytes) : Hash :=
  if h : digest.length ≤ 24 then ⟨digest ++ List.replicate (24 - digest.length) 0, by simp; omega⟩ else .zero

/-- A `hash.Hash`: the error of `Write` and the digest of what was written. -/
structure Hasher where
  write : Bytes → Option Err
  digest : Bytes → Bytes

/-- `HashBytes`, `tiger/tiger.go:27-34`. -/
def hashBytes (T : Hasher) (b : Bytes) : Res Hash :=
  match T.write b with
  | some _ => .panic
  | none => .ok (sumInto (T.digest b))

/-- `CID.Hash`, `adc/types/types.go:133-135`. -/
def CID.hash (T : Hasher) (id : CID) : Res CID := hashBytes T id.bytes

end Verif.Adc
