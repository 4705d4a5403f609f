import Verif.Go.Inflate
import Verif.Lineproto.Reader

/-!
# `compress/zlib` as the decompressor of the reader
-/

namespace Verif.Lineproto

open Verif.Go.Inflate

/-- `zlib.ErrHeader`. -/
def zlibHeaderErr : Err := .other 31

/-- `zlib.ErrDictionary`. -/
def zlibDictErr : Err := .other 32

/-- compress/zlib/reader.go, `reader.Reset`: method 8, a window of at most 32 KiB, header divisible by 31.  Simplification: a stream that
asks for a dictionary is refused at once; the Go code reads the four bytes that name it first. -/
def zlibHeader (a b : Byte) : Except Err St :=
  if a.toNat % 16 ≠ 8 ∨ 7 < a.toNat / 16 ∨ (a.toNat * 256 + b.toNat) % 31 ≠ 0 then .error zlibHeaderErr
  else if b.toNat / 32 % 2 = 1 then .error zlibDictErr
  else .ok St.start

/-- Status of the decompressor. -/
def zlibStatus (s : St) : ZStatus :=
  match s.mode with
  | .done => .done
  | .fail c => .failed (.other c)
  | _ => .running

/-- inflate.go, `dataBlock`, `copyData` and zlib/reader.go, `Read`: the lengths of a stored block (4 bytes), its data (as far as it fits
into the window) and the checksum (4 bytes) are read by `io.ReadFull`. -/
def zlibWant (s : St) : Nat :=
  match s.mode with
  | .num left _ _ .len => if left = 16 then 4 else 3
  | .num left _ _ (.nlen _) => if left = 16 then 2 else 1
  | .num _ _ _ (.copy n) => min n (32768 - s.hist.length % 32768)
  | .num _ _ _ (.sum left _) => left
  | _ => 0

/-- `compress/zlib`, the decompressor used in lineproto/reader.go:282-303. -/
def zlibInflater : Inflater St where
  header := zlibHeader
  step := St.byte
  status := zlibStatus
  want := zlibWant

end Verif.Lineproto
