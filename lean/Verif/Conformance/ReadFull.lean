import Verif.Lineproto.Memory

/-!
# Instances of theorems, worked out on the model: a decompressor that reads by `io.ReadFull`

As in `Verif.Conformance.Line`: cases of theorems that a wrong program breaks without a proof being involved.
-/

namespace Verif.Conformance.ReadFull

open Verif.Lineproto

/-- A toy decompressor: header `x`, `z`; then blocks of a digit and as many bytes, the digit by `ReadByte` and the bytes by `io.ReadFull`;
the digit `0` ends the stream.  The state is the number of bytes that are still to come; `none` after the end. -/
def blocks : Inflater (Option Nat) where
  header a b := if a = 120 ∧ b = 122 then .ok (some 0) else .error .protocolViolation
  step
    | none, _ => (none, [])
    | some 0, c => if c = 48 then (none, []) else (some (c.toNat - 48), [])
    | some (n + 1), c => (some n, [c])
  status z := if z.isSome then .running else .done
  want z := z.getD 0

/-- What the caller sees of `EnableZlib` and of as many calls of `ReadLine`; `none` if one of them panics. -/
def lines (s : Src) (n : Nat) : Option (List (Bytes × Option Err)) :=
  let rec go : Nat → Reader (Option Nat) → Option (List (Bytes × Option Err))
    | 0, _ => some []
    | n + 1, r => match r.readLine blocks 60 with
      | .val (x, r') => (go n r').map (x :: ·)
      | _ => none
  match (newReader s 124).enableZlib blocks 60 [] with
  | .val (none, r) => go n r
  | .val (some e, _) => some [([], some e)]
  | _ => none

/-- The same for the reader with memory. -/
def mlines (s : Src) (n : Nat) : Option (List (Bytes × Option Err)) :=
  let W : Mem.World := ⟨fun _ => b!"|junk|", fun n => n + 1⟩
  let rec go (W : Mem.World) : Nat → Mem.MReader (Option Nat) → Mem.Heap → Option (List (Bytes × Option Err))
    | 0, _, _ => some []
    | n + 1, r, h => match r.readLine blocks W 60 h with
      | .val ((l, e), r', h') => (go W n r' h').map ((match l with | some s => s.bytes h' | none => [], e) :: ·)
      | _ => none
  match Mem.newReader s 124 ⟨fun _ => b!"0000", 1⟩ with
  | (r, h) =>
    match r.enableZlib blocks 60 [] h with
    | .val (none, r, h) => go W n r h
    | .val (some e, _, _) => some [([], some e)]
    | _ => none

/-- Both readers. -/
def Gives (s : Src) (n : Nat) (l : Option (List (Bytes × Option Err))) : Prop := lines s n = l ∧ mlines s n = l

instance (s : Src) (n : Nat) (l) : Decidable (Gives s n l) := inferInstanceAs (Decidable (_ ∧ _))

/-- All in one piece, and byte by byte. -/
example : Gives [⟨b!"xz3a|b2|c0d|", none⟩] 4 (some [(b!"a|", none), (b!"b|", none), (b!"cd|", none), ([], some .eof)]) := by decide +kernel

example : Gives (b!"xz3a|b2|c0d|".map fun c => ⟨[c], none⟩) 4 (some [(b!"a|", none), (b!"b|", none), (b!"cd|", none), ([], some .eof)]) := by
  decide +kernel

/-- `LineReaderPanic.call_panics_iff`: `(0, nil)` inside of a block does no harm, several of them neither; in place of a digit it panics. -/
example : Gives [⟨b!"xz", none⟩, ⟨b!"2", none⟩, ⟨[], none⟩, ⟨b!"a", none⟩, ⟨[], none⟩, ⟨[], none⟩, ⟨b!"|", none⟩, ⟨b!"0", none⟩, ⟨[], none⟩, ⟨b!"b|", none⟩] 2
    (some [(b!"a|", none), (b!"b|", none)]) := by decide +kernel

example : Gives [⟨b!"xz2a|", none⟩, ⟨[], none⟩, ⟨b!"0", none⟩] 1 (some [(b!"a|", none)]) ∧
    Gives [⟨b!"xz2a|", none⟩, ⟨[], none⟩, ⟨b!"0", none⟩] 2 none ∧ Gives [⟨b!"xz", none⟩, ⟨[], none⟩, ⟨b!"2a|0", none⟩] 1 none := by decide +kernel

/-- An error that comes with the last byte of a block is not returned; one that comes earlier is, and so is one without data. -/
example : Gives [⟨b!"xz", none⟩, ⟨b!"2", none⟩, ⟨b!"a|", some (.other 5)⟩, ⟨b!"0b|", none⟩] 2 (some [(b!"a|", none), (b!"b|", none)]) := by decide +kernel

example : Gives [⟨b!"xz", none⟩, ⟨b!"3", none⟩, ⟨b!"a|", some (.other 5)⟩, ⟨b!"c0b|", none⟩] 2 (some [(b!"a|", none), ([], some (.other 5))]) := by
  decide +kernel

example : Gives [⟨b!"xz", none⟩, ⟨b!"2", none⟩, ⟨[], some (.other 5)⟩, ⟨b!"a|0b|", none⟩] 2 (some [([], some (.other 5)), ([], some (.other 5))]) := by
  decide +kernel

/-- An error that comes with data is not seen by `ReadByte`. -/
example : Gives [⟨b!"xz", none⟩, ⟨b!"1", some (.other 5)⟩, ⟨b!"|", none⟩, ⟨b!"0b|", none⟩] 2 (some [(b!"|", none), (b!"b|", none)]) := by decide +kernel

/-- The end of the transport inside of the stream. -/
example : Gives [⟨b!"xz3a|", none⟩] 2 (some [(b!"a|", none), ([], some .unexpectedEOF)]) ∧
    Gives [⟨b!"xz2a|", none⟩] 2 (some [(b!"a|", none), ([], some .unexpectedEOF)]) ∧
    Gives [⟨b!"xz", none⟩, ⟨b!"3", none⟩, ⟨b!"a|", some .eof⟩] 2 (some [(b!"a|", none), ([], some .unexpectedEOF)]) ∧
    Gives [⟨b!"xz", none⟩, ⟨b!"3", none⟩, ⟨b!"a|", none⟩, ⟨[], some .eof⟩] 2 (some [(b!"a|", none), ([], some .unexpectedEOF)]) := by decide +kernel

end Verif.Conformance.ReadFull
