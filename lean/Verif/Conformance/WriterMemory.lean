import Verif.Conformance.Line
import Verif.Lineproto.WriterMemory

/-!
# Instances: the writers with their memory

As in `Verif.Conformance.Line`: single cases of the theorems of `LineWriterMemory`, computed from the model alone.  Each program is run with
its memory and, where it only writes lines, as `WOp`s on the writer of values as well.
-/

namespace Verif.Conformance.WriterMemory

open Verif.Lineproto Verif.Lineproto.Mem Verif.Conformance.Line

set_option maxRecDepth 8000

/-- A step of a program: a call, or a store to one of its arrays. -/
inductive Step where
  | call (op : MOp)
  | store (a : Nat) (v : Bytes)

/-- The results of the calls, and the writer and the memory at the end. -/
def steps (W : World) : List Step → Heap → MOut Bool → Option (List (Nat × Option Err) × MOut Bool × Heap)
  | [], h, o => some ([], o, h)
  | .store a v :: ss, h, o => steps W ss (h.set a v) o
  | .call op :: ss, h, o =>
    match o.step toyW W op h with
    | .val (r, o, h) => (steps W ss h o).map fun x => (r :: x.1, x.2)
    | _ => none

/-- The program has one array, number 0, with `text` in it; the writer has a buffer of `size` bytes. -/
def wm (size : Int) (tmo : List (Option Err)) (script : List SEv) (text : Bytes) (ss : List Step) : Option (List (Nat × Option Err) × Bytes × Bytes) :=
  match (newMWriter size tmo ⟨[], script⟩ ⟨fun _ => text, 1⟩ : MWriter Bool × Heap) with
  | (m, h) => (steps ⟨fun _ => [], fun n => 2 * n⟩ ss h ⟨m, ⟨h.next, 0, 0⟩⟩).map fun x => (x.1, x.2.1.m.w.sink.sent, x.2.2.mem 0)

/-- A line from the middle of an array; the array is used again at once. -/
example : wm 4 [] [] b!"xxab|yy" [.call (.line [] ⟨0, 2, 3⟩), .store 0 b!"-------", .call .flush] =
    some ([(0, none), (0, none)], b!"ab|", b!"-------") := by decide +kernel

/-- Lines shorter than the buffer, as long, and longer; the rest of a long line stays in the buffer. -/
example : wm 4 [] [] b!"abcdefghi|" [.call (.line [] ⟨0, 0, 10⟩)] = some ([(0, none)], b!"abcdefghi|", b!"abcdefghi|") := by decide +kernel
example : wm 4 [] [] b!"ab|cdefghi|" [.call (.line [] ⟨0, 0, 3⟩), .call (.line [] ⟨0, 3, 3⟩)] =
    some ([(0, none), (0, none)], b!"ab|c", b!"ab|cdefghi|") := by decide +kernel
example : wm 4 [] [] b!"ab|cdefghi|" [.call (.line [] ⟨0, 0, 3⟩), .call (.line [] ⟨0, 3, 3⟩), .store 0 b!"12345678901", .call .flush] =
    some ([(0, none), (0, none), (0, none)], b!"ab|cde", b!"12345678901") := by decide +kernel
example : wm 4 [] [] b!"ab|cdefghi|" [.call (.line [] ⟨0, 0, 3⟩), .call (.line [] ⟨0, 3, 8⟩), .call .flush] =
    some ([(0, none), (0, none), (0, none)], b!"ab|cdefghi|", b!"ab|cdefghi|") := by decide +kernel
example : wm 4 [] [] b!"ab|c" [.call (.line [] ⟨0, 0, 3⟩), .call (.line [] ⟨0, 3, 1⟩)] = some ([(0, none), (0, none)], [], b!"ab|c") ∧
    wm 4 [] [] b!"ab|c" [.call (.line [] ⟨0, 0, 3⟩), .call (.line [] ⟨0, 3, 1⟩), .call (.line [] ⟨0, 0, 1⟩)] =
      some ([(0, none), (0, none), (0, none)], b!"ab|c", b!"ab|c") := by decide +kernel

/-- A second `Flush` sends nothing. -/
example : wm 4 [] [] b!"ab|" [.call (.line [] ⟨0, 0, 3⟩), .call .flush, .call .flush] = some ([(0, none), (0, none), (0, none)], b!"ab|", b!"ab|") := by
  decide +kernel

/-- A write that fails: the error stays, and nothing is sent twice. -/
example : wm 4 [] [.fail 1 (.other 7)] b!"ab|" [.call (.line [] ⟨0, 0, 3⟩), .call .flush, .call .flush, .call (.line [] ⟨0, 0, 3⟩)] =
    some ([(0, none), (0, some (.other 7)), (0, some (.other 7)), (0, some (.other 7))], b!"a", b!"ab|") := by decide +kernel
example : wm 4 [] [.fail 2 (.other 7)] b!"abcdefgh|" [.call (.line [] ⟨0, 0, 9⟩), .call .flush, .call .close] =
    some ([(0, some (.other 7)), (0, some (.other 7)), (0, some (.other 7))], b!"ab", b!"abcdefgh|") := by decide +kernel

/-- After a short write the rest is at the start of the buffer. -/
example : (match (newMWriter 4 [] ⟨[], [.fail 1 (.other 7)]⟩ ⟨fun _ => b!"abcd", 1⟩ : MWriter Bool × Heap) with
    | (m, h) => match m.writeLine toyW [] ⟨0, 0, 3⟩ h with
      | .val (_, m, h) => match m.bwFlush toyW h with
        | .val (e, m, h) => (e, m.bw.map (fun b => (b.n, b.berr, (h.mem b.arr).take b.n)))
        | _ => (none, none)
      | _ => (none, none)) = (some (.other 7), some (2, some (.other 7), b!"bc")) := by decide +kernel

/-- What a callback leaves in the array is what is sent; a callback that refuses stops the others. -/
example : wm 9 [] [] b!"ab|" [.call (.line [⟨[(0, b!"AB|")], .accept⟩, ⟨[(0, b!"Ab|")], .accept⟩] ⟨0, 0, 3⟩), .call .flush] =
    some ([(0, none), (0, none)], b!"Ab|", b!"Ab|") := by decide +kernel
example : wm 9 [] [] b!"ab|" [.call (.line [⟨[(0, b!"AB|")], .drop⟩, ⟨[(0, b!"Ab|")], .accept⟩] ⟨0, 0, 3⟩), .call .flush] =
    some ([(0, none), (0, none)], [], b!"AB|") := by decide +kernel
example : wm 9 [] [] b!"ab|" [.call (.line [⟨[(0, b!"AB|")], .fail (.other 3)⟩, ⟨[(0, b!"Ab|")], .accept⟩] ⟨0, 0, 3⟩), .call .flush] =
    some ([(0, some (.other 3)), (0, some (.other 3))], [], b!"AB|") := by decide +kernel

/-- The callback for timeouts. -/
example : wm 9 [none, some (.other 4)] [] b!"ab|" [.call (.line [] ⟨0, 0, 3⟩), .call .flush, .call .flush] =
    some ([(0, none), (0, some (.other 4)), (0, some (.other 4))], [], b!"ab|") := by decide +kernel

/-- `Write` sends what is in the buffer first. -/
example : wm 9 [] [] b!"ab|raw" [.call (.line [] ⟨0, 0, 3⟩), .call (.write ⟨0, 3, 3⟩), .call (.write ⟨0, 0, 1⟩)] =
    some ([(0, none), (3, none), (1, none)], b!"ab|rawa", b!"ab|raw") := by decide +kernel

/-- Compression: what is in the buffer goes out before, and is compressed after. -/
example : wm 9 [] [] b!"ab|cd|" [.call (.line [] ⟨0, 0, 3⟩), .call (.enable 1), .call (.line [] ⟨0, 3, 3⟩), .store 0 b!"------", .call .disable,
      .call (.write ⟨0, 0, 2⟩), .call .disable] =
    some ([(0, none), (0, none), (0, none), (0, none), (2, none), (0, some .zlibNotActive)], b!"ab|xzcd|" ++ [0] ++ b!"--", b!"------") := by decide +kernel
example : wm 9 [] [] b!"ab|" [.call (.enable 1), .call (.enable 1), .call (.line [] ⟨0, 0, 3⟩), .call .flush, .call .disable, .call (.enable 1),
      .call (.line [] ⟨0, 0, 3⟩), .call .close] =
    some ([(0, none), (0, some .zlibAlreadyActive), (0, none), (0, none), (0, none), (0, none), (0, none), (0, none)],
      b!"xzab|" ++ [0] ++ b!"xzab|" ++ [0], b!"ab|") := by decide +kernel

/-- An error of the compressor's writer is kept. -/
example : wm 9 [] [.ok, .fail 0 (.other 5)] b!"ab|" [.call (.enable 1), .call (.line [] ⟨0, 0, 3⟩), .call .flush, .call .flush, .call .disable] =
    some ([(0, none), (0, none), (0, some (.other 5)), (0, some (.other 5)), (0, some (.other 5))], b!"xzab|", b!"ab|") := by decide +kernel
example : wm 9 [] [.fail 1 (.other 5)] b!"ab|" [.call (.line [] ⟨0, 0, 3⟩), .call (.enable 1), .call (.enable 1)] =
    some ([(0, none), (0, some (.other 5)), (0, some (.other 5))], b!"a", b!"ab|") := by decide +kernel

/-- Lines after the compressed part go out as they are. -/
example : wm 9 [] [] b!"ab|cd|" [.call (.enable 1), .call (.line [] ⟨0, 0, 3⟩), .call .disable, .call (.line [] ⟨0, 3, 3⟩), .call .flush] =
    some ([(0, none), (0, none), (0, none), (0, none), (0, none)], b!"xzab|" ++ [0] ++ b!"cd|", b!"ab|cd|") := by decide +kernel

/-- A failing `Write` of compressed text counts no bytes; one of plain text counts those that were sent. -/
example : wm 9 [] [.fail 3 (.other 7)] b!"ab|" [.call (.enable 1), .call (.write ⟨0, 0, 3⟩)] = some ([(0, none), (0, some (.other 7))], b!"xza", b!"ab|") ∧
    wm 9 [] [.fail 2 (.other 7)] b!"ab|" [.call (.write ⟨0, 0, 3⟩)] = some ([(2, some (.other 7))], b!"ab", b!"ab|") := by decide +kernel

/-- After `DisableZlib` a failing `Write` counts the bytes that were sent. -/
example : wm 9 [] [.ok, .fail 2 (.other 7)] b!"ab|" [.call (.enable 1), .call .disable, .call (.write ⟨0, 0, 3⟩)] =
    some ([(0, none), (0, none), (2, some (.other 7))], b!"xz" ++ [0] ++ b!"ab", b!"ab|") := by decide +kernel

/-- After an error of `Flush` the callback for timeouts is not called again. -/
example : wm 9 [none, none, some (.other 4), some (.other 4)] [.fail 1 (.other 7)] b!"ab|" [.call (.line [] ⟨0, 0, 3⟩), .call .flush, .call .flush, .call (.line [] ⟨0, 0, 3⟩)] =
    some ([(0, none), (0, some (.other 7)), (0, some (.other 7)), (0, some (.other 7))], b!"a", b!"ab|") := by decide +kernel

/-- A closed writer; a second `Close` panics. -/
example : wm 9 [] [] b!"ab|" [.call (.line [] ⟨0, 0, 3⟩), .call .close, .call (.line [] ⟨0, 0, 3⟩), .call (.write ⟨0, 0, 1⟩), .call .flush, .call (.enable 1)] =
    some ([(0, none), (0, none), (0, some .writerClosed), (0, some .writerClosed), (0, some .writerClosed), (0, some .writerClosed)], b!"ab|", b!"ab|") ∧
    wm 9 [] [] b!"ab|" [.call .close, .call .close] = none := by decide +kernel

/-- Messages share one array. -/
example : wm 4 [] [] b!"z" [.call (.msg [] b!"ab|"), .call (.msg [] b!"cdefgh|"), .call (.msg [⟨[], .drop⟩] b!"no|"), .call (.msg [] b!"i|"), .call .flush] =
    some ([(0, none), (0, none), (0, none), (0, none), (0, none)], b!"ab|cdefgh|i|", b!"z") := by decide +kernel

end Verif.Conformance.WriterMemory
