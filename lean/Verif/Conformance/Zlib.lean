import Verif.Lineproto.Zlib
import Verif.Lineproto.ZlibWriter
import Verif.Lineproto.ReaderLemmas

/-!
# The tests of the repository with zlib, run on the model

`TestReader` of `lineproto/reader_test.go:11-76`, and `TestWriterZlib`, `TestWriterZlibClose` of `lineproto/writer_test.go:16-121`, with the
bytes in these tests.  Then streams made by the reference implementation of zlib, and damaged ones.
-/

namespace Verif.Conformance.Zlib

open Verif.Lineproto Verif.Go.Inflate

set_option maxRecDepth 8000

/-- A step of a session: `ReadLine`, `EnableZlib`, or a binary section with some reads, closed afterwards. -/
inductive Do where
  | line
  | zlib
  | bin (sz : Nat) (reads : List Nat)

/-- What the caller sees. -/
inductive Saw where
  | line (l : Bytes) (e : Option Err)
  | zlib (e : Option Err)
  | bin (reads : List (Bytes × Option Err)) (close : Option Err)
  | broken
deriving DecidableEq, Repr

/-- The reads of a binary section. -/
def reads (left : Nat) (r : Reader St) : List Nat → Option (List (Bytes × Option Err) × Nat × Reader St)
  | [] => some ([], left, r)
  | n :: ns => match r.binRead zlibInflater 200 n left with
    | .val (x, left', r') => (reads left' r' ns).map fun y => (x :: y.1, y.2)
    | _ => none

/-- A step on the reader. -/
def Do.run (r : Reader St) : Do → Saw × Reader St
  | .line => match r.readLine zlibInflater 200 with
    | .val ((l, e), r') => (.line l e, r')
    | _ => (.broken, r)
  | .zlib => match r.enableZlib zlibInflater 200 [(3, true), (1, false), (5, true)] with
    | .val (e, r') => (.zlib e, r')
    | _ => (.broken, r)
  | .bin sz ns => match r.binary sz with
    | .error _ => (.broken, r)
    | .ok left => match reads left r ns with
      | none => (.broken, r)
      | some (xs, left', r') => match r'.binClose zlibInflater 200 left' with
        | .val (e, r'') => (.bin xs e, r'')
        | _ => (.broken, r)

/-- A session. -/
def session (r : Reader St) : List Do → List Saw
  | [] => []
  | d :: ds => (d.run r).1 :: session (d.run r).2 ds

/-- `$OtherCommand test|`, as it is compressed in the tests. -/
def section1 : Bytes := [120, 156, 82, 241, 47, 201, 72, 45, 114, 206, 207, 205, 77, 204, 75, 81, 40, 73, 45, 46, 169, 1, 4, 0, 0, 255, 255, 69, 30, 7, 66]

/-- The beginning of the second section in `TestWriterZlib`. -/
def section2 : Bytes := [0x78, 0x9c, 0x52, 0xf1, 0x2f, 0xc9, 0x48, 0x2d, 0x72, 0xce, 0xcf, 0xcd, 0x4d, 0xcc, 0x4b, 0x51, 0x28, 0x49, 0x2d, 0x2e,
  0xa9, 0x51, 0x71, 0xce, 0xcf, 0x2d, 0x28, 0x4a, 0x2d, 0x2e, 0x4e, 0x4d, 0x31, 0xaa, 0x1, 0x0, 0x0, 0x0, 0xff, 0xff]

/-- `TestReader`, `lineproto/reader_test.go:11-76`. -/
example : session (newReader [⟨b!"$ZOn|" ++ section1 ++ b!"$Uncompressed|$ZOn2|" ++ section1 ++
      b!"$Uncompressed2|binary$command3|2nary$command4|", none⟩] 124)
    [.line, .zlib, .line, .line, .line, .zlib, .line, .line, .bin 6 [7, 1], .line, .bin 5 [3], .line] =
    [.line b!"$ZOn|" none, .zlib none, .line b!"$OtherCommand test|" none, .line b!"$Uncompressed|" none, .line b!"$ZOn2|" none, .zlib none,
     .line b!"$OtherCommand test|" none, .line b!"$Uncompressed2|" none, .bin [(b!"binary", none), ([], some .eof)] none,
     .line b!"$command3|" none, .bin [(b!"2na", none)] none, .line b!"$command4|" none] := by decide +kernel

/-- The calls on a writer: their errors, and all that is sent. -/
def writes (ops : List WOp) : Option (List (Option Err) × Bytes) :=
  match (newWriter 0 [] ⟨[], []⟩ : Writer ZComp).run (zlibDeflater literalPlan) ops with
  | .val (rs, w) => some (rs.map (·.2), w.sink.sent)
  | _ => none

/-- `TestWriterZlib`, `lineproto/writer_test.go:16-62`: exactly these bytes. -/
example : writes [.line b!"$ZOn|", .enable (-1), .line b!"$OtherCommand test|", .disable, .line b!"$Uncompressed|", .line b!"$ZOn2|",
      .enable (-1), .line b!"$OtherCommand test|", .line b!"$Compressed2|", .flush] =
    some (List.replicate 10 none, b!"$ZOn|" ++ section1 ++ b!"$Uncompressed|$ZOn2|" ++ section2) := by decide +kernel

/-- `TestWriterZlib`, `lineproto/writer_test.go:64-89`: they are read again; there is more to come. -/
example : session (newReader [⟨b!"$ZOn|" ++ section1 ++ b!"$Uncompressed|$ZOn2|" ++ section2, none⟩] 124)
    [.line, .zlib, .line, .line, .line, .zlib, .line, .line, .line] =
    [.line b!"$ZOn|" none, .zlib none, .line b!"$OtherCommand test|" none, .line b!"$Uncompressed|" none, .line b!"$ZOn2|" none, .zlib none,
     .line b!"$OtherCommand test|" none, .line b!"$Compressed2|" none, .line [] (some .unexpectedEOF)] := by decide +kernel

/-- `TestWriterZlibClose`, `lineproto/writer_test.go:91-121`. -/
example : (writes [.enable (-1), .line b!"$CommandOne test1|", .flush, .line b!"$CommandTwo test2|", .close]).map (fun x =>
      (x.1, session (newReader [⟨x.2, none⟩] 124) [.zlib, .line, .line, .line])) =
    some (List.replicate 5 none, [.zlib none, .line b!"$CommandOne test1|" none, .line b!"$CommandTwo test2|" none, .line [] (some .eof)]) := by
  decide +kernel

/-- What a whole stream decompresses to. -/
def whole : Bytes → Option Bytes
  | a :: b :: r => match zlibHeader a b with
    | .ok z => inflate zlibInflater z r
    | _ => none
  | _ => none

/-- A stored block, from the reference implementation (level 0). -/
example : whole ([120, 1, 1, 11, 0, 244, 255] ++ b!"hello hello" ++ [25, 145, 4, 73]) = some b!"hello hello" := by decide +kernel

/-- A block in the fixed code, with a reference that overlaps itself, from the reference implementation (level 9). -/
example : whole [120, 218, 203, 72, 205, 201, 201, 87, 200, 64, 39, 1, 104, 3, 8, 177] = some b!"hello hello hello hello" := by
  decide +kernel

/-- A block with its own code, from the reference implementation (level 9). -/
example : whole [120, 218, 69, 142, 139, 13, 0, 49, 8, 66, 103, 229, 179, 255, 12, 167, 80, 115, 53, 213, 228, 161, 34, 0, 2, 226, 22, 79, 238,
      59, 68, 206, 15, 80, 241, 196, 9, 155, 67, 182, 142, 76, 111, 139, 210, 186, 216, 145, 186, 11, 112, 198, 69, 202, 186, 69, 17, 98, 16,
      159, 14, 190, 35, 216, 101, 169, 214, 67, 30, 162, 90, 250, 191, 52, 167, 126, 240, 90, 76, 65] =
    some (b!"aaabaacbaabadbaaaaaaaabaacbaabbbabbaaaabcaaaababab" ++ b!"cbaabbbaaabbababaabbacaabdaaaacabcaabab" ++
      b!"adabaabaabaacaadaaabacbbcdcaabababcaacaaabbaabbabbbcaabadbaaaaabaaaacaabaaadcaaaaabadacacbabaabdaaaaaaabaaacbaa") := by
  decide +kernel

/-- `$OtherCommand test|` with a wrong checksum: the line is there, and then the error. -/
example : session (newReader [⟨section1.take 30 ++ [67] ++ b!"$Uncompressed|", none⟩] 124) [.zlib, .line, .line] =
    [.zlib none, .line b!"$OtherCommand test|" none, .line [] (some (.other badSum))] := by decide +kernel

/-- The length of a stored block does not fit to its complement. -/
example : whole ([120, 1, 1, 11, 0, 244, 254] ++ b!"hello hello" ++ [25, 145, 4, 73]) = none := by decide +kernel


end Verif.Conformance.Zlib
