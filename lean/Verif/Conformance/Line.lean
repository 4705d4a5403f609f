import Verif.Lineproto.Memory
import Verif.Lineproto.WriterTrace

/-!
# Sessions of `lineproto`, run on the model

`TestReader` of `lineproto/reader_test.go:11-76` and further sessions, for several ways the bytes can arrive.  The tests of the
repository use zlib; the model takes any decompressor, and here it is a toy.  Nothing is proved by these examples: they are
single cases of theorems, named before each, that are computed from the model alone.
-/

namespace Verif.Conformance.Line

open Verif.Lineproto

set_option maxRecDepth 8000

/-- A toy compression format: header `x`, `z`; every byte stands for itself twice; `0` ends the stream. -/
def toy : Inflater Bool where
  header a b := if a = 120 ∧ b = 122 then .ok true else .error .protocolViolation
  step _ c := if c = 0 then (false, []) else (true, [c, c])
  status z := if z then .running else .done

/-- A step of a session: `ReadLine`, `EnableZlib`, `SetMaxLine`, or a binary section with some reads, closed afterwards. -/
inductive Do where
  | line
  | zlib
  | max (n : Int)
  | bin (sz : Nat) (reads : List Nat)

/-- What the caller sees. -/
inductive Saw where
  | line (l : Bytes) (e : Option Err)
  | zlib (e : Option Err)
  | max
  | bin (reads : List (Bytes × Option Err)) (close : Option Err)
  | broken
deriving DecidableEq, Repr

/-- The reads of a binary section. -/
def reads (left : Nat) (r : Reader Bool) : List Nat → Option (List (Bytes × Option Err) × Nat × Reader Bool)
  | [] => some ([], left, r)
  | n :: ns => match r.binRead toy 60 n left with
    | .val (x, left', r') => (reads left' r' ns).map fun y => (x :: y.1, y.2)
    | _ => none

/-- A step on the reader. -/
def Do.run (r : Reader Bool) : Do → Saw × Reader Bool
  | .line => match r.readLine toy 60 with
    | .val ((l, e), r') => (.line l e, r')
    | _ => (.broken, r)
  | .zlib => match r.enableZlib toy 60 [(3, true), (1, false), (5, true)] with
    | .val (e, r') => (.zlib e, r')
    | _ => (.broken, r)
  | .max n => (.max, r.setMaxLine n)
  | .bin sz ns => match r.binary sz with
    | .error _ => (.broken, r)
    | .ok left => match reads left r ns with
      | none => (.broken, r)
      | some (xs, left', r') => match r'.binClose toy 60 left' with
        | .val (e, r'') => (.bin xs e, r'')
        | _ => (.broken, r)

/-- A session. -/
def session (r : Reader Bool) : List Do → List Saw
  | [] => []
  | d :: ds => (d.run r).1 :: session (d.run r).2 ds

/-- The bytes in chunks of `k`. -/
def chunks (k : Nat) : Nat → Bytes → Src
  | 0, _ => []
  | n + 1, b => if b = [] then [] else ⟨b.take k, none⟩ :: chunks k n (b.drop k)

/-- A session for all chunks of a few sizes. -/
def Sees (b : Bytes) (ds : List Do) (xs : List Saw) : Prop :=
  ∀ k ∈ [1, 2, 3, 5, 100], session (newReader (chunks k b.length b) 124) ds = xs

instance (b : Bytes) (ds : List Do) (xs : List Saw) : Decidable (Sees b ds xs) := inferInstanceAs (Decidable (∀ k ∈ _, _))

/-- `LineReader.readLine_chunk_independent`. -/
example : Sees b!"a||bcd|e" [.line, .line, .line, .line, .line]
    [.line b!"a|" none, .line b!"|" none, .line b!"bcd|" none, .line b!"e" (some .eof), .line [] (some .eof)] := by decide +kernel

/-- `LineReader.session_exact`: a compressed section, after which the plain text goes on in the same line; then another one. -/
example : Sees (b!"a|xzb|c" ++ [0] ++ b!"d|xzef" ++ [0] ++ b!"|g|") [.line, .zlib, .line, .line, .line, .zlib, .line, .line, .line]
    [.line b!"a|" none, .zlib none, .line b!"bb|" none, .line b!"|" none, .line b!"ccd|" none, .zlib none,
     .line b!"eeff|" none, .line b!"g|" none, .line [] (some .eof)] := by decide +kernel

/-- `LineReader.session_exact`: a section closed early; nothing of it is left, and what is after it is not touched. -/
example : Sees b!"a|binarygh|tail" [.line, .bin 6 [], .line, .line]
    [.line b!"a|" none, .bin [] none, .line b!"gh|" none, .line b!"tail" (some .eof)] := by decide +kernel

/-- Reads of one byte are the same for all chunks, and the section ends where it should. -/
example : Sees b!"a|bing|" [.line, .bin 3 [1, 1, 1, 1], .line]
    [.line b!"a|" none, .bin [(b!"b", none), (b!"i", none), (b!"n", none), ([], some .eof)] none, .line b!"g|" none] := by
  decide +kernel

/-- The section may lie in what is decompressed, and across its end. -/
example : Sees (b!"xzbc" ++ [0] ++ b!"de|f|") [.zlib, .bin 5 [1, 1, 1, 1, 1], .line, .line]
    [.zlib none, .bin [(b!"b", none), (b!"b", none), (b!"c", none), (b!"c", none), (b!"d", none)] none, .line b!"e|" none,
     .line b!"f|" none] := by decide +kernel

/-- A read longer than the section, where everything is already in the buffer. -/
example : session (newReader [⟨b!"a|bing|", none⟩] 124) [.line, .bin 3 [10], .line] =
    [.line b!"a|" none, .bin [(b!"bin", none)] none, .line b!"g|" none] := by decide +kernel

/-- Closing gets over short reads. -/
example : session (newReader [⟨b!"a|b", none⟩, ⟨b!"i", none⟩, ⟨b!"ng|", none⟩] 124) [.line, .bin 3 [10], .line] =
    [.line b!"a|" none, .bin [(b!"b", none)] none, .line b!"g|" none] := by decide +kernel

/-- `LineReader.readLine_legal`: a line of the length of the limit passes, and 0 is no limit. -/
example : Sees b!"abc|defghi|" [.max 4, .line, .max 0, .line] [.max, .line b!"abc|" none, .max, .line b!"defghi|" none] := by
  decide +kernel

/-- `LineReader.readLine_bounded`: no line is longer than the limit by a whole buffer. -/
example : session (newReader [⟨b!"abc", none⟩, ⟨List.replicate 2047 100 ++ b!"|", none⟩] 124) [.max 3, .line] =
    [.max, .line [] (some .bufferExhausted)] := by decide +kernel

/-- `LineReader.readLine_chunk_independent`: data that comes with an error is not lost. -/
example : session (newReader [⟨b!"ab|c", some .unexpectedEOF⟩, ⟨b!"d|", some .eof⟩] 124) [.line, .line, .line] =
    [.line b!"ab|" none, .line b!"cd|" none, .line [] (some .eof)] := by decide +kernel

/-- `LineReader.readLine_hooks_filter`: a line that a hook refuses is not returned. -/
example : session ((newReader [⟨b!"ab|c|d|", none⟩] 124).addHook fun l => if l = b!"ab|" then .fail .protocolViolation else
    if l = b!"c|" then .drop else .accept) [.line, .line, .line] =
    [.line [] (some .protocolViolation), .line b!"d|" none, .line [] (some .eof)] := by decide +kernel

/-- `LineReader.session_exact`: the end of a compressed section is not the end of a binary section; what was decompressed before a read
is not lost. -/
example : session (newReader [⟨b!"xzbc" ++ [0] ++ b!"de|f|", none⟩] 124) [.zlib, .bin 5 [10, 10, 10], .line, .line] =
    [.zlib none, .bin [(b!"bbcc", none), (b!"d", none), ([], some .eof)] none, .line b!"e|" none, .line b!"f|" none] := by decide +kernel

example : session (newReader [⟨b!"xza|bc" ++ [0] ++ b!"de|f|", none⟩] 124) [.zlib, .line, .bin 4 [1, 10, 10], .line, .line] =
    [.zlib none, .line b!"aa|" none, .bin [(b!"|", none), (b!"bb", none), (b!"c", none)] none, .line b!"cde|" none,
     .line b!"f|" none] := by decide +kernel

/-- A header that does not come, or not whole: `EnableZlib` never reports the end of the stream. -/
example : session (newReader [⟨b!"x", none⟩] 124) [.zlib, .zlib] = [.zlib (some .unexpectedEOF), .zlib (some .zlibAlreadyActive)] ∧
    session (newReader [] 124) [.zlib, .zlib] = [.zlib (some .unexpectedEOF), .zlib (some .zlibAlreadyActive)] ∧
    session (newReader [⟨b!"x", none⟩, ⟨[], some (.other 3)⟩] 124) [.zlib, .zlib] =
      [.zlib (some (.other 3)), .zlib (some .zlibAlreadyActive)] := by decide +kernel

/-! ## The same with memory (`LineMemory`) -/

/-- A memory with one array, and an environment that fills buffers with rubbish. -/
def mem0 : Mem.Heap := ⟨fun _ => b!"0000", 1⟩

def world0 : Mem.World := ⟨fun _ => b!"|junk|", fun n => n + 1⟩

/-- The same steps on the reader with memory; lines are looked at when they are returned. -/
def Do.mrun (r : Mem.MReader Bool) (h : Mem.Heap) : Do → Saw × Mem.MReader Bool × Mem.Heap
  | .line => match r.readLine toy world0 60 h with
    | .val ((l, e), r', h') => (.line (match l with | some s => s.bytes h' | none => []) e, r', h')
    | _ => (.broken, r, h)
  | .zlib => match r.enableZlib toy 60 [(3, true), (1, false), (5, true)] h with
    | .val (e, r', h') => (.zlib e, r', h')
    | _ => (.broken, r, h)
  | .max n => (.max, { r with maxLine := n }, h)
  | .bin sz _ => match r.binClose toy world0 60 sz h with
    | .val (e, r', h') => (.bin [] e, r', h')
    | _ => (.broken, r, h)

def msession (r : Mem.MReader Bool) (h : Mem.Heap) : List Do → List Saw
  | [] => []
  | d :: ds => (d.mrun r h).1 :: msession (d.mrun r h).2.1 (d.mrun r h).2.2 ds

/-- `LineMemory.results_are_values`: the results are those of the model of values. -/
def Same (b : Bytes) (hooks : List (Bytes → Hook)) (ds : List Do) : Prop :=
  ∀ k ∈ [1, 2, 3, 5, 100], msession { (Mem.newReader (chunks k b.length b) 124 mem0).1 with onLine := hooks }
      (Mem.newReader (Z := Bool) (chunks k b.length b) 124 mem0).2 ds =
    session { newReader (chunks k b.length b) 124 with onLine := hooks } ds

instance (b : Bytes) (hooks : List (Bytes → Hook)) (ds : List Do) : Decidable (Same b hooks ds) :=
  inferInstanceAs (Decidable (∀ k ∈ _, _))

example : Same b!"a||bcd|e" [] [.line, .line, .line, .line, .line] := by decide +kernel

example : Same (b!"a|xzb|c" ++ [0] ++ b!"d|xzef" ++ [0] ++ b!"|g|") [] [.line, .zlib, .line, .line, .line, .zlib, .line, .line, .line] := by
  decide +kernel

example : Same b!"a|binarygh|tail" [] [.line, .bin 6 [], .line, .line] := by decide +kernel

example : Same b!"ab|c|d|" [fun l => if l = b!"c|" then .drop else .accept] [.line, .line, .line] := by decide +kernel

/-- A line that does not fit into the array and is made of several pieces: the array grows. -/
example : Same b!"abcdefghijklmnop|q|" [] [.line, .line, .line] ∧
    msession (Mem.newReader (chunks 3 19 b!"abcdefghijklmnop|q|") 124 mem0).1 (Mem.newReader (Z := Bool) (chunks 3 19 b!"abcdefghijklmnop|q|") 124 mem0).2
      [.line, .line] = [.line b!"abcdefghijklmnop|" none, .line b!"q|" none] := by decide +kernel

/-- A toy compressor: header `x`, `z`; every byte stands for itself, `0` ends the stream. -/
def toyW : Deflater Bool where
  new _ := .ok false
  reset _ := false
  write h p := (true, [(if h then [] else b!"xz") ++ p], none)
  flush h := (true, [if h then [] else b!"xz"], none)
  close h := (true, [(if h then [] else b!"xz") ++ [0]], none)

/-- What the caller of a writer sees, and what the connection got. -/
def wsession (size : Int) (tmo : List (Option Err)) (script : List SEv) (ops : List WOp) :
    Option (List (Option Err) × Bytes) :=
  match (newWriter size tmo ⟨[], script⟩ : Writer Bool).run toyW ops with
  | .val (rs, w) => some (rs.map (·.2), w.sink.sent)
  | _ => none

/-- `LineWriter.flushed_wire`. -/
example : wsession 4 [] [] [.line b!"ab|", .line b!"cdefghijk|", .flush] = some ([none, none, none], b!"ab|cdefghijk|") := by
  decide +kernel

/-- `LineWriter.closed_wire`. -/
example : wsession 4 [] [] [.line b!"ab|", .enable 1, .line b!"cd|", .disable, .line b!"ef|", .enable 1, .line b!"g|", .close] =
    some ([none, none, none, none, none, none, none, none], b!"ab|xzcd|" ++ [0] ++ b!"ef|xzg|" ++ [0]) := by
  decide +kernel

/-- `LineWriter.sent_prefix`: nothing is sent twice after a failed write, and the error stays. -/
example : wsession 4 [] [.fail 1 (.other 7)] [.line b!"ab|", .flush, .flush, .line b!"cd|", .flush] =
    some ([none, some (.other 7), some (.other 7), some (.other 7), some (.other 7)], b!"a") := by decide +kernel

/-- The same when the first write is one of `WriteLine`, and `Close` comes next. -/
example : wsession 4 [] [.fail 1 (.other 7)] [.line b!"abcdef|", .flush, .close] =
    some ([some (.other 7), some (.other 7), some (.other 7)], b!"a") := by decide +kernel

/-- `LineWriter.error_sticks`: a closed writer refuses everything. -/
example : wsession 4 [] [] [.line b!"ab|", .close, .line b!"cd|", .flush] =
    some ([none, none, some .writerClosed, some .writerClosed], b!"ab|") := by decide +kernel

/-- The calls made to the callback and to the connection. -/
def wlog (size : Int) (tmo : List (Option Err)) (script : List SEv) (ops : List WOp) : List (List TEv) :=
  (newWriter size tmo ⟨[], script⟩ : Writer Bool).runLog toyW ops

/-- The theorems of `LineTimeouts`: the writes are those that make up what was sent, and a failing one is among them. -/
example : wlog 4 [] [] [.line b!"ab|", .enable 1, .line b!"cd|", .flush, .disable] =
    [[.arm, .disarm], [.arm, .put b!"ab|", .disarm], [.arm, .disarm], [.arm, .put b!"xzcd|", .put [], .disarm], [.put [0]]] := by
  decide +kernel

/-- A line that just fills the buffer waits in it; a longer one goes out in two writes. -/
example : wlog 4 [] [] [.line b!"abc|", .flush, .line b!"ab|", .line b!"cdefgh|", .flush] =
    [[.arm, .disarm], [.arm, .put b!"abc|", .disarm], [.arm, .disarm], [.arm, .put b!"ab|c", .put b!"defgh|", .disarm], [.arm, .disarm]] := by
  decide +kernel

example : wlog 4 [] [.fail 0 (.other 7)] [.enable 1, .line b!"cd|", .flush, .flush] =
    [[.arm, .disarm], [.arm, .disarm], [.arm, .put b!"xzcd|", .disarm], []] := by decide +kernel

end Verif.Conformance.Line
