import Verif.Adc.Buffer

/-!
# Instances: packets with messages of any type

As in `Verif.Conformance.Line`: single cases of the theorems of `AdcAnyMessage`, computed from the model alone; worked out by hand from
`adc/marshal.go:207-272`, `adc/packets.go` and `adc/writer.go:43-50`.
-/

namespace Verif.Conformance.AdcBuffer

open Verif.Go Verif.Adc Verif.Lineproto Verif.Tiger

/-- Some text, and then an end. -/
def put (b : Bytes) (r : Res Unit := .ok ()) : Put := fun buf => (r, buf ++ b)

def foo : MsgType := ⟨b!"FOO", rfl⟩
def a1 : SID := ⟨b!"AAAA", rfl⟩
def a2 : SID := ⟨b!"BBBB", rfl⟩
def fea (s : Bytes) (h : s.length = 4) : Feature := ⟨s, h⟩

-- the kinds of packets, with and without payload, and behind other text
example : Address.info.marshalAny (.own foo (put b!"p")) [] = (.ok (), b!"IFOO p\n") := by decide +kernel
example : Address.info.marshalAny (.own foo (put b!"")) b!"x" = (.ok (), b!"xIFOO\n") := by decide +kernel
example : Address.hub.marshalAny (.own foo (put b!"p q")) b!"x\n" = (.ok (), b!"x\nHFOO p q\n") := by decide +kernel
example : Address.client.marshalAny (.own foo (put b!" ")) [] = (.ok (), b!"CFOO  \n") := by decide +kernel
example : (Address.broadcast a1).marshalAny (.own foo (put b!"")) [] = (.ok (), b!"BFOO AAAA\n") := by decide +kernel
example : (Address.direct a1 a2).marshalAny (.own foo (put b!"p")) [] = (.ok (), b!"DFOO AAAA BBBB p\n") := by decide +kernel
example : (Address.echo a2 a1).marshalAny (.own foo (put b!"")) [] = (.ok (), b!"EFOO BBBB AAAA\n") := by decide +kernel
example : (Address.feature a1 [⟨fea b!"SEGA" rfl, true⟩, ⟨fea b!"NAT0" rfl, false⟩]).marshalAny (.own foo (put b!"p")) [] =
    (.ok (), b!"FFOO AAAA +SEGA -NAT0 p\n") := by decide +kernel
example : (Address.feature a1 []).marshalAny (.own foo (put b!"")) [] = (.ok (), b!"FFOO AAAA\n") := by decide +kernel

-- failures
example : Address.hub.marshalAny (.own foo (put b!"p" (.err (.other 7)))) b!"x" = (.err (.other 7), b!"xHFOO p") := by decide +kernel
example : Address.hub.marshalAny (.own foo (put b!"" .panic)) b!"x" = (.panic, b!"xHFOO ") := by decide +kernel
example : Address.hub.marshalAny .nil b!"x" = (.panic, b!"x") := by decide +kernel
example : Address.hub.marshalAny (.other foo) [] = (.err (.other 116), b!"HFOO ") := by decide +kernel

-- structs
def one (t b : Bytes) (zero : Option Bool := some false) (req : Bool := false) (r : Res Unit := .ok ()) : AnyField := ⟨t, req, zero, .one (put b r)⟩

example : fieldsInto [one b!"#" b!"a", one b!"X" b!"b"] true b!"-" = (.ok (), b!"-a Xb") := by decide +kernel
example : fieldsInto [one b!"X" b!"b" (some true), one b!"Y" b!"c"] true [] = (.ok (), b!"Yc") := by decide +kernel
example : fieldsInto [one b!"X" b!"b" (some true) true, one b!"#" b!"c" (some true)] true [] = (.ok (), b!"Xb c") := by decide +kernel
example : fieldsInto [one b!"#" b!"c" none, one b!"X" b!"b" none true, one b!"Y" b!"d" none, one b!"Z" b!"e"] true [] = (.panic, b!"c Xb") := by
  decide +kernel
example : fieldsInto [⟨b!"X", false, some false, .many []⟩, ⟨b!"Y", false, some false, .many [put b!"1", put b!"2"]⟩, one b!"Z" b!"3"] true [] =
    (.ok (), b!"Y1 Y2 Z3") := by decide +kernel
example : fieldsInto [one b!"X" b!"b", one b!"Y" b!"c" (r := .err (.other 1)), one b!"Z" b!"d"] true [] = (.err (.other 1), b!"Xb Yc") := by decide +kernel
example : fieldsInto [⟨b!"Y", false, some false, .many [put b!"1", put b!"2" .panic, put b!"3"]⟩, one b!"Z" b!"3"] true [] = (.panic, b!"Y1 Y2") := by
  decide +kernel

-- messages of the library
example : Address.hub.marshalAny (Msg.struct .chat (b!"a b", some a1, true, (5 : Int), ())).any [] = (.ok (), b!"HMSG a\\sb PMAAAA ME1 TS5\n") := by
  decide +kernel
example : Address.info.marshalAny (Msg.status ⟨1, 20, b!"x"⟩).any [] = (.ok (), b!"ISTA 120 x\n") := by decide +kernel
example : Address.info.marshalAny Msg.zon.any [] = (.ok (), b!"IZON\n") := by decide +kernel

-- the writer
def plainText : Deflater Unit := ⟨fun _ => .ok (), id, fun _ b => ((), [b], none), fun _ => ((), [], none), fun _ => ((), [], none)⟩

def run (script : List SEv) (ops : List AnyOp) : Option (List Ending × Bytes × Bytes) :=
  match (AnyWriter.mk b!"junk" (newWriter 64 [] ⟨[], script⟩ : Writer Unit)).run plainText ops with
  | .val (rs, w) => some (rs, w.w.sink.sent, w.mbuf)
  | _ => none

example : run [] [.packet .hub (.own foo (put b!"p")), .packet .hub (.own foo (put b!"q" (.err (.other 7)))), .keepAlive,
    .packet .info (.own foo (put b!"r")), .flush] =
    some ([.returned none, .returned (some (.other 7)), .returned none, .returned none, .returned none], b!"HFOO p\n\nIFOO r\n", b!"IFOO r\n") := by
  decide +kernel
example : run [.fail 2 (.other 9)] [.packet .hub (.own foo (put b!"p")), .flush, .packet .hub (.own foo (put b!"q" .panic)), .packet .hub (.own foo (put b!"r"))] =
    some ([.returned none, .returned (some (.other 9)), .panicked, .returned (some (.other 9))], b!"HF", b!"HFOO r\n") := by decide +kernel

end Verif.Conformance.AdcBuffer
