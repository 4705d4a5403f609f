import Verif.Conformance.Line
import Verif.Nmdc.Own

/-!
# Instances: NMDC messages of the caller's own types

As in `Verif.Conformance.Line`: single cases of the theorems of `NmdcOwnWriter` and `NmdcOwnReader`, computed from the model alone.
-/

namespace Verif.Conformance.NmdcOwn

open Verif.Go Verif.Lineproto Verif.Nmdc Verif.Nmdc.Own Verif.Conformance.Line

attribute [local instance] basicEntities

set_option maxRecDepth 8000

/-! ### Writing (`nmdc/message.go`, `nmdc/writer.go`) -/

/-- A message whose method writes `b` and ends with `r`. -/
def msg (typ b : Bytes) (r : Res Unit := .ok ()) : Out := ⟨typ, fun _ buf => (r, buf ++ b)⟩

/-- A message that writes the name of the encoder. -/
def coded (typ : Bytes) : Out := ⟨typ, fun enc buf => (.ok (), buf ++ match enc with | none => b!"utf8" | some _ => b!"other")⟩

/-- A message that throws away what is in the buffer. -/
def rude (typ b : Bytes) : Out := ⟨typ, fun _ _ => (.ok (), b)⟩

example : marshalTo none b!"old" (msg b!"Foo" b!"1") = (.ok (), b!"old$Foo 1|") := by decide +kernel
example : marshalTo none b!"" (msg b!"Foo" b!"1") = (.ok (), b!"$Foo 1|") := by decide +kernel
example : marshalTo none b!"old" (msg b!"Foo" b!"") = (.ok (), b!"old$Foo|") := by decide +kernel
example : marshalTo none b!"old" (msg b!"" b!"hi") = (.ok (), b!"oldhi|") := by decide +kernel
example : marshalTo none b!"old" (msg b!"" b!"") = (.ok (), b!"ol|") := by decide +kernel
example : marshalTo none b!"" (msg b!"" b!"") = (.panic, b!"") := by decide +kernel
example : marshalTo none b!"old" (msg b!"Foo" b!"1" (.err (.other 7))) = (.err (.other 7), b!"old$Foo 1") := by decide +kernel
example : marshalTo none b!"old" (msg b!"Foo" b!"1" .panic) = (.panic, b!"old$Foo 1") := by decide +kernel
/-- A buffer of the same length counts as one without payload. -/
example : marshalTo none b!"old" (rude b!"F" b!"abcdef") = (.ok (), b!"abcde|") := by decide +kernel
example : marshalTo none b!"old" (rude b!"F" b!"abc") = (.ok (), b!"abc|") := by decide +kernel
example : marshal none (msg b!"Foo" b!"1") = .ok b!"$Foo 1|" := by decide +kernel
example : marshal none (msg b!"Foo" b!"1" (.err (.other 7))) = .err (.other 7) := by decide +kernel
example : marshal none (msg b!"Foo" b!"1" .panic) = .panic := by decide +kernel
example : marshal none (Out.std (.name .hello b!"joe") id) = .ok b!"$Hello joe|" := by decide +kernel
/-- A message of the package that cannot be encoded leaves its name in the buffer. -/
example : (match marshalTo (some fun _ => none) b!"x" (Out.std (.name .hello b!"joe") id) with | (.err _, b) => b | _ => []) = b!"x$Hello " := by
  decide +kernel

/-- The ends of the calls and what arrives. -/
def sent (ops : List Own.Op) (script : List SEv := []) : Option (List Ending × Bytes × Bytes) :=
  match (newOWriter 64 [] ⟨[], script⟩ : OWriter Bool).run toyW ops with
  | .val (es, w) => some (es, w.lines.sink.sent, w.mbuf)
  | _ => none

example : sent [.msgs [msg b!"Foo" b!"1", msg b!"Bar" b!"2" (.err (.other 9)), msg b!"Baz" b!"3"], .keepAlive,
      .msgs [msg b!"Bar" b!"4" .panic, msg b!"Foo" b!"5"], .msgs [msg b!"Qux" b!"", msg b!"" b!"hi"], .flush] =
    some ([.ret (some (.other 9)), .ret none, .panic, .ret none, .ret none], b!"$Foo 1||$Qux|hi|", b!"hi|") := by
  decide +kernel

/-- The buffer of the writer is emptied before each message. -/
example : sent [.msgs [rude b!"F" b!"abc", msg b!"G" b!""], .flush] = some ([.ret none, .ret none], b!"ab|$G|", b!"$G|") := by
  decide +kernel

/-- Hooks. -/
example : sent [.onMessage fun m => if m.typ = b!"Foo" then .drop else .accept,
      .onMessage fun m => if m.typ = b!"Bar" then .fail (.other 3) else .accept,
      .msgs [msg b!"Baz" b!"1", msg b!"Foo" b!"2", msg b!"Baz" b!"3"], .msgs [msg b!"Bar" b!"" , msg b!"Baz" b!"4"],
      .msgs [msg b!"Baz" b!"5"], .flush] =
    some ([.ret none, .ret none, .ret none, .ret (some (.other 3)), .ret none, .ret none], b!"$Baz 1|$Baz 5|", b!"$Baz 5|") := by
  decide +kernel

/-- The first hook decides. -/
example : sent [.onMessage fun _ => .drop, .onMessage fun _ => .fail (.other 3), .msgs [msg b!"Baz" b!"1"]] =
    some ([.ret none, .ret none, .ret none], b!"", b!"") := by
  decide +kernel

/-- The encoder. -/
example : sent [.msgs [coded b!"A"], .setEncoder (some fun b => some b), .msgs [coded b!"B"], .setEncoder none, .msgs [coded b!"C"], .flush] =
    some ([.ret none, .ret none, .ret none, .ret none, .ret none, .ret none], b!"$A utf8|$B other|$C utf8|", b!"$C utf8|") := by
  decide +kernel

/-- After an error of the sink. -/
example : sent [.msgs [msg b!"Foo" b!"1"], .flush, .msgs [msg b!"Bar" b!"2" .panic], .msgs [], .keepAlive, .zOn 6, .zOff, .close] [.fail 2 (.other 4)] =
    some ([.ret none, .ret (some (.other 4)), .ret (some (.other 4)), .ret (some (.other 4)), .ret (some (.other 4)),
      .ret (some (.other 4)), .ret (some (.other 4)), .ret (some (.other 4))], b!"$F", b!"$Foo 1|") := by
  decide +kernel

/-- A line that cannot be buffered ends the call. -/
example : sent [.msgs [msg b!"Foo" (List.replicate 70 c!"x"), msg b!"Bar" b!"2"]] [.fail 0 (.other 4)] =
    some ([.ret (some (.other 4))], b!"", b!"$Foo " ++ List.replicate 70 c!"x" ++ b!"|") := by
  decide +kernel

/-! ### Reading (`nmdc/reader.go`) -/

/-- A type `Ping` of the caller, and one without a name. -/
inductive Own where
  | ping (text : Bytes)
  | anon
deriving DecidableEq

def own : Methods Own where
  typ
    | .ping _ => b!"Ping"
    | .anon => []
  unmarshal
    | _, _, .anon => (.ok (), .anon)
    | _, [], .ping x => (.err (.other 5), .ping (x ++ b!"?"))
    | _, 33 :: _, x => (.panic, x)
    | none, 35 :: _, .ping x => (.err (.unknownEncoding b!"#"), .ping (x ++ b!"#"))
    | none, data, .ping x => (.ok (), .ping (x ++ data))
    | some _, data, .ping x => (.ok (), .ping (x ++ b!"dec:" ++ data))

def reg : Registry.Reg Bytes (Msg ⊕ Own) := [(b!"Ping", .inr (.ping [])), (b!"Hello", .inl (.name .hello []))]

def T : Types (Msg ⊕ Own) := own.types (fun _ m _ => m) reg

def rd (text : Bytes) (env : Nat → Own.Env (Msg ⊕ NmdcOwn.Own) := fun _ => {}) : OReader (Msg ⊕ Own) Bool :=
  { lines := newReader [⟨text, none⟩, ⟨[], some .eof⟩] delim, env }

/-- The results of `n` calls of `ReadMsg`. -/
def reads : Nat → OReader (Msg ⊕ Own) Bool → Option (List (Except Err (Option (Msg ⊕ Own))))
  | 0, _ => some []
  | n + 1, r =>
    match r.readMsg T toy 30 with
    | .val (x, r') => (reads n r').map fun l => x :: l
    | _ => none

example : reads 6 (rd b!"||$Ping 12|hi|$Pong 1 2|$Hello joe|$Ping|") =
    some [.ok (some (.inr (.ping b!"12"))), .ok (some (.inl (.chat ⟨[], b!"hi"⟩))), .ok (some (.inl (.raw b!"Pong" b!"1 2"))),
      .ok (some (.inl (.name .hello b!"joe"))), .error (.other 5), .error .eof] := by
  with_unfolding_all rfl

example : reads 1 (rd b!"$Ping !|") = none := by with_unfolding_all rfl
example : reads 2 (rd (b!"$Ping a" ++ [0] ++ b!"|$Ping 1|")) = some [.error .protocolViolation, .ok (some (.inr (.ping b!"1")))] := by
  with_unfolding_all rfl
example : reads 1 (rd b!"$Pi*ng 1|") = some [.error .protocolViolation] := by with_unfolding_all rfl
example : reads 1 (rd b!"$Ping 1") = some [.error .eof] := by with_unfolding_all rfl

/-- The callbacks. -/
example : reads 1 (rd b!"||$Ping 12|" fun k => if k = 1 then { keepAlive := some (.other 8) } else {}) = some [.error (.other 8)] := by
  with_unfolding_all rfl
example : reads 2 (rd b!"$Ping 12|$Ping|$Ping 3|" fun _ => { unmarshalErr := some fun l _ => (l = b!"$Ping", none) }) =
    some [.ok (some (.inr (.ping b!"12"))), .ok (some (.inr (.ping [63])))] := by
  with_unfolding_all rfl
example : reads 2 (rd b!"$Ping 12|$Ping|$Ping 3|" fun _ => { unmarshalErr := some fun _ _ => (false, some (.other 2)) }) =
    some [.ok (some (.inr (.ping b!"12"))), .ok (some (.inr (.ping b!"?3")))] := by
  with_unfolding_all rfl
example : reads 2 (rd b!"$Ping 12|$Ping|$Ping 3|" fun _ => { unmarshalErr := some fun _ e => (true, if e = .other 5 then some (.other 2) else none) }) =
    some [.ok (some (.inr (.ping b!"12"))), .error (.other 2)] := by
  with_unfolding_all rfl
example : reads 2 (rd b!"$Ping 12|$Ping 3|" fun _ => { msgHooks := [fun m => if m = .inr (.ping b!"12") then .drop else .accept, fun _ => .fail (.other 1)] }) =
    some [.error (.other 1), .error .eof] := by
  with_unfolding_all rfl
example : reads 2 (rd b!"$Ping 12|$Ping 3|hi|" fun _ => { rawHooks := [fun c d => if c = some b!"Ping" ∧ d = b!"12" then .drop else .accept,
      fun c d => if c = none ∧ d = b!"hi" then .fail (.other 1) else .accept] }) =
    some [.ok (some (.inr (.ping b!"3"))), .error (.other 1)] := by
  with_unfolding_all rfl

/-- A method that asks for another encoding is called again; the value it left the first time is not reset. -/
example : reads 1 (rd b!"$Ping #a|") = some [.error (.unknownEncoding b!"#")] := by with_unfolding_all rfl
example : reads 2 (rd b!"$Ping #a|$Ping 1|" fun _ => { unknownEnc := some fun _ => .ok (some fun b => some b) }) =
    some [.ok (some (.inr (.ping b!"#dec:#a"))), .ok (some (.inr (.ping b!"dec:1")))] := by
  with_unfolding_all rfl
example : reads 1 (rd b!"$Ping #a|" fun _ => { unknownEnc := some fun t => .error (if t = b!"#" then .other 6 else .other 7) }) = some [.error (.other 6)] := by
  with_unfolding_all rfl

/-- `ReadMsgTo`. -/
def readTo (m : Option (Msg ⊕ Own)) (r : OReader (Msg ⊕ Own) Bool) : Option (Option Err × Option (Msg ⊕ Own)) :=
  match r.readMsgTo T toy 30 m with
  | .val (e, m', _) => some (e, m')
  | _ => none

example : readTo (some (.inr (.ping b!"x"))) (rd b!"|$Ping 12|") = some (none, some (.inr (.ping b!"x12"))) := by with_unfolding_all rfl
example : readTo (some (.inr (.ping b!"x"))) (rd b!"$Pong 12|") = some (some (.unexpectedCommand b!"Ping" b!"Pong" b!"12"), some (.inr (.ping b!"x"))) := by
  with_unfolding_all rfl
example : readTo (some (.inr (.ping b!"x"))) (rd b!"$Ping|") = some (some (.other 5), some (.inr (.ping b!"x?"))) := by with_unfolding_all rfl
example : readTo (some (.inr (.ping b!"x"))) (rd b!"hi|") = some (some (.unexpectedCommand b!"Ping" b!"" b!"hi"), some (.inr (.ping b!"x"))) := by
  with_unfolding_all rfl
example : readTo (some (.inr .anon)) (rd b!"hi|") = some (some (.unexpectedCommand b!"" b!"" b!"hi"), some (.inr .anon)) := by with_unfolding_all rfl
example : readTo (some (.inl (.chat {}))) (rd b!"hi|") = some (none, some (.inl (.chat ⟨[], b!"hi"⟩))) := by with_unfolding_all rfl
example : readTo (some (.inl (.chat {}))) (rd b!"$Ping 1|") = some (some (.unexpectedCommand b!"" b!"Ping" b!"1"), some (.inl (.chat {}))) := by
  with_unfolding_all rfl
example : readTo none (rd b!"hi|") = none := by with_unfolding_all rfl

/-- `ReadMsgToAny`. -/
def readAny (ms : List (Msg ⊕ Own)) (r : OReader (Msg ⊕ Own) Bool) : Option (Except Err (Option Nat) × List (Msg ⊕ Own)) :=
  match r.readMsgToAny T toy 30 ms with
  | .val (e, m', _) => some (e, m')
  | _ => none

example : readAny [.inl (.name .hello []), .inr (.ping b!"x"), .inr (.ping b!"y")] (rd b!"$Ping 1|") =
    some (.ok (some 1), [.inl (.name .hello []), .inr (.ping b!"x1"), .inr (.ping b!"y")]) := by with_unfolding_all rfl
example : readAny [.inl (.name .hello []), .inr (.ping b!"x")] (rd b!"$Pong 1|") =
    some (.error (.unexpectedCommand b!"Hello" b!"Pong" b!"1"), [.inl (.name .hello []), .inr (.ping b!"x")]) := by with_unfolding_all rfl
example : readAny [.inl (.raw b!"Zz" []), .inr (.ping b!"x")] (rd b!"$Ping 1|") =
    some (.error (.unexpectedCommand b!"Zz" b!"Ping" b!"1"), [.inl (.raw b!"Zz" []), .inr (.ping b!"x")]) := by with_unfolding_all rfl
example : readAny [.inr .anon, .inl (.chat {})] (rd b!"hi|") = some (.ok (some 1), [.inr .anon, .inl (.chat ⟨[], b!"hi"⟩)]) := by with_unfolding_all rfl
example : readAny [.inr .anon] (rd b!"hi|") = some (.error (.unexpectedCommand b!"" b!"" b!"hi"), [.inr .anon]) := by with_unfolding_all rfl
example : readAny [.inl (.raw b!"Zz" []), .inl (.chat {})] (rd b!"hi|") =
    some (.error (.unexpectedCommand b!"Zz" b!"" b!"hi"), [.inl (.raw b!"Zz" []), .inl (.chat {})]) := by with_unfolding_all rfl
example : readAny [] (rd b!"hi|") = none := by with_unfolding_all rfl
example : readAny [.inl (.name .hello []), .inr (.ping b!"x")] (rd b!"$Ping|") =
    some (.error (.other 5), [.inl (.name .hello []), .inr (.ping b!"x?")]) := by with_unfolding_all rfl

/-- `Unmarshal`. -/
def un (b : Bytes) : Option (Except Err (Option (Msg ⊕ Own))) :=
  match Own.unmarshalMsg T toy 30 none b with
  | .val x => some x
  | _ => none

example : un b!"$Ping 1|" = some (.ok (some (.inr (.ping b!"1")))) := by with_unfolding_all rfl
example : un b!"|" = some (.error .unexpectedEOF) := by with_unfolding_all rfl
example : un b!"$Ping|" = some (.error (.other 5)) := by with_unfolding_all rfl

end Verif.Conformance.NmdcOwn
