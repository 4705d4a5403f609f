import Verif.Nmdc.Message
import Verif.Lineproto.Reader

/-!
# `nmdc.Reader` (`nmdc/reader.go`) and `nmdc.Unmarshal` (`nmdc/message.go:149-158`)

* Callbacks are functions that do not change the message, the line or the reader.  Their behaviour may be
  different for every line: `env k` says what they do on the `k`-th line of a call, so callbacks with state
  are covered.
* A failed `UnmarshalNMDC` may leave a half-decoded message behind.  `left dec m data` is what it leaves; the
  theorems hold for every function `left`.
* The messages passed to `ReadMsgToAny` are distinct and not nil.
-/

namespace Verif.Nmdc

open Verif.Go Verif.Lineproto

/-- The callbacks of a reader, `nmdc/reader.go:62-80`.  A raw hook gets the command name (nil for a chat
message) and the arguments. -/
structure Env where
  /-- the error returned by `OnKeepAlive` -/
  keepAlive : Option Err := none
  /-- `onRawMessage` -/
  rawHooks : List (Option Bytes → Bytes → Hook) := []
  /-- `OnUnknownEncoding`; the result is an error or a decoder, which may be nil -/
  unknownEnc : Option (Bytes → Except Err Codec) := none
  /-- `OnUnmarshalError` -/
  unmarshalErr : Option (Bytes → Err → Bool × Option Err) := none
  /-- `onMessage` -/
  msgHooks : List (Msg → Hook) := []

/-- The variables of a call of `readMsgTo`: the local `dec`, the decoder stored in the reader, `*ptr` when
`allowed` is empty, the elements of `allowed` and the one `*ptr` points to. -/
structure St where
  dec : Codec
  rdec : Codec
  cur : Option Msg
  arr : List Msg
  hit : Option Nat

/-- What one round of the loop does. -/
inductive Round where
  /-- `return err` -/
  | ret (e : Option Err) (st : St)
  /-- `continue read` -/
  | again (st : St)
  | panic

/-- A list of hooks: the first that does not accept decides (lines 188-194, 250-256, 320-326). -/
def runAll {α : Type} (x : α) : List (α → Hook) → Hook
  | [] => .accept
  | h :: hs =>
    match h x with
    | .accept => runAll x hs
    | .drop => .drop
    | .fail e => .fail e

/-- Lines 182-187: command name and arguments of a line after the `$`. -/
def splitCmd (line : Bytes) : Bytes × Bytes :=
  match indexByte line c!" " with
  | none => (line, [])
  | some i => (line.take i, line.drop (i + 1))

/-- Lines 195-207. -/
def cmdNameOk (maxCmdName : Int) (cmd : Bytes) : Bool :=
  cmd ≠ [] && (cmd.length : Int) ≤ maxCmdName && isASCII cmd

/-- Lines 211-218 and 259-268: the first element of `allowed` that takes the line. -/
def pick (p : Msg → Bool) : List Msg → Nat → Option (Nat × Msg)
  | [], _ => none
  | m :: ms, i => if p m then some (i, m) else pick p ms (i + 1)

/-- The message to decode into, or the error; lines 177 and 209-246 for a command. -/
def targetCmd (st : St) (typ args : Bytes) : Except Err (Msg × St) :=
  let out : Except Err (Option Msg × St) :=
    match st.arr with
    | [] => .ok (st.cur, st)
    | first :: _ =>
      match pick (fun m => m.isRaw || m.typ = typ) st.arr 0 with
      | some (i, m) => .ok (some m, { st with hit := some i })
      | none => .error (.unexpectedCommand first.typ typ args)
  match out with
  | .error e => .error e
  | .ok (none, st) => .ok (newMessage typ, { st with cur := some (newMessage typ) })
  | .ok (some m, st) =>
    if m.isChat then .error (.unexpectedCommand [] typ args)
    else if m.typ ≠ typ then .error (.unexpectedCommand m.typ typ args)
    else .ok (m, st)

/-- The same for a chat message, lines 177 and 257-289. -/
def targetChat (st : St) (args : Bytes) : Except Err (Msg × St) :=
  let out : Except Err (Option Msg × St) :=
    match st.arr with
    | [] => .ok (st.cur, st)
    | first :: _ =>
      match pick (fun m => m.isRaw || m.isChat) st.arr 0 with
      | some (i, m) => .ok (some m, { st with hit := some i })
      | none => .error (.unexpectedCommand first.typ [] args)
  match out with
  | .error e => .error e
  | .ok (none, st) => .ok (.chat {}, { st with cur := some (.chat {}) })
  | .ok (some m, st) =>
    if m.isChat then .ok (m, st)
    else .error (.unexpectedCommand m.typ [] args)

/-- The message `out` points to gets a new value. -/
def St.put (st : St) (m : Msg) : St :=
  match st.arr with
  | [] => { st with cur := some m }
  | _ :: _ =>
    match st.hit with
    | some i => { st with arr := st.arr.set i m }
    | none => st

/-- `bytes.Map` with the identity (lines 300-302): every invalid byte becomes U+FFFD. -/
def mapRunes (s : Bytes) : Bytes :=
  (runes s).flatMap fun r => match r with
    | some r => utf8Enc r
    | none => utf8Enc runeError
where utf8Enc (r : Nat) : Bytes := encodeRune r

variable [HtmlEntities]

/-- `out.UnmarshalNMDC(dec, args)` with its effect on the message: the error and the new state; `none` is a
panic. -/
def tryUnmarshal (left : Codec → Msg → Bytes → Msg) (dec : Codec) (out : Msg) (args : Bytes) (st : St) :
    Option (Option Err × Msg × St) :=
  match out.unmarshal dec args with
  | .ok m => some (none, m, st.put m)
  | .err e => some (some e, left dec out args, st.put (left dec out args))
  | .panic => none

/-- Lines 292-309: the error after the fallback, the message and the state, or the error of the callback. -/
def fallback (env : Env) (left : Codec → Msg → Bytes → Msg) (args : Bytes) (err : Option Err) (out : Msg) (st : St) :
    Option (Except (Err × St) (Option Err × Msg × St)) :=
  match env.unknownEnc, err with
  | some f, some (.unknownEncoding text) =>
    match f text with
    | .error e => some (.error (e, { st with dec := none }))
    | .ok none =>
      (tryUnmarshal left none out (mapRunes args) { st with dec := none }).map .ok
    | .ok (some d) =>
      (tryUnmarshal left (some d) out args { st with dec := some d, rdec := some d }).map .ok
  | _, _ => some (.ok (err, out, st))

/-- Lines 310-327. -/
def afterDecode (env : Env) (origLine : Bytes) (err : Option Err) (out : Msg) (st : St) : Round :=
  match err with
  | some e =>
    match env.unmarshalErr with
    | none => .ret (some e) st
    | some f =>
      match f origLine e with
      | (false, _) => .again st
      | (true, e') => .ret e' st
  | none =>
    match runAll out env.msgHooks with
    | .accept => .ret none st
    | .drop => .again st
    | .fail e => .ret (some e) st

/-- Lines 291-327: decoding `args` into `out`. -/
def decodeInto (env : Env) (left : Codec → Msg → Bytes → Msg) (origLine args : Bytes) (out : Msg) (st : St) : Round :=
  match tryUnmarshal left st.dec out args st with
  | none => .panic
  | some (err, out1, st1) =>
    match fallback env left args err out1 st1 with
    | none => .panic
    | some (.error (e, st2)) => .ret (some e) st2
    | some (.ok (err2, out2, st2)) => afterDecode env origLine err2 out2 st2

/-- Lines 175-327: one line without its delimiter, not empty. -/
def roundBody (env : Env) (left : Codec → Msg → Bytes → Msg) (maxCmdName : Int) (body : Bytes) (st : St) : Round :=
  match body with
  | [] => .again st
  | b :: line =>
    if b = c!"$" then
      match splitCmd line with
      | (cmd, args) =>
        match runAll () (env.rawHooks.map fun h _ => h (some cmd) args) with
        | .fail e => .ret (some e) st
        | .drop => .again st
        | .accept =>
          if cmdNameOk maxCmdName cmd then
            match targetCmd st cmd args with
            | .error e => .ret (some e) st
            | .ok (out, st') => decodeInto env left (b :: line) args out st'
          else .ret (some .protocolViolation) st
    else
      match runAll () (env.rawHooks.map fun h _ => h none (b :: line)) with
      | .fail e => .ret (some e) st
      | .drop => .again st
      | .accept =>
        match targetChat st (b :: line) with
        | .error e => .ret (some e) st
        | .ok (out, st') => decodeInto env left (b :: line) (b :: line) out st'

/-- Lines 153-327: one round of the loop, given the result of `ReadLine`. -/
def round (env : Env) (left : Codec → Msg → Bytes → Msg) (maxCmdName : Int) (res : Bytes × Option Err) (st : St) : Round :=
  match res.2 with
  | some e => .ret (some e) st
  | none =>
    if res.1.getLast? ≠ some delim then .ret (some .protocolViolation) st
    else if (0 : Byte) ∈ res.1 then .ret (some .protocolViolation) st
    else if res.1.dropLast = [] then
      match env.keepAlive with
      | some e => .ret (some e) st
      | none => .again st
    else roundBody env left maxCmdName res.1.dropLast st

/-- A reader, `nmdc/reader.go:53-81`. -/
structure NReader (Z : Type) where
  lines : Reader Z
  dec : Codec := none
  maxCmdName : Int := 32
  env : Nat → Env := fun _ => {}

/-- `NewReader`, lines 45-50. -/
def newNReader {Z : Type} (s : Src) : NReader Z := { lines := newReader s delim }

variable {Z : Type}

/-- Lines 148-329, the loop; `k` counts the lines of this call. -/
def NReader.loop (I : Inflater Z) (left : Codec → Msg → Bytes → Msg) :
    Nat → Nat → NReader Z → St → Exec (Option Err × St × NReader Z)
  | 0, _, _, _ => .timeout
  | fuel + 1, k, r, st =>
    match r.lines.readLine I fuel with
    | .panic => .panic
    | .timeout => .timeout
    | .val (res, lr) =>
      match round (r.env k) left r.maxCmdName res st with
      | .ret e st' => .val (e, st', { r with lines := lr, dec := st'.rdec })
      | .again st' => NReader.loop I left fuel (k + 1) { r with lines := lr, dec := st'.rdec } st'
      | .panic => .panic

/-- The state at the start of a call: line 149. -/
def NReader.start (r : NReader Z) (cur : Option Msg) (arr : List Msg) : St :=
  { dec := r.dec, rdec := r.dec, cur, arr, hit := none }

/-- `ReadMsg`, lines 117-123: the message or the error. -/
def NReader.readMsg (I : Inflater Z) (left : Codec → Msg → Bytes → Msg) (fuel : Nat) (r : NReader Z) :
    Exec (Except Err (Option Msg) × NReader Z) :=
  match NReader.loop I left fuel 0 r (r.start none []) with
  | .val (some e, _, r') => .val (.error e, r')
  | .val (none, st, r') => .val (.ok st.cur, r')
  | .panic => .panic
  | .timeout => .timeout

/-- `ReadMsgTo`, lines 127-132: the error and the new value of the message. -/
def NReader.readMsgTo (I : Inflater Z) (left : Codec → Msg → Bytes → Msg) (fuel : Nat) (r : NReader Z) (m : Option Msg) :
    Exec (Option Err × Option Msg × NReader Z) :=
  match m with
  | none => .panic
  | some m =>
    match NReader.loop I left fuel 0 r (r.start (some m) []) with
    | .val (e, st, r') => .val (e, st.cur, r')
    | .panic => .panic
    | .timeout => .timeout

/-- `ReadMsgToAny`, lines 137-146: the index of the message that was decoded or the error, and the new values
of the messages. -/
def NReader.readMsgToAny (I : Inflater Z) (left : Codec → Msg → Bytes → Msg) (fuel : Nat) (r : NReader Z) (arr : List Msg) :
    Exec (Except Err (Option Nat) × List Msg × NReader Z) :=
  match arr with
  | [] => .panic
  | _ :: _ =>
    match NReader.loop I left fuel 0 r (r.start none arr) with
    | .val (some e, st, r') => .val (.error e, st.arr, r')
    | .val (none, st, r') => .val (.ok st.hit, st.arr, r')
    | .panic => .panic
    | .timeout => .timeout

/-- `bytes.NewReader(data)`: `Read` delivers what fits into the buffer and then `io.EOF`. -/
def bytesReader (data : Bytes) : Src := if data = [] then [] else [⟨data, none⟩]

/-- `Unmarshal`, `nmdc/message.go:149-158`. -/
def unmarshalMsg (I : Inflater Z) (left : Codec → Msg → Bytes → Msg) (fuel : Nat) (dec : Codec) (data : Bytes) :
    Exec (Except Err (Option Msg)) :=
  match (({ newNReader (bytesReader data) with dec } : NReader Z)).readMsg I left fuel with
  | .val (.error .eof, _) => .val (.error .unexpectedEOF)
  | .val (res, _) => .val res
  | .panic => .panic
  | .timeout => .timeout

end Verif.Nmdc
