import Verif.Nmdc.Reader
import Verif.Nmdc.Writer
import Verif.Registry.Registry

/-!
# NMDC messages of the caller's own types

`nmdc.Message` is an interface (`nmdc/message.go:27-39`), and a program may register types of its own (`nmdc/message.go:44-54`).
`Nmdc/Reader` and `Nmdc/Writer` give what the package does with its own messages.  Here the same functions are modelled for messages of any
types: the methods are arbitrary functions.

* A method `MarshalNMDC` may change the buffer in any way, and may have done so when it fails.  The buffer is its contents.
* A method `UnmarshalNMDC` may change the message in any way, and may have done so when it fails.
* Methods do not change the reader, the writer or other messages.
-/

namespace Verif.Nmdc.Own

open Verif.Go Verif.Lineproto

/-! ## Encoding -/

/-- A message as an encoder sees it: the name `Type` returns, and what `MarshalNMDC` does to the buffer it is given; `nmdc/message.go:28-34`. -/
structure Out where
  typ : Bytes
  put : Codec → Bytes → Res Unit × Bytes

/-- `MarshalTo`, `nmdc/message.go:118-136`: how it ends and the contents of the buffer. Line 131 stores into the last byte before the payload. -/
def marshalTo (enc : Codec) (buf : Bytes) (m : Out) : Res Unit × Bytes :=
  let pre := buf ++ msgHead m.typ
  match m.put enc pre with
  | (.ok _, buf) =>
    if pre.length = buf.length then
      (if pre.length = 0 then (.panic, buf) else (.ok (), buf.set (pre.length - 1) delim))
    else (.ok (), buf ++ [delim])
  | (r, buf) => (r, buf)

/-- `Marshal`, `nmdc/message.go:140-146`. -/
def marshal (enc : Codec) (m : Out) : Res Bytes :=
  match marshalTo enc [] m with
  | (.ok _, buf) => .ok buf
  | (.err e, _) => .err e
  | (.panic, _) => .panic

/-- A message of the package; the map of extra fields is visited in the order `ord`.  The text is written only when all of it has been encoded. -/
def Out.std [HtmlEntities] (m : Msg) (ord : Order) : Out where
  typ := m.typ
  put enc buf := match m.marshal enc ord with
    | .ok p => (.ok (), buf ++ p)
    | .err e => (.err e, buf)
    | .panic => (.panic, buf)

variable {D : Type} (C : Deflater D)

/-- `nmdc/writer.go:25-35`, with the contents of `mbuf`. -/
structure OWriter (D : Type) where
  lines : Writer D
  enc : Codec := none
  onMessage : List (Out → Hook) := []
  mbuf : Bytes := []

/-- `NewWriter`, `NewWriterSize`, `nmdc/writer.go:13-22`. -/
def newOWriter (size : Int) (tmo : List (Option Err)) (s : Sink) : OWriter D := { lines := newWriter size tmo s }

/-- How a call ends: it returns an error or nil, or it panics.  A panic in a method of a message may be recovered from; the writer goes on. -/
inductive Ending where
  | ret (e : Option Err)
  | panic
deriving DecidableEq

/-- A call that goes to the embedded line writer. -/
def OWriter.lift (w : OWriter D) : Exec (Option Err × Writer D) → Exec (Ending × OWriter D)
  | .panic => .panic
  | .timeout => .timeout
  | .val (e, lw) => .val (.ret e, { w with lines := lw })

/-- The loop of `WriteMsg`, `nmdc/writer.go:67-83`. -/
def OWriter.writeLoop : List Out → OWriter D → Exec (Ending × OWriter D)
  | [], w => .val (.ret none, w)
  | m :: ms, w =>
    match runAll m w.onMessage with
    | .fail e => .val (.ret (some e), w)
    | .drop => .val (.ret none, w)
    | .accept =>
      match marshalTo w.enc [] m with
      | (.panic, buf) => .val (.panic, { w with mbuf := buf })
      | (.err e, buf) => .val (.ret (some e), { w with mbuf := buf })
      | (.ok _, buf) =>
        match w.lines.writeLine C buf with
        | .panic => .panic
        | .timeout => .timeout
        | .val (some e, lw) => .val (.ret (some e), { w with lines := lw, mbuf := buf })
        | .val (none, lw) => writeLoop ms { w with lines := lw, mbuf := buf }

/-- `WriteMsg`, `nmdc/writer.go:63-84`. -/
def OWriter.writeMsg (ms : List Out) (w : OWriter D) : Exec (Ending × OWriter D) :=
  match w.lines.err with
  | some e => .val (.ret (some e), w)
  | none => w.writeLoop C ms

/-- `ZOnLevel`, `nmdc/writer.go:92-98`. -/
def OWriter.zOn (lvl : Int) (w : OWriter D) : Exec (Ending × OWriter D) :=
  match w.lines.writeLine C b!"$ZOn|" with
  | .panic => .panic
  | .timeout => .timeout
  | .val (some e, lw) => .val (.ret (some e), { w with lines := lw })
  | .val (none, lw) => OWriter.lift { w with lines := lw } (lw.enableZlib C lvl)

/-- The calls a user can make, as in `NOp`. -/
inductive Op where
  | keepAlive
  | msgs (ms : List Out)
  | flush
  | zOn (lvl : Int)
  | zOff
  | close
  | onMessage (h : Out → Hook)
  | setEncoder (enc : Codec)

/-- One call and its end; `OnMessage`, `SetEncoder` and `WriteKeepAlive` are `nmdc/writer.go:41-43`, `52-54` and `58-60`. -/
def OWriter.step (op : Op) (w : OWriter D) : Exec (Ending × OWriter D) :=
  match op with
  | .keepAlive => w.lift (w.lines.writeLine C [delim])
  | .msgs ms => w.writeMsg C ms
  | .flush => w.lift (w.lines.flush C)
  | .zOn lvl => w.zOn C lvl
  | .zOff => w.lift (w.lines.disableZlib C)
  | .close => w.lift (w.lines.close C)
  | .onMessage h => .val (.ret none, { w with onMessage := w.onMessage ++ [h] })
  | .setEncoder enc => .val (.ret none, { w with enc := enc })

/-- A history of calls with their ends. -/
def OWriter.run : List Op → OWriter D → Exec (List Ending × OWriter D)
  | [], w => .val ([], w)
  | op :: ops, w =>
    match w.step C op with
    | .panic => .panic
    | .timeout => .timeout
    | .val (e, w) =>
      match OWriter.run ops w with
      | .panic => .panic
      | .timeout => .timeout
      | .val (es, w) => .val (e :: es, w)

/-! ## Decoding -/

/-- The types of the messages of a program: what the reader knows of a message, `nmdc/message.go:27-39`. -/
structure Types (M : Type) where
  /-- `Type()` -/
  typ : M → Bytes
  /-- is a `*RawMessage`, `nmdc/reader.go:212` and `260` -/
  isRaw : M → Bool
  /-- is a `*ChatMessage`, `nmdc/reader.go:232`, `260` and `276` -/
  isChat : M → Bool
  /-- `NewMessage`, `nmdc/message.go:60-66` -/
  new : Bytes → M
  /-- `&ChatMessage{}`, `nmdc/reader.go:273` -/
  chat : M
  /-- `UnmarshalNMDC`: how it ends and the message afterwards -/
  unmarshal : Codec → Bytes → M → Res Unit × M

variable {M : Type}

/-- The callbacks of a reader, `nmdc/reader.go:62-80`. -/
structure Env (M : Type) where
  keepAlive : Option Err := none
  rawHooks : List (Option Bytes → Bytes → Hook) := []
  unknownEnc : Option (Bytes → Except Err Codec) := none
  unmarshalErr : Option (Bytes → Err → Bool × Option Err) := none
  msgHooks : List (M → Hook) := []

/-- The variables of a call of `readMsgTo`, as in `Nmdc.St`. -/
structure St (M : Type) where
  dec : Codec
  rdec : Codec
  cur : Option M
  arr : List M
  hit : Option Nat

/-- What one round of the loop does. -/
inductive Round (M : Type) where
  | ret (e : Option Err) (st : St M)
  | again (st : St M)
  | panic

/-- `nmdc/reader.go:211-218` and `259-268`: the first element of `allowed` that takes the line. -/
def pick (p : M → Bool) : List M → Nat → Option (Nat × M)
  | [], _ => none
  | m :: ms, i => if p m then some (i, m) else pick p ms (i + 1)

/-- The message to decode a command into, or the error; `nmdc/reader.go:177` and `209-246`. -/
def targetCmd (T : Types M) (st : St M) (typ args : Bytes) : Except Err (M × St M) :=
  let out : Except Err (Option M × St M) :=
    match st.arr with
    | [] => .ok (st.cur, st)
    | first :: _ =>
      match pick (fun m => T.isRaw m || T.typ m = typ) st.arr 0 with
      | some (i, m) => .ok (some m, { st with hit := some i })
      | none => .error (.unexpectedCommand (T.typ first) typ args)
  match out with
  | .error e => .error e
  | .ok (none, st) => .ok (T.new typ, { st with cur := some (T.new typ) })
  | .ok (some m, st) =>
    if T.isChat m then .error (.unexpectedCommand [] typ args)
    else if T.typ m ≠ typ then .error (.unexpectedCommand (T.typ m) typ args)
    else .ok (m, st)

/-- The same for a chat message, `nmdc/reader.go:177` and `257-289`. -/
def targetChat (T : Types M) (st : St M) (args : Bytes) : Except Err (M × St M) :=
  let out : Except Err (Option M × St M) :=
    match st.arr with
    | [] => .ok (st.cur, st)
    | first :: _ =>
      match pick (fun m => T.isRaw m || T.isChat m) st.arr 0 with
      | some (i, m) => .ok (some m, { st with hit := some i })
      | none => .error (.unexpectedCommand (T.typ first) [] args)
  match out with
  | .error e => .error e
  | .ok (none, st) => .ok (T.chat, { st with cur := some T.chat })
  | .ok (some m, st) =>
    if T.isChat m then .ok (m, st)
    else .error (.unexpectedCommand (T.typ m) [] args)

/-- The message `out` points to gets a new value. -/
def St.put (st : St M) (m : M) : St M :=
  match st.arr with
  | [] => { st with cur := some m }
  | _ :: _ =>
    match st.hit with
    | some i => { st with arr := st.arr.set i m }
    | none => st

/-- `out.UnmarshalNMDC(dec, args)`, `nmdc/reader.go:291`, `303` and `307`: the error and the new state; `none` is a panic. -/
def tryUnmarshal (T : Types M) (dec : Codec) (out : M) (args : Bytes) (st : St M) : Option (Option Err × M × St M) :=
  match T.unmarshal dec args out with
  | (.ok _, m) => some (none, m, st.put m)
  | (.err e, m) => some (some e, m, st.put m)
  | (.panic, _) => none

/-- `nmdc/reader.go:292-309`. -/
def fallback (T : Types M) (env : Env M) (args : Bytes) (err : Option Err) (out : M) (st : St M) :
    Option (Except (Err × St M) (Option Err × M × St M)) :=
  match env.unknownEnc, err with
  | some f, some (.unknownEncoding text) =>
    match f text with
    | .error e => some (.error (e, { st with dec := none }))
    | .ok none =>
      (tryUnmarshal T none out (mapRunes args) { st with dec := none }).map .ok
    | .ok (some d) =>
      (tryUnmarshal T (some d) out args { st with dec := some d, rdec := some d }).map .ok
  | _, _ => some (.ok (err, out, st))

/-- `nmdc/reader.go:310-327`. -/
def afterDecode (env : Env M) (origLine : Bytes) (err : Option Err) (out : M) (st : St M) : Round M :=
  match err with
  | some e =>
    match env.unmarshalErr with
    | none => .ret (some e) st
    | some f =>
      match f origLine e with
      | (false, _) => .again st
      | (true, e') => .ret e' st
  | none =>
    match runAll out env.msgHooks with
    | .accept => .ret none st
    | .drop => .again st
    | .fail e => .ret (some e) st

/-- `nmdc/reader.go:291-327`: decoding `args` into `out`. -/
def decodeInto (T : Types M) (env : Env M) (origLine args : Bytes) (out : M) (st : St M) : Round M :=
  match tryUnmarshal T st.dec out args st with
  | none => .panic
  | some (err, out1, st1) =>
    match fallback T env args err out1 st1 with
    | none => .panic
    | some (.error (e, st2)) => .ret (some e) st2
    | some (.ok (err2, out2, st2)) => afterDecode env origLine err2 out2 st2

/-- `nmdc/reader.go:175-327`: one line without its delimiter, not empty. -/
def roundBody (T : Types M) (env : Env M) (maxCmdName : Int) (body : Bytes) (st : St M) : Round M :=
  match body with
  | [] => .again st
  | b :: line =>
    if b = c!"$" then
      match splitCmd line with
      | (cmd, args) =>
        match runAll () (env.rawHooks.map fun h _ => h (some cmd) args) with
        | .fail e => .ret (some e) st
        | .drop => .again st
        | .accept =>
          if cmdNameOk maxCmdName cmd then
            match targetCmd T st cmd args with
            | .error e => .ret (some e) st
            | .ok (out, st') => decodeInto T env (b :: line) args out st'
          else .ret (some .protocolViolation) st
    else
      match runAll () (env.rawHooks.map fun h _ => h none (b :: line)) with
      | .fail e => .ret (some e) st
      | .drop => .again st
      | .accept =>
        match targetChat T st (b :: line) with
        | .error e => .ret (some e) st
        | .ok (out, st') => decodeInto T env (b :: line) (b :: line) out st'

/-- `nmdc/reader.go:153-327`: one round of the loop, given the result of `ReadLine`. -/
def round (T : Types M) (env : Env M) (maxCmdName : Int) (res : Bytes × Option Err) (st : St M) : Round M :=
  match res.2 with
  | some e => .ret (some e) st
  | none =>
    if res.1.getLast? ≠ some delim then .ret (some .protocolViolation) st
    else if (0 : Byte) ∈ res.1 then .ret (some .protocolViolation) st
    else if res.1.dropLast = [] then
      match env.keepAlive with
      | some e => .ret (some e) st
      | none => .again st
    else roundBody T env maxCmdName res.1.dropLast st

/-- A reader, `nmdc/reader.go:53-81`. -/
structure OReader (M Z : Type) where
  lines : Reader Z
  dec : Codec := none
  maxCmdName : Int := 32
  env : Nat → Env M := fun _ => {}

/-- `NewReader`, `nmdc/reader.go:45-50`. -/
def newOReader {Z : Type} (s : Src) : OReader M Z := { lines := newReader s delim }

variable {Z : Type}

/-- `nmdc/reader.go:148-329`, the loop; `k` counts the lines of this call. -/
def OReader.loop (T : Types M) (I : Inflater Z) : Nat → Nat → OReader M Z → St M → Exec (Option Err × St M × OReader M Z)
  | 0, _, _, _ => .timeout
  | fuel + 1, k, r, st =>
    match r.lines.readLine I fuel with
    | .panic => .panic
    | .timeout => .timeout
    | .val (res, lr) =>
      match round T (r.env k) r.maxCmdName res st with
      | .ret e st' => .val (e, st', { r with lines := lr, dec := st'.rdec })
      | .again st' => OReader.loop T I fuel (k + 1) { r with lines := lr, dec := st'.rdec } st'
      | .panic => .panic

/-- The state at the start of a call, `nmdc/reader.go:149`. -/
def OReader.start (r : OReader M Z) (cur : Option M) (arr : List M) : St M :=
  { dec := r.dec, rdec := r.dec, cur, arr, hit := none }

/-- `ReadMsg`, `nmdc/reader.go:117-123`. -/
def OReader.readMsg (T : Types M) (I : Inflater Z) (fuel : Nat) (r : OReader M Z) : Exec (Except Err (Option M) × OReader M Z) :=
  match OReader.loop T I fuel 0 r (r.start none []) with
  | .val (some e, _, r') => .val (.error e, r')
  | .val (none, st, r') => .val (.ok st.cur, r')
  | .panic => .panic
  | .timeout => .timeout

/-- `ReadMsgTo`, `nmdc/reader.go:127-132`: the error and the new value of the message. -/
def OReader.readMsgTo (T : Types M) (I : Inflater Z) (fuel : Nat) (r : OReader M Z) (m : Option M) :
    Exec (Option Err × Option M × OReader M Z) :=
  match m with
  | none => .panic
  | some m =>
    match OReader.loop T I fuel 0 r (r.start (some m) []) with
    | .val (e, st, r') => .val (e, st.cur, r')
    | .panic => .panic
    | .timeout => .timeout

/-- `ReadMsgToAny`, `nmdc/reader.go:137-146`. -/
def OReader.readMsgToAny (T : Types M) (I : Inflater Z) (fuel : Nat) (r : OReader M Z) (arr : List M) :
    Exec (Except Err (Option Nat) × List M × OReader M Z) :=
  match arr with
  | [] => .panic
  | _ :: _ =>
    match OReader.loop T I fuel 0 r (r.start none arr) with
    | .val (some e, st, r') => .val (.error e, st.arr, r')
    | .val (none, st, r') => .val (.ok st.hit, st.arr, r')
    | .panic => .panic
    | .timeout => .timeout

/-- `Unmarshal`, `nmdc/message.go:149-158`. -/
def unmarshalMsg (T : Types M) (I : Inflater Z) (fuel : Nat) (dec : Codec) (data : Bytes) : Exec (Except Err (Option M)) :=
  match (({ newOReader (bytesReader data) with dec } : OReader M Z)).readMsg T I fuel with
  | .val (.error .eof, _) => .val (.error .unexpectedEOF)
  | .val (res, _) => .val res
  | .panic => .panic
  | .timeout => .timeout

/-! ## A program with types of its own -/

/-- The methods of the caller's types. -/
structure Methods (U : Type) where
  typ : U → Bytes
  unmarshal : Codec → Bytes → U → Res Unit × U

/-- The messages of a program with the registry `reg`: those of the package, and those of the caller.  `left` is what a failed
`UnmarshalNMDC` of the package leaves. -/
def Methods.types [HtmlEntities] {U : Type} (u : Methods U) (left : Codec → Msg → Bytes → Msg) (reg : Registry.Reg Bytes (Msg ⊕ U)) :
    Types (Msg ⊕ U) where
  typ
    | .inl m => m.typ
    | .inr x => u.typ x
  isRaw
    | .inl m => m.isRaw
    | .inr _ => false
  isChat
    | .inl m => m.isChat
    | .inr _ => false
  new typ := match Registry.newMessage typ reg with
    | .std m => .inl m
    | .user x => .inr x
    | .raw t => .inl (.raw t [])
  chat := .inl (.chat {})
  unmarshal dec data
    | .inl m => match m.unmarshal dec data with
      | .ok m' => (.ok (), .inl m')
      | .err e => (.err e, .inl (left dec m data))
      | .panic => (.panic, .inl m)
    | .inr x => match u.unmarshal dec data x with
      | (res, x') => (res, .inr x')

end Verif.Nmdc.Own
