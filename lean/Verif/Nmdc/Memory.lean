import Verif.Nmdc.Reader
import Verif.Lineproto.Memory

/-!
# `nmdc.Reader` with its memory

The reader over `Verif/Lineproto/Memory.lean`: which results are windows on the line, and which are copies.

* `UnmarshalNMDC` only reads its argument; the only message type with a `[]byte` field is `RawMessage`, whose `UnmarshalNMDC` makes a
  copy (`nmdc/message.go:110-114`).  Copies in messages that are dropped are not counted.
* `ErrUnexpectedCommand` holds a `RawMessage` whose data is a part of the line (`nmdc/reader.go:222-224, 235-237, 242-244, 272-274,
  284-287`).
* The text in the error for an unknown encoding can be a part of the line too (`nmdc/types.go:49-54, 114-116, 148-150`).  Here it is
  a value: nothing is claimed about this error after the call.
* Callbacks do not write to what they get during the call.  They get parts of the lines and may keep them; the loop returns the
  arrays of the lines it read.
-/

namespace Verif.Nmdc.Mem

open Verif.Go Verif.Lineproto Verif.Lineproto.Mem

/-- A slice `a[off:off+len]`. -/
structure Win where
  arr : Nat
  off : Nat
  len : Nat

/-- The bytes of a slice. -/
def Win.bytes (h : Heap) (w : Win) : Bytes := ((h.mem w.arr).drop w.off).take w.len

/-- An error: `ErrUnexpectedCommand` has a slice. -/
inductive MErr where
  | plain (e : Err)
  | unexpected (expected typ : Bytes) (data : Win)

/-- What the error says when it is looked at in the memory `h`. -/
def MErr.seen (h : Heap) : MErr → Err
  | .plain e => e
  | .unexpected x t w => .unexpectedCommand x t (w.bytes h)

/-- A message: `RawMessage` has a slice. -/
inductive MMsg where
  | val (m : Msg)
  | raw (typ : Bytes) (data : Win)

/-- What the message says when it is looked at in the memory `h`. -/
def MMsg.seen (h : Heap) : MMsg → Msg
  | .val m => m
  | .raw typ w => .raw typ (w.bytes h)

/-- What one round of the loop does. -/
inductive MRound where
  | ret (e : Option MErr) (st : St)
  | again (st : St)
  | panic

/-- A round whose error holds no slice. -/
def MRound.plain : Round → MRound
  | .ret e st => .ret (e.map .plain) st
  | .again st => .again st
  | .panic => .panic

/-- The error of lines 209-246 and 257-289, whose data are the arguments in the line. -/
def refused (e : Err) (args : Win) : MErr :=
  match e with
  | .unexpectedCommand x t _ => .unexpected x t args
  | e => .plain e

variable [HtmlEntities]

/-- Lines 175-327: the line in `s`, without its delimiter, is not empty. -/
def roundBody (env : Env) (left : Codec → Msg → Bytes → Msg) (maxCmdName : Int) (s : Slice) (h : Heap) (st : St) : MRound :=
  match (s.bytes h).dropLast with
  | [] => .again st
  | b :: line =>
    if b = c!"$" then
      match splitCmd line with
      | (cmd, args) =>
        match runAll () (env.rawHooks.map fun h _ => h (some cmd) args) with
        | .fail e => .ret (some (.plain e)) st
        | .drop => .again st
        | .accept =>
          if cmdNameOk maxCmdName cmd then
            match targetCmd st cmd args with
            | .error e => .ret (some (refused e ⟨s.arr, 1 + (cmd.length + 1), args.length⟩)) st
            | .ok (out, st') => .plain (decodeInto env left (b :: line) args out st')
          else .ret (some (.plain .protocolViolation)) st
    else
      match runAll () (env.rawHooks.map fun h _ => h none (b :: line)) with
      | .fail e => .ret (some (.plain e)) st
      | .drop => .again st
      | .accept =>
        match targetChat st (b :: line) with
        | .error e => .ret (some (refused e ⟨s.arr, 0, (b :: line).length⟩)) st
        | .ok (out, st') => .plain (decodeInto env left (b :: line) (b :: line) out st')

/-- Lines 153-327: one round of the loop, given the result of `ReadLine`. -/
def round (env : Env) (left : Codec → Msg → Bytes → Msg) (maxCmdName : Int) (s : Option Slice) (e : Option Err) (h : Heap) (st : St) :
    MRound :=
  match e with
  | some e => .ret (some (.plain e)) st
  | none =>
    match s with
    | none => .ret (some (.plain .protocolViolation)) st
    | some s =>
      if (s.bytes h).getLast? ≠ some delim then .ret (some (.plain .protocolViolation)) st
      else if (0 : Byte) ∈ s.bytes h then .ret (some (.plain .protocolViolation)) st
      else if (s.bytes h).dropLast = [] then
        match env.keepAlive with
        | some e => .ret (some (.plain e)) st
        | none => .again st
      else roundBody env left maxCmdName s h st

variable {Z : Type}

/-- A reader, `nmdc/reader.go:53-81`. -/
structure MNReader (Z : Type) where
  lines : MReader Z
  dec : Codec := none
  maxCmdName : Int := 32
  env : Nat → Env := fun _ => {}

/-- The array of a line. -/
def arrs : Option Slice → List Nat
  | none => []
  | some s => [s.arr]

/-- Lines 148-329, the loop.  `seen` are the arrays of the lines that were read, the last one first. -/
def MNReader.loop (I : Inflater Z) (W : World) (left : Codec → Msg → Bytes → Msg) :
    Nat → Nat → MNReader Z → St → Heap → List Nat → Exec (Option MErr × St × MNReader Z × Heap × List Nat)
  | 0, _, _, _, _, _ => .timeout
  | fuel + 1, k, r, st, h, seen =>
    match r.lines.readLine I W fuel h with
    | .panic => .panic
    | .timeout => .timeout
    | .val ((s, e), lr, h') =>
      match round (r.env k) left r.maxCmdName s e h' st with
      | .ret e st' => .val (e, st', { r with lines := lr, dec := st'.rdec }, h', arrs s ++ seen)
      | .again st' => MNReader.loop I W left fuel (k + 1) { r with lines := lr, dec := st'.rdec } st' h' (arrs s ++ seen)
      | .panic => .panic

/-- The state at the start of a call: line 149. -/
def MNReader.start (r : MNReader Z) (cur : Option Msg) (arr : List Msg) : St :=
  { dec := r.dec, rdec := r.dec, cur, arr, hit := none }

/-- The message that is returned: the data of a `RawMessage` is a new array, `nmdc/message.go:110-114`. -/
def hold (h : Heap) : Option Msg → Option MMsg × Heap
  | none => (none, h)
  | some (.raw typ data) =>
    match h.alloc data with
    | (a, h') => (some (.raw typ ⟨a, 0, data.length⟩), h')
  | some m => (some (.val m), h)

/-- A call that reads a message: `ReadMsg()`, `ReadMsgTo(m)` or `ReadMsgToAny(arr...)`. -/
inductive MsgCall where
  | any
  | to (m : Msg)
  | toAny (arr : List Msg)

/-- The arguments of `readMsgTo`, lines 119, 131 and 142. -/
def MsgCall.args : MsgCall → Option Msg × List Msg
  | .any => (none, [])
  | .to m => (some m, [])
  | .toAny arr => (none, arr)

/-- Lines 138-140: no messages to decode. -/
def MsgCall.bad : MsgCall → Bool
  | .toAny [] => true
  | _ => false

/-- Where the message is after the call: `*ptr`. -/
def MsgCall.target (st : St) : MsgCall → Option Msg
  | .toAny _ => st.hit.bind fun i => st.arr[i]?
  | _ => st.cur

/-- `ReadMsg`, `ReadMsgTo` and `ReadMsgToAny`, lines 117-146: the message or the error, and the arrays of the lines that were
read. -/
def MNReader.read (I : Inflater Z) (W : World) (left : Codec → Msg → Bytes → Msg) (fuel : Nat) (r : MNReader Z) (h : Heap)
    (c : MsgCall) : Exec (Except MErr (Option MMsg) × MNReader Z × Heap × List Nat) :=
  if c.bad then .panic
  else
    match MNReader.loop I W left fuel 0 r (r.start c.args.1 c.args.2) h [] with
    | .val (some e, _, r', h', seen) => .val (.error e, r', h', seen)
    | .val (none, st, r', h', seen) => .val (.ok (hold h' (c.target st)).1, r', (hold h' (c.target st)).2, seen)
    | .panic => .panic
    | .timeout => .timeout

end Verif.Nmdc.Mem
