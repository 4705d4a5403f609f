import Verif.Lineproto.Writer

/-!
# The calls a `lineproto.Writer` makes on its environment

`Writer` (`Verif/Lineproto/Writer.lean`) keeps what the transport has taken and what the callback
`Timeout` will answer.  Here the *calls* themselves are listed, in order: `Timeout(true)`,
`Timeout(false)` and every `Write(p)` on the transport, whether it succeeds or not.  Each function
below lists the calls made by the function of the same name in `Writer.lean`, started in the same state.
-/

namespace Verif.Lineproto

/-- A call on the environment: `Timeout(true)` (writer.go:146, 196), `Timeout(false)`
(writer.go:151, 201) or `Write(p)` on the underlying `io.Writer`. -/
inductive TEv where
  | arm
  | disarm
  | put (p : Bytes)
deriving Repr, DecidableEq

/-- The writes made by `emit`: the compressor stops at the first error. -/
def emitLog : List Bytes → Sink → List Bytes
  | [], _ => []
  | c :: cs, s =>
    match s.write c with
    | ((_, some _), _) => [c]
    | ((_, none), s') => c :: emitLog cs s'

/-- The writes made by a call of `zlib.Writer.Write`, `Flush` or `Close`. -/
def ZW.callLog (z : ZW D) (f : D → D × List Bytes × Option Err) (s : Sink) : List Bytes :=
  match z.zerr with
  | some _ => []
  | none => emitLog (f z.d).2.1 s

variable (C : Deflater D)

/-- The writes made by `w.cur.Write(p)`. -/
def Writer.curWriteLog (p : Bytes) (w : Writer D) : List Bytes :=
  if w.curZ then
    match w.zlibW with
    | none => []
    | some z => z.callLog (C.write · p) w.sink
  else [p]

/-- The writes made by `bufio.Writer.Flush`. -/
def Writer.bwFlushLog (w : Writer D) : List Bytes :=
  match w.bw with
  | none => []
  | some b =>
    match b.berr with
    | some _ => []
    | none => if b.buf = [] then [] else w.curWriteLog C b.buf

/-- The writes made by the loop of `bufio.Writer.Write`. -/
def Writer.bwLoopLog : Nat → Bytes → Writer D → List Bytes
  | 0, _, _ => []
  | fuel + 1, p, w =>
    match w.bw with
    | none => []
    | some b =>
      if b.size - b.buf.length < p.length ∧ b.berr = none then
        if b.buf = [] then
          w.curWriteLog C p ++
            match w.curWrite C p with
            | .val ((n, e), w') =>
              Writer.bwLoopLog fuel (p.drop n) { w' with bw := some { b with berr := e } }
            | _ => []
        else
          Writer.bwFlushLog C { w with bw := some { b with buf := b.buf ++ p.take (b.size - b.buf.length) } } ++
            match Writer.bwFlush C { w with bw := some { b with buf := b.buf ++ p.take (b.size - b.buf.length) } } with
            | .val (_, w') => Writer.bwLoopLog fuel (p.drop (b.size - b.buf.length)) w'
            | _ => []
      else []

/-- The writes made by `bufio.Writer.Write`. -/
def Writer.bwWriteLog (p : Bytes) (w : Writer D) : List Bytes := w.bwLoopLog C (p.length + 3) p

/-- The writes made by `w.zlibW.Flush()` or `w.zlibW.Close()`. -/
def Writer.zlibLog (f : D → D × List Bytes × Option Err) (w : Writer D) : List Bytes :=
  match w.zlibW with
  | none => []
  | some z => z.callLog f w.sink

/-- writer.go:145-152 and 195-202: `body` runs between `Timeout(true)` and the deferred
`Timeout(false)`, which is called also when `body` panics.  When `Timeout(true)` fails nothing else is
called.  The callback is taken to be set (without it the events `arm` and `disarm` do not happen). -/
def Writer.guarded (body : Writer D → List Bytes) (w : Writer D) : List TEv :=
  match w.timeout with
  | (some _, _) => [.arm]
  | (none, w) => .arm :: ((body w).map .put ++ [.disarm])

/-- writer.go:153-165, the part of `Flush` behind the callback. -/
def Writer.flushBody (w : Writer D) : List Bytes :=
  w.bwFlushLog C ++
    match w.bwFlush C with
    | .val (none, w) => if w.zlibOn then w.zlibLog C.flush else []
    | _ => []

/-- writer.go:141-166, the calls of `Flush`. -/
def Writer.flushLog (w : Writer D) : List TEv :=
  match w.err with
  | some _ => []
  | none => w.guarded (fun w => w.flushBody C)

/-- writer.go:183-209, the calls of `WriteLine`. -/
def Writer.writeLineLog (data : Bytes) (w : Writer D) : List TEv :=
  match w.err with
  | some _ => []
  | none =>
    match runHooks data w.onLine with
    | .accept => w.guarded (fun w => w.bwWriteLog C data)
    | _ => []

/-- writer.go:170-180, the calls of `Write`. -/
def Writer.writeLog (p : Bytes) (w : Writer D) : List TEv :=
  match w.err with
  | some _ => []
  | none =>
    match w.bw with
    | none => []
    | some b =>
      if b.buf ≠ [] then
        w.flushLog C ++
          match w.flush C with
          | .val (none, w) => (w.curWriteLog C p).map .put
          | _ => []
      else (w.curWriteLog C p).map .put

/-- writer.go:92-115, the calls of `EnableZlibLevel` (creating or resetting the compressor writes
nothing). -/
def Writer.enableZlibLog (w : Writer D) : List TEv :=
  match w.err with
  | some _ => []
  | none => if w.zlibOn then [] else w.flushLog C

/-- writer.go:118-138, the calls of `DisableZlib`. -/
def Writer.disableZlibLog (w : Writer D) : List TEv :=
  match w.err with
  | some _ => []
  | none =>
    if w.zlibOn then
      (w.bwFlushLog C).map .put ++
        match w.bwFlush C with
        | .val (none, w) => (w.zlibLog C.close).map .put
        | _ => []
    else []

/-- writer.go:67-84, the calls of `Close`. -/
def Writer.closeLog (w : Writer D) : List TEv :=
  (w.bwFlushLog C).map .put ++
    match w.bwFlush C with
    | .val (_, w) => if w.zlibOn then (w.zlibLog C.close).map .put else []
    | _ => []

/-- The calls made by one call of the user. -/
def Writer.stepLog (op : WOp) (w : Writer D) : List TEv :=
  match op with
  | .line l => w.writeLineLog C l
  | .flush => w.flushLog C
  | .write p => w.writeLog C p
  | .onLine _ => []
  | .enable _ => w.enableZlibLog C
  | .disable => w.disableZlibLog C
  | .close => w.closeLog C

/-- The calls made by a history, one list for each call of the user (a panic ends the history). -/
def Writer.runLog : List WOp → Writer D → List (List TEv)
  | [], _ => []
  | op :: ops, w =>
    w.stepLog C op ::
      match w.step C op with
      | .val (_, w) => Writer.runLog ops w
      | _ => []

end Verif.Lineproto
