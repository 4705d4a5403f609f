import Verif.Lineproto.Reader

/-!
# `lineproto/writer.go`

The sink under the writer, `bufio.Writer`, `zlib.Writer` and `Writer` itself.
-/

namespace Verif.Lineproto

/-- The environment's answer to one `Write(p)` call of the underlying `io.Writer`: everything accepted,
or `n` bytes accepted (at most `len(p)`) and an error.  This is the `io.Writer` contract: a short write
comes with an error. -/
inductive SEv where
  | ok
  | fail (n : Nat) (e : Err)
deriving Repr, DecidableEq

/-- The underlying `io.Writer`: the bytes it has taken and its future answers (all `ok` after the end
of the script). -/
structure Sink where
  sent : Bytes
  script : List SEv
deriving Repr, DecidableEq

/-- `w.Write(p)` on the underlying writer. -/
def Sink.write (p : Bytes) (s : Sink) : (Nat × Option Err) × Sink :=
  match s.script with
  | [] => ((p.length, none), { s with sent := s.sent ++ p })
  | .ok :: t => ((p.length, none), ⟨s.sent ++ p, t⟩)
  | .fail n e :: t => ((min n p.length, some e), ⟨s.sent ++ p.take n, t⟩)

/-- An abstract compressor: `new` is `zlib.NewWriterLevel` (it refuses unknown levels), the other
operations return the new state, the pieces handed to the underlying writer in order, and an error of
the compressor itself (for example after it was closed). -/
structure Deflater (D : Type) where
  new : Int → Except Err D
  reset : D → D
  write : D → Bytes → D × List Bytes × Option Err
  flush : D → D × List Bytes × Option Err
  close : D → D × List Bytes × Option Err

/-- `compress/zlib.Writer`: compressor state and sticky error (`z.err`). -/
structure ZW (D : Type) where
  d : D
  zerr : Option Err

/-- The compressor hands its pieces to the sink; the first error stops it. (`compress/flate` and
`compress/zlib` look only at the error of `Write`.) -/
def emit : List Bytes → Sink → Option Err × Sink
  | [], s => (none, s)
  | c :: cs, s =>
    match s.write c with
    | ((_, some e), s') => (some e, s')
    | ((_, none), s') => emit cs s'

/-- A call of `zlib.Writer.Write`, `Flush` or `Close`: nothing happens after an error. -/
def ZW.call (z : ZW D) (f : D → D × List Bytes × Option Err) (s : Sink) : Option Err × ZW D × Sink :=
  match z.zerr with
  | some e => (some e, z, s)
  | none =>
    match f z.d with
    | (d', cs, e) =>
      match emit cs s with
      | (some e', s') => (some e', ⟨d', some e'⟩, s')
      | (none, s') => (e, ⟨d', e⟩, s')

/-- `bufio.Writer`: buffer size, buffered bytes, sticky error. -/
structure BW where
  size : Nat
  buf : Bytes
  berr : Option Err
deriving Repr, DecidableEq

/-- writer.go:32-47. `tmo` are the future results of `Timeout(true)` (nil after the end of the list; a
nil `Timeout` is the empty list).  `curZ` tells that `cur` is the zlib writer.  `bw = none` is the nil
pointer left by `Close`.  The result of `Timeout(false)` is ignored by the code. -/
structure Writer (D : Type) where
  onLine : List (Bytes → Hook)
  sink : Sink
  tmo : List (Option Err)
  curZ : Bool
  bw : Option BW
  err : Option Err
  zlibOn : Bool
  zlibW : Option (ZW D)
  lvl : Int

/-- writer.go:19-27 and `bufio.NewWriterSize`: a size that is not positive means 4096. -/
def newWriter (size : Int) (tmo : List (Option Err)) (s : Sink) : Writer D :=
  { onLine := [], sink := s, tmo := tmo, curZ := false,
    bw := some ⟨if size ≤ 0 then 4096 else size.toNat, [], none⟩,
    err := none, zlibOn := false, zlibW := none, lvl := 0 }

variable (C : Deflater D)

/-- `w.cur.Write(p)`: the zlib writer or the sink. `flate` returns `len(p)` or `0` and an error. -/
def Writer.curWrite (p : Bytes) (w : Writer D) : Exec ((Nat × Option Err) × Writer D) :=
  if w.curZ then
    match w.zlibW with
    | none => .panic
    | some z =>
      match z.call (C.write · p) w.sink with
      | (e, z', s') =>
        .val ((match e with | none => p.length | some _ => 0, e), { w with zlibW := some z', sink := s' })
  else
    match w.sink.write p with
    | (r, s') => .val (r, { w with sink := s' })

/-- `bufio.Writer.Flush`. -/
def Writer.bwFlush (w : Writer D) : Exec (Option Err × Writer D) :=
  match w.bw with
  | none => .panic
  | some b =>
    match b.berr with
    | some e => .val (some e, w)
    | none =>
      if b.buf = [] then .val (none, w)
      else
        match w.curWrite C b.buf with
        | .panic => .panic
        | .timeout => .timeout
        | .val ((n, e), w') =>
          match (if n < b.buf.length ∧ e = none then some .shortWrite else e) with
          | some e => .val (some e, { w' with bw := some { b with buf := b.buf.drop n, berr := some e } })
          | none => .val (none, { w' with bw := some { b with buf := [] } })

/-- The loop of `bufio.Writer.Write`: returns what is left to be copied into the buffer. -/
def Writer.bwLoop : Nat → Bytes → Writer D → Exec (Bytes × Writer D)
  | 0, _, _ => .timeout
  | fuel + 1, p, w =>
    match w.bw with
    | none => .panic
    | some b =>
      if b.size - b.buf.length < p.length ∧ b.berr = none then
        if b.buf = [] then
          match w.curWrite C p with
          | .panic => .panic
          | .timeout => .timeout
          | .val ((n, e), w') =>
            Writer.bwLoop fuel (p.drop n) { w' with bw := some { b with berr := e } }
        else
          match Writer.bwFlush C { w with bw := some { b with buf := b.buf ++ p.take (b.size - b.buf.length) } } with
          | .panic => .panic
          | .timeout => .timeout
          | .val (_, w') => Writer.bwLoop fuel (p.drop (b.size - b.buf.length)) w'
      else .val (p, w)

/-- `bufio.Writer.Write` (the error; the count is not used by the caller, writer.go:203). -/
def Writer.bwWrite (p : Bytes) (w : Writer D) : Exec (Option Err × Writer D) :=
  match w.bwLoop C (p.length + 3) p with
  | .panic => .panic
  | .timeout => .timeout
  | .val (p', w') =>
    match w'.bw with
    | none => .panic
    | some b =>
      match b.berr with
      | some e => .val (some e, w')
      | none => .val (none, { w' with bw := some { b with buf := b.buf ++ p' } })

/-- `w.Timeout(true)`. -/
def Writer.timeout (w : Writer D) : Option Err × Writer D :=
  match w.tmo with
  | [] => (none, w)
  | t :: ts => (t, { w with tmo := ts })

/-- `w.bw.Reset(w.cur)`. -/
def Writer.bwReset (w : Writer D) : Writer D :=
  { w with bw := w.bw.map fun b => { b with buf := [], berr := none } }

/-- writer.go:53-55, `OnLine`. -/
def Writer.addHook (h : Bytes → Hook) (w : Writer D) : Writer D := { w with onLine := w.onLine ++ [h] }

/-- writer.go:141-166, `Flush`. -/
def Writer.flush (w : Writer D) : Exec (Option Err × Writer D) :=
  match w.err with
  | some e => .val (some e, w)
  | none =>
    match w.timeout with
    | (some e, w) => .val (some e, { w with err := some e })
    | (none, w) =>
      match w.bwFlush C with
      | .panic => .panic
      | .timeout => .timeout
      | .val (some e, w) => .val (some e, { w with err := some e })
      | .val (none, w) =>
        if w.zlibOn then
          match w.zlibW with
          | none => .panic
          | some z =>
            match z.call C.flush w.sink with
            | (some e, z', s') => .val (some e, { w with zlibW := some z', sink := s', err := some e })
            | (none, z', s') => .val (none, { w with zlibW := some z', sink := s' })
        else .val (none, w)

/-- writer.go:183-209, `WriteLine`. -/
def Writer.writeLine (data : Bytes) (w : Writer D) : Exec (Option Err × Writer D) :=
  match w.err with
  | some e => .val (some e, w)
  | none =>
    match runHooks data w.onLine with
    | .fail e => .val (some e, { w with err := some e })
    | .drop => .val (none, w)
    | .accept =>
      match w.timeout with
      | (some e, w) => .val (some e, { w with err := some e })
      | (none, w) =>
        match w.bwWrite C data with
        | .panic => .panic
        | .timeout => .timeout
        | .val (some e, w) => .val (some e, { w with err := some e })
        | .val (none, w) => .val (none, w)

/-- writer.go:170-180, `Write`. -/
def Writer.write (p : Bytes) (w : Writer D) : Exec ((Nat × Option Err) × Writer D) :=
  match w.err with
  | some e => .val ((0, some e), w)
  | none =>
    match w.bw with
    | none => .panic
    | some b =>
      if b.buf ≠ [] then
        match w.flush C with
        | .panic => .panic
        | .timeout => .timeout
        | .val (some e, w) => .val ((0, some e), w)
        | .val (none, w) => w.curWrite C p
      else w.curWrite C p

/-- writer.go:92-115, `EnableZlibLevel`; `EnableZlib` (87-89) is level -1. -/
def Writer.enableZlib (lvl : Int) (w : Writer D) : Exec (Option Err × Writer D) :=
  match w.err with
  | some e => .val (some e, w)
  | none =>
    if w.zlibOn then .val (some .zlibAlreadyActive, w)
    else
      match w.flush C with
      | .panic => .panic
      | .timeout => .timeout
      | .val (some e, w) => .val (some e, w)
      | .val (none, w) =>
        match (match w.zlibW with | none => none | some z => if w.lvl = lvl then some z else none) with
        | some z => .val (none, { w with zlibOn := true, zlibW := some ⟨C.reset z.d, none⟩, curZ := true }.bwReset)
        | none =>
          match C.new lvl with
          | .error e => .val (some e, { w with zlibOn := true })
          | .ok d => .val (none, { w with zlibOn := true, zlibW := some ⟨d, none⟩, lvl := lvl, curZ := true }.bwReset)

/-- writer.go:118-138, `DisableZlib`. -/
def Writer.disableZlib (w : Writer D) : Exec (Option Err × Writer D) :=
  match w.err with
  | some e => .val (some e, w)
  | none =>
    if w.zlibOn then
      match w.bwFlush C with
      | .panic => .panic
      | .timeout => .timeout
      | .val (some e, w) => .val (some e, { w with err := some e })
      | .val (none, w) =>
        match w.zlibW with
        | none => .panic
        | some z =>
          match z.call C.close w.sink with
          | (some e, z', s') => .val (some e, { w with zlibW := some z', sink := s', err := some e })
          | (none, z', s') =>
            .val (none, { w with zlibW := some z', sink := s', zlibOn := false, curZ := false }.bwReset)
    else .val (some .zlibNotActive, w)

/-- writer.go:67-84, `Close`. A second `Close` dereferences the nil `bw`. -/
def Writer.close (w : Writer D) : Exec (Option Err × Writer D) :=
  match w.bwFlush C with
  | .panic => .panic
  | .timeout => .timeout
  | .val (last, w) =>
    let err := match w.err with | none => some Err.writerClosed | some e => some e
    if w.zlibOn then
      match w.zlibW with
      | none => .panic
      | some z =>
        match z.call C.close w.sink with
        | (e, _, s') =>
          .val (match e with | some e => some e | none => last,
            { w with err := err, sink := s', zlibOn := false, zlibW := none, bw := none, curZ := false, onLine := [] })
    else .val (last, { w with err := err, bw := none, curZ := false, onLine := [] })

/-- The calls a user can make. -/
inductive WOp where
  | line (l : Bytes)
  | flush
  | write (p : Bytes)
  | onLine (h : Bytes → Hook)
  | enable (lvl : Int)
  | disable
  | close

/-- One call: the count returned (only by `Write`) and the error. -/
def Writer.step (op : WOp) (w : Writer D) : Exec ((Nat × Option Err) × Writer D) :=
  let lift (r : Exec (Option Err × Writer D)) : Exec ((Nat × Option Err) × Writer D) :=
    match r with
    | .val (e, w) => .val ((0, e), w)
    | .panic => .panic
    | .timeout => .timeout
  match op with
  | .line l => lift (w.writeLine C l)
  | .flush => lift (w.flush C)
  | .write p => w.write C p
  | .onLine h => .val ((0, none), w.addHook h)
  | .enable lvl => lift (w.enableZlib C lvl)
  | .disable => lift (w.disableZlib C)
  | .close => lift (w.close C)

/-- A history of calls with their results. -/
def Writer.run : List WOp → Writer D → Exec (List (Nat × Option Err) × Writer D)
  | [], w => .val ([], w)
  | op :: ops, w =>
    match w.step C op with
    | .panic => .panic
    | .timeout => .timeout
    | .val (r, w) =>
      match Writer.run ops w with
      | .panic => .panic
      | .timeout => .timeout
      | .val (rs, w) => .val (r :: rs, w)

end Verif.Lineproto
