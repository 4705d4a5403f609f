import Verif.Lineproto.Writer
import Verif.Lineproto.Memory

/-!
# `lineproto.Writer` with its memory

`Verif/Lineproto/Writer.lean` has values where the program has slices.  Here the buffer of the `bufio.Writer`, the lines and the buffer
`mbuf` of the NMDC and ADC writers are arrays in memory, to say which arrays are written and when they are read.

* `Write` of the transport and of the compressor takes what it is given when it is called, and does not write to it (`io.Writer`).
  The memory of the compressor is its own.
* The callbacks of `OnLine` may write to the memory they know.  What they do in a call and what they answer is given with the call, so
  that it may depend on anything.
-/

namespace Verif.Lineproto.Mem

open Verif.Lineproto

/-- A slice of an array. -/
structure Win where
  arr : Nat
  off : Nat
  len : Nat

/-- The bytes of the slice. -/
def Win.bytes (h : Heap) (p : Win) : Bytes := ((h.mem p.arr).drop p.off).take p.len

/-- `p[n:]`. -/
def Win.drop (n : Nat) (p : Win) : Win := { p with off := p.off + n, len := p.len - n }

/-- `bufio.Writer`: the first `n` bytes of the array are buffered. -/
structure MBW where
  arr : Nat
  size : Nat
  n : Nat
  berr : Option Err

/-- writer.go:32-47. The fields `bw` and `onLine` of `w` are not used. -/
structure MWriter (D : Type) where
  w : Writer D
  bw : Option MBW

/-- writer.go:19-27: `bufio.NewWriterSize` makes the array. -/
def newMWriter (size : Int) (tmo : List (Option Err)) (s : Sink) (h : Heap) : MWriter D × Heap :=
  let n := if size ≤ 0 then 4096 else size.toNat
  match h.alloc (List.replicate n 0) with
  | (a, h') => (⟨newWriter size tmo s, some ⟨a, n, 0, none⟩⟩, h')

variable (C : Deflater D)

/-- `copy(b.buf[b.n:], p)` and `b.n += n` in `bufio.Writer.Write`. -/
def MBW.copyIn (h : Heap) (b : MBW) (p : Bytes) : MBW × Heap :=
  let c := p.take (b.size - b.n)
  ({ b with n := b.n + c.length }, h.set b.arr ((h.mem b.arr).take b.n ++ c ++ (h.mem b.arr).drop (b.n + c.length)))

/-- `bufio.Writer.Flush`; what was not written is moved to the start of the buffer. -/
def MWriter.bwFlush (h : Heap) (m : MWriter D) : Exec (Option Err × MWriter D × Heap) :=
  match m.bw with
  | none => .panic
  | some b =>
    match b.berr with
    | some e => .val (some e, m, h)
    | none =>
      if b.n = 0 then .val (none, m, h)
      else
        match m.w.curWrite C ((h.mem b.arr).take b.n) with
        | .panic => .panic
        | .timeout => .timeout
        | .val ((k, e), w') =>
          match (if k < b.n ∧ e = none then some .shortWrite else e) with
          | some e =>
            .val (some e, ⟨w', some { b with n := b.n - k, berr := some e }⟩,
              h.set b.arr (((h.mem b.arr).take b.n).drop k ++ (h.mem b.arr).drop (b.n - k)))
          | none => .val (none, ⟨w', some { b with n := 0 }⟩, h)

/-- The loop of `bufio.Writer.Write`: returns what is left to be copied into the buffer. -/
def MWriter.bwLoop : Nat → Win → Heap → MWriter D → Exec (Win × MWriter D × Heap)
  | 0, _, _, _ => .timeout
  | fuel + 1, p, h, m =>
    match m.bw with
    | none => .panic
    | some b =>
      if b.size - b.n < p.len ∧ b.berr = none then
        if b.n = 0 then
          match m.w.curWrite C (p.bytes h) with
          | .panic => .panic
          | .timeout => .timeout
          | .val ((k, e), w') => MWriter.bwLoop fuel (p.drop k) h ⟨w', some { b with berr := e }⟩
        else
          match b.copyIn h (p.bytes h) with
          | (b', h') =>
            match MWriter.bwFlush C h' { m with bw := some b' } with
            | .panic => .panic
            | .timeout => .timeout
            | .val (_, m', h'') => MWriter.bwLoop fuel (p.drop (b.size - b.n)) h'' m'
      else .val (p, m, h)

/-- `bufio.Writer.Write`. -/
def MWriter.bwWrite (p : Win) (h : Heap) (m : MWriter D) : Exec (Option Err × MWriter D × Heap) :=
  match MWriter.bwLoop C (p.len + 3) p h m with
  | .panic => .panic
  | .timeout => .timeout
  | .val (p', m', h') =>
    match m'.bw with
    | none => .panic
    | some b =>
      match b.berr with
      | some e => .val (some e, m', h')
      | none =>
        match b.copyIn h' (p'.bytes h') with
        | (b', h'') => .val (none, { m' with bw := some b' }, h'')

/-- `w.bw.Reset(w.cur)`. -/
def MWriter.bwReset (m : MWriter D) : MWriter D := { m with bw := m.bw.map fun b => { b with n := 0, berr := none } }

/-- writer.go:141-166, `Flush`. -/
def MWriter.flush (h : Heap) (m : MWriter D) : Exec (Option Err × MWriter D × Heap) :=
  match m.w.err with
  | some e => .val (some e, m, h)
  | none =>
    match m.w.timeout with
    | (some e, w) => .val (some e, { m with w := { w with err := some e } }, h)
    | (none, w) =>
      match MWriter.bwFlush C h { m with w } with
      | .panic => .panic
      | .timeout => .timeout
      | .val (some e, m, h) => .val (some e, { m with w.err := some e }, h)
      | .val (none, m, h) =>
        if m.w.zlibOn then
          match m.w.zlibW with
          | none => .panic
          | some z =>
            match z.call C.flush m.w.sink with
            | (some e, z', s') => .val (some e, { m with w := { m.w with zlibW := some z', sink := s', err := some e } }, h)
            | (none, z', s') => .val (none, { m with w := { m.w with zlibW := some z', sink := s' } }, h)
        else .val (none, m, h)

/-- What a callback does in a call: the arrays it writes, and its answer. -/
structure HookRun where
  writes : List (Nat × Bytes)
  answer : Hook

/-- The memory after some writes. -/
def Heap.sets (h : Heap) : List (Nat × Bytes) → Heap
  | [] => h
  | (a, v) :: ws => (h.set a v).sets ws

/-- writer.go:187-194: the callbacks run in order; the first that does not accept decides. -/
def runMHooks (h : Heap) : List HookRun → Hook × Heap
  | [] => (.accept, h)
  | x :: xs =>
    match x.answer with
    | .accept => runMHooks (h.sets x.writes) xs
    | a => (a, h.sets x.writes)

/-- writer.go:183-209, `WriteLine`. -/
def MWriter.writeLine (hooks : List HookRun) (p : Win) (h : Heap) (m : MWriter D) : Exec (Option Err × MWriter D × Heap) :=
  match m.w.err with
  | some e => .val (some e, m, h)
  | none =>
    match runMHooks h hooks with
    | (.fail e, h) => .val (some e, { m with w.err := some e }, h)
    | (.drop, h) => .val (none, m, h)
    | (.accept, h) =>
      match m.w.timeout with
      | (some e, w) => .val (some e, { m with w := { w with err := some e } }, h)
      | (none, w) =>
        match MWriter.bwWrite C p h { m with w } with
        | .panic => .panic
        | .timeout => .timeout
        | .val (some e, m, h) => .val (some e, { m with w.err := some e }, h)
        | .val (none, m, h) => .val (none, m, h)

/-- writer.go:170-180, `Write`. -/
def MWriter.write (p : Win) (h : Heap) (m : MWriter D) : Exec ((Nat × Option Err) × MWriter D × Heap) :=
  let direct (h : Heap) (m : MWriter D) : Exec ((Nat × Option Err) × MWriter D × Heap) :=
    match m.w.curWrite C (p.bytes h) with
    | .panic => .panic
    | .timeout => .timeout
    | .val (r, w) => .val (r, { m with w }, h)
  match m.w.err with
  | some e => .val ((0, some e), m, h)
  | none =>
    match m.bw with
    | none => .panic
    | some b =>
      if b.n ≠ 0 then
        match m.flush C h with
        | .panic => .panic
        | .timeout => .timeout
        | .val (some e, m, h) => .val ((0, some e), m, h)
        | .val (none, m, h) => direct h m
      else direct h m

/-- writer.go:92-115, `EnableZlibLevel`. -/
def MWriter.enableZlib (lvl : Int) (h : Heap) (m : MWriter D) : Exec (Option Err × MWriter D × Heap) :=
  match m.w.err with
  | some e => .val (some e, m, h)
  | none =>
    if m.w.zlibOn then .val (some .zlibAlreadyActive, m, h)
    else
      match m.flush C h with
      | .panic => .panic
      | .timeout => .timeout
      | .val (some e, m, h) => .val (some e, m, h)
      | .val (none, m, h) =>
        match (match m.w.zlibW with | none => none | some z => if m.w.lvl = lvl then some z else none) with
        | some z =>
          .val (none, MWriter.bwReset { m with w := { m.w with zlibOn := true, zlibW := some ⟨C.reset z.d, none⟩, curZ := true } }, h)
        | none =>
          match C.new lvl with
          | .error e => .val (some e, { m with w.zlibOn := true }, h)
          | .ok d =>
            .val (none, MWriter.bwReset { m with w := { m.w with zlibOn := true, zlibW := some ⟨d, none⟩, lvl := lvl, curZ := true } }, h)

/-- writer.go:118-138, `DisableZlib`. -/
def MWriter.disableZlib (h : Heap) (m : MWriter D) : Exec (Option Err × MWriter D × Heap) :=
  match m.w.err with
  | some e => .val (some e, m, h)
  | none =>
    if m.w.zlibOn then
      match m.bwFlush C h with
      | .panic => .panic
      | .timeout => .timeout
      | .val (some e, m, h) => .val (some e, { m with w.err := some e }, h)
      | .val (none, m, h) =>
        match m.w.zlibW with
        | none => .panic
        | some z =>
          match z.call C.close m.w.sink with
          | (some e, z', s') => .val (some e, { m with w := { m.w with zlibW := some z', sink := s', err := some e } }, h)
          | (none, z', s') =>
            .val (none, MWriter.bwReset { m with w := { m.w with zlibW := some z', sink := s', zlibOn := false, curZ := false } }, h)
    else .val (some .zlibNotActive, m, h)

/-- writer.go:67-84, `Close`. -/
def MWriter.close (h : Heap) (m : MWriter D) : Exec (Option Err × MWriter D × Heap) :=
  match m.bwFlush C h with
  | .panic => .panic
  | .timeout => .timeout
  | .val (last, m, h) =>
    let err := match m.w.err with | none => some Err.writerClosed | some e => some e
    if m.w.zlibOn then
      match m.w.zlibW with
      | none => .panic
      | some z =>
        match z.call C.close m.w.sink with
        | (e, _, s') =>
          .val (match e with | some e => some e | none => last,
            ⟨{ m.w with err := err, sink := s', zlibOn := false, zlibW := none, curZ := false }, none⟩, h)
    else .val (last, ⟨{ m.w with err := err, curZ := false }, none⟩, h)

/-- The NMDC and the ADC writer: a line writer and the buffer for one message, `nmdc/writer.go:25-35`, `adc/writer.go:30-35`. -/
structure MOut (D : Type) where
  m : MWriter D
  mbuf : Slice

/-- `nmdc/writer.go:74-81`, `adc/writer.go:44-49`: the buffer is reset, the message is encoded into it as `l`, and the buffer is written
as a line. -/
def MOut.writeMsg (W : World) (hooks : List HookRun) (l : Bytes) (h : Heap) (o : MOut D) : Exec (Option Err × MOut D × Heap) :=
  match append W h { o.mbuf with len := 0 } l with
  | (s, h) =>
    match o.m.writeLine C hooks ⟨s.arr, 0, s.len⟩ h with
    | .panic => .panic
    | .timeout => .timeout
    | .val (e, m, h) => .val (e, ⟨m, s⟩, h)

/-- The calls on such a writer, and on the line writer in it. -/
inductive MOp where
  | msg (hooks : List HookRun) (l : Bytes)
  | line (hooks : List HookRun) (p : Win)
  | flush
  | write (p : Win)
  | enable (lvl : Int)
  | disable
  | close

/-- One call: the count returned (only by `Write`) and the error. -/
def MOut.step (W : World) (op : MOp) (h : Heap) (o : MOut D) : Exec ((Nat × Option Err) × MOut D × Heap) :=
  let lift (r : Exec (Option Err × MWriter D × Heap)) : Exec ((Nat × Option Err) × MOut D × Heap) :=
    match r with
    | .val (e, m, h) => .val ((0, e), { o with m }, h)
    | .panic => .panic
    | .timeout => .timeout
  match op with
  | .msg hooks l =>
    match o.writeMsg C W hooks l h with
    | .val (e, o, h) => .val ((0, e), o, h)
    | .panic => .panic
    | .timeout => .timeout
  | .line hooks p => lift (o.m.writeLine C hooks p h)
  | .flush => lift (o.m.flush C h)
  | .write p =>
    match o.m.write C p h with
    | .val (r, m, h) => .val (r, { o with m }, h)
    | .panic => .panic
    | .timeout => .timeout
  | .enable lvl => lift (o.m.enableZlib C lvl h)
  | .disable => lift (o.m.disableZlib C h)
  | .close => lift (o.m.close C h)

end Verif.Lineproto.Mem
