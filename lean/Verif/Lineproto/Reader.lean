import Verif.Go.Basic

/-!
# `lineproto.Reader`

Model of `/repo/lineproto/reader.go`.

* The `io.Reader` under the line reader is a *script*: the list of results its `Read` calls give.
  A result longer than the caller's buffer is delivered in parts.  After the script, `Read` returns
  `(0, io.EOF)` for ever.
* The zlib decompressor is abstract (`Inflater`): it consumes the original reader one byte at a time and
  may hand out its output in pieces of any size.  `compress/zlib` takes most bytes with `bufReader.ReadByte`, and
  stored blocks, their lengths and the checksum with `io.ReadFull` over `bufReader.Read`; `Inflater.want` says which.
* Hooks are pure functions of the line.
* The `for` loop is run with fuel; `Exec.timeout` means that the fuel was too small.  Theorems are
  about the results other than `timeout`.
-/

namespace Verif.Lineproto

/-- Outcome of running a piece of Go code that may loop. -/
inductive Exec (α : Type u) where
  | val (a : α)
  | panic
  | timeout
deriving Repr, DecidableEq

/-- One result of `io.Reader.Read`: `len(data)` bytes and an error. `([], none)` is the discouraged
`(0, nil)`. -/
structure Ev where
  data : Bytes
  err : Option Err := none
deriving Repr, DecidableEq

/-- An `io.Reader`, as the script of its results. -/
abbrev Src := List Ev

/-- `Read(p)` with `len(p) = n`. -/
def Src.read (n : Nat) : Src → (Bytes × Option Err) × Src
  | [] => (([], some .eof), [])
  | ev :: s =>
    if ev.data.length ≤ n then ((ev.data, ev.err), s)
    else ((ev.data.take n, none), { ev with data := ev.data.drop n } :: s)

/-- Reader.go:14, `readBuf`. -/
def readBuf : Nat := 2048

/-- Reader.go:15, `maxLineDef`. -/
def maxLineDef : Int := 2048 * 16

/-- Reader.go:53-57, `bufReader` over a plain reader. `buf` is the unread part `r.buf[r.off:]`. -/
structure Buf where
  src : Src
  buf : Bytes
deriving Repr, DecidableEq

/-- Reader.go:65-75, `bufReader.peek`: called when the buffer is exhausted. -/
def Buf.peek (b : Buf) : Option Err × Buf :=
  match b.src.read readBuf with
  | (([], some e), s) => (some e, { b with src := s })
  | ((d, _), s) => (none, { src := s, buf := d })

/-- Reader.go:77-86, `bufReader.ReadByte`. Indexing an empty buffer panics (line 83). -/
def Buf.readByte (b : Buf) : Exec ((Byte ⊕ Err) × Buf) :=
  match b.buf with
  | c :: rest => .val (.inl c, { b with buf := rest })
  | [] =>
    match b.peek with
    | (some e, b') => .val (.inr e, b')
    | (none, b') =>
      match b'.buf with
      | c :: rest => .val (.inl c, { b' with buf := rest })
      | [] => .panic

/-- Reader.go:88-96, `bufReader.Read(p)` with `len(p) = n`. -/
def Buf.read (n : Nat) (b : Buf) : (Bytes × Option Err) × Buf :=
  match b.buf with
  | [] =>
    match b.src.read n with
    | (r, s) => (r, { b with src := s })
  | c :: cs => (((c :: cs).take n, none), { b with buf := (c :: cs).drop n })

/-- State of a decompressor after the bytes it has consumed so far. -/
inductive ZStatus where
  | running
  | done
  | failed (e : Err)
deriving Repr, DecidableEq

/-- An abstract streaming decompressor: `header` parses the two header bytes (`zlib.NewReader`,
`Resetter.Reset`), `step` consumes one byte and produces some output. -/
structure Inflater (Z : Type) where
  header : Byte → Byte → Except Err Z
  step : Z → Byte → Z × Bytes
  status : Z → ZStatus
  /-- How many bytes the call of `io.ReadFull` that is going on still has to deliver; 0 if the next byte is taken with `ReadByte`. -/
  want : Z → Nat := fun _ => 0

/-- The zlib reader: decompressor state, output not yet handed out, sticky source error,
and the schedule of its future `Read` calls: how much output it gathers before it returns, and
whether it returns the final error together with the last data. -/
structure ZRd (Z : Type) where
  z : Z
  pend : Bytes
  zerr : Option Err
  sched : List (Nat × Bool)

/-- Errors of the source seen by the decompressor: `io.EOF` inside the stream becomes
`io.ErrUnexpectedEOF` (compress/flate `noEOF`). -/
def noEOF : Err → Err
  | .eof => .unexpectedEOF
  | e => e

/-- The next byte of the transport for `io.ReadFull`, which reads again after `(0, nil)`; the byte comes with the error of its result if
it is the last byte of that result. -/
def Src.fetch : Src → ((Byte × Option Err) ⊕ Err) × Src
  | [] => (.inr .eof, [])
  | ⟨[], none⟩ :: s => Src.fetch s
  | ⟨[], some e⟩ :: s => (.inr e, s)
  | ⟨[c], e⟩ :: s => (.inl (c, e), s)
  | ⟨c :: d :: ds, e⟩ :: s => (.inl (c, none), ⟨d :: ds, e⟩ :: s)

/-- The next byte for the decompressor, `n` as in `Inflater.want`.  `io.ReadFull` returns the error that comes with a byte if it wants
more bytes; `ReadByte` (`peek`, reader.go:65-75) never does. -/
def Buf.zByte (n : Nat) (b : Buf) : Exec (((Byte × Option Err) ⊕ Err) × Buf) :=
  if n = 0 then
    match b.readByte with
    | .val (.inl c, b') => .val (.inl (c, none), b')
    | .val (.inr e, b') => .val (.inr e, b')
    | .panic => .panic
    | .timeout => .timeout
  else
    match b.buf with
    | c :: rest => .val (.inl (c, none), { b with buf := rest })
    | [] =>
      match b.src.fetch with
      | (.inr e, s) => .val (.inr e, { b with src := s })
      | (.inl (c, e), s) => .val (.inl (c, if n = 1 then none else e), { b with src := s })

/-- Runs the decompressor until it has gathered `want` bytes or cannot go on. -/
def zFill {Z : Type} (I : Inflater Z) (want : Nat) : Nat → ZRd Z → Buf → Exec (ZRd Z × Buf)
  | 0, _, _ => .timeout
  | fuel + 1, zr, b =>
    if want ≤ zr.pend.length then .val (zr, b)
    else if zr.zerr.isSome then .val (zr, b)
    else match I.status zr.z with
      | .done => .val (zr, b)
      | .failed _ => .val (zr, b)
      | .running =>
        match b.zByte (I.want zr.z) with
        | .val (.inl (c, e), b') =>
          zFill I want fuel { zr with z := (I.step zr.z c).1, pend := zr.pend ++ (I.step zr.z c).2, zerr := e.map noEOF } b'
        | .val (.inr e, b') => zFill I want fuel { zr with zerr := some (noEOF e) } b'
        | .panic => .panic
        | .timeout => .timeout

/-- The error the zlib reader reports when it has no more output. -/
def zFinal {Z : Type} (I : Inflater Z) (zr : ZRd Z) : Err :=
  match zr.zerr with
  | some e => e
  | none =>
    match I.status zr.z with
    | .failed e => e
    | _ => .eof

/-- `Read(p)` of the zlib reader, `len(p) = n`. -/
def zRead {Z : Type} (I : Inflater Z) (fuel n : Nat) (zr : ZRd Z) (b : Buf) :
    Exec ((Bytes × Option Err) × ZRd Z × Buf) :=
  match zFill I (max 1 (zr.sched.headD (1, false)).1) fuel zr b with
  | .val (zr', b') =>
    if zr'.pend = [] then
      .val (([], some (zFinal I zr')), { zr' with sched := zr.sched.tail }, b')
    else
      let out := zr'.pend.take n
      let rest := zr'.pend.drop n
      let fin := zr'.zerr.isSome || (I.status zr'.z != .running)
      let e := if rest = [] ∧ fin = true ∧ (zr.sched.headD (1, false)).2 = true
        then some (zFinal I zr') else none
      .val ((out, e), { zr' with pend := rest, sched := zr.sched.tail }, b')
  | .panic => .panic
  | .timeout => .timeout

/-- What a line hook decides: keep the line, drop it, or fail. -/
inductive Hook where
  | accept
  | drop
  | fail (e : Err)
deriving Repr, DecidableEq

/-- Reader.go:125-140, `Reader`.  `orig = none` after `Close`.  `cur` is `compressed` when `curZ`,
else `original`.  `cbuf` is the unread part of the buffer of `compressed`. -/
structure Reader (Z : Type) where
  delim : Byte
  maxLine : Int
  orig : Option Buf
  zlibOn : Bool
  curZ : Bool
  zlib : Option (ZRd Z)
  cbuf : Bytes
  onLine : List (Bytes → Hook)

variable {Z : Type}

/-- Reader.go:143-152, `NewReader`. -/
def newReader (s : Src) (delim : Byte) : Reader Z :=
  { delim, maxLine := maxLineDef, orig := some ⟨s, []⟩, zlibOn := false, curZ := false,
    zlib := none, cbuf := [], onLine := [] }

/-- Reader.go:155-169, `Close`. -/
def Reader.close (r : Reader Z) : Reader Z :=
  { r with orig := none, zlibOn := false, curZ := false, zlib := none, cbuf := [], onLine := [] }

/-- Reader.go:172-174. -/
def Reader.setMaxLine (r : Reader Z) (n : Int) : Reader Z := { r with maxLine := n }

/-- Reader.go:181-183, `OnLine`. -/
def Reader.addHook (r : Reader Z) (h : Bytes → Hook) : Reader Z := { r with onLine := r.onLine ++ [h] }

/-- Reader.go:104-114: the part of the buffer up to and including the delimiter, whether more bytes
are needed, and the rest. -/
def scanBuf (delim : Byte) : Bytes → Bytes × Bool × Bytes
  | [] => ([], true, [])
  | c :: cs =>
    if c = delim then ([c], false, cs)
    else match scanBuf delim cs with
      | (pref, more, rest) => (c :: pref, more, rest)

/-- Reader.go:98-115, `bufReader.Scan` on the original reader. -/
def Buf.scan (delim : Byte) (b : Buf) : (Bytes × Bool × Option Err) × Buf :=
  match b.buf with
  | [] =>
    match b.peek with
    | (some e, b') => (([], false, some e), b')
    | (none, b') =>
      match scanBuf delim b'.buf with
      | (pref, more, rest) => ((pref, more, none), { b' with buf := rest })
  | c :: cs =>
    match scanBuf delim (c :: cs) with
    | (pref, more, rest) => ((pref, more, none), { b with buf := rest })

/-- Reader.go:65-75 on the compressed reader. -/
def zPeek (I : Inflater Z) (fuel : Nat) (zr : ZRd Z) (b : Buf) :
    Exec ((Bytes ⊕ Err) × ZRd Z × Buf) :=
  match zRead I fuel readBuf zr b with
  | .val (([], some e), zr', b') => .val (.inr e, zr', b')
  | .val ((d, _), zr', b') => .val (.inl d, zr', b')
  | .panic => .panic
  | .timeout => .timeout

/-- Reader.go:98-115, `r.cur.Scan(r.delim)` on whichever reader is current. -/
def Reader.scan (I : Inflater Z) (fuel : Nat) (r : Reader Z) (b : Buf) :
    Exec ((Bytes × Bool × Option Err) × Reader Z) :=
  if r.curZ then
    match r.cbuf with
    | [] =>
      match r.zlib with
      | none => .panic
      | some zr =>
        match zPeek I fuel zr b with
        | .val (.inr e, zr', b') =>
          .val (([], false, some e), { r with zlib := some zr', orig := some b' })
        | .val (.inl d, zr', b') =>
          match scanBuf r.delim d with
          | (pref, more, rest) =>
            .val ((pref, more, none), { r with zlib := some zr', orig := some b', cbuf := rest })
        | .panic => .panic
        | .timeout => .timeout
    | c :: cs =>
      match scanBuf r.delim (c :: cs) with
      | (pref, more, rest) => .val ((pref, more, none), { r with cbuf := rest })
  else
    match b.scan r.delim with
    | (res, b') => .val (res, { r with orig := some b' })

/-- Reader.go:214-222: the hooks run in registration order; the first that does not accept decides. -/
def runHooks (line : Bytes) : List (Bytes → Hook) → Hook
  | [] => .accept
  | h :: hs =>
    match h line with
    | .accept => runHooks line hs
    | .drop => .drop
    | .fail e => .fail e

/-- Reader.go:195-225, the loop of `ReadLine`; `line` is `r.line`. The result is `(line, err)`. -/
def Reader.readLoop (I : Inflater Z) : Nat → Bytes → Reader Z → Exec ((Bytes × Option Err) × Reader Z)
  | 0, _, _ => .timeout
  | fuel + 1, line, r =>
    match r.orig with
    | none => .panic
    | some b =>
      if r.maxLine > 0 ∧ (line.length : Int) ≥ r.maxLine then
        .val (([], some .bufferExhausted), r)
      else
        match r.scan I fuel b with
        | .panic => .panic
        | .timeout => .timeout
        | .val ((pref, more, err), r1) =>
          if err = some .eof ∧ r1.zlibOn = true then
            Reader.readLoop I fuel line { r1 with curZ := false, zlibOn := false }
          else
            let line' := line ++ pref
            match err with
            | some e => .val ((line', some e), r1)
            | none =>
              if more then Reader.readLoop I fuel line' r1
              else
                match runHooks line' r1.onLine with
                | .accept => .val ((line', none), r1)
                | .drop => Reader.readLoop I fuel [] r1
                | .fail e => .val (([], some e), r1)

/-- Reader.go:188-226, `ReadLine`. -/
def Reader.readLine (I : Inflater Z) (fuel : Nat) (r : Reader Z) :
    Exec ((Bytes × Option Err) × Reader Z) :=
  match r.orig with
  | none => .val (([], some .readerClosed), r)
  | some _ => r.readLoop I fuel []

/-- `r.cur.Read(buf)`, `len(buf) = n` (reader.go:88-96). -/
def Reader.curRead (I : Inflater Z) (fuel n : Nat) (r : Reader Z) (b : Buf) :
    Exec ((Bytes × Option Err) × Reader Z) :=
  if r.curZ then
    match r.cbuf with
    | [] =>
      match r.zlib with
      | none => .panic
      | some zr =>
        match zRead I fuel n zr b with
        | .val (res, zr', b') => .val (res, { r with zlib := some zr', orig := some b' })
        | .panic => .panic
        | .timeout => .timeout
    | c :: cs => .val (((c :: cs).take n, none), { r with cbuf := (c :: cs).drop n })
  else
    match b.read n with
    | (res, b') => .val (res, { r with orig := some b' })

/-- Reader.go:230-249, `Read(buf)` with `len(buf) = n`. -/
def Reader.read (I : Inflater Z) (fuel n : Nat) (r : Reader Z) :
    Exec ((Bytes × Option Err) × Reader Z) :=
  match r.orig with
  | none => .val (([], some .readerClosed), r)
  | some b =>
    match r.curRead I fuel n b with
    | .panic => .panic
    | .timeout => .timeout
    | .val ((d, err), r1) =>
      if err = some .eof ∧ r1.zlibOn = true then
        let r2 := { r1 with curZ := false, zlibOn := false }
        if d ≠ [] then .val ((d, none), r2)
        else
          match r2.orig with
          | none => .panic
          | some b2 =>
            match b2.read n with
            | (res, b3) => .val (res, { r2 with orig := some b3 })
      else .val ((d, err), r1)

/-- `io.ReadFull(b, p)` with `len(p) = n`, on the original `bufReader`. -/
def Buf.readFull : Nat → Nat → Bytes → Buf → Exec ((Bytes × Option Err) × Buf)
  | _, 0, acc, b => .val ((acc, none), b)
  | 0, _ + 1, _, _ => .timeout
  | fuel + 1, n + 1, acc, b =>
    match b.read (n + 1) with
    | ((d, e), b') =>
      if n + 1 ≤ d.length then .val ((acc ++ d, none), b')
      else match e with
        | some e =>
          .val ((acc ++ d, some (if e = .eof ∧ acc ++ d ≠ [] then .unexpectedEOF else e)), b')
        | none => Buf.readFull fuel (n + 1 - d.length) (acc ++ d) b'

/-- Reader.go:252-280, `EnableZlib`. The header is read and parsed here (`zlib.NewReader` or
`Reset`).  When it fails `zlibOn` stays set (line 258) while `cur` is still the original reader;
`r.zlib` keeps its old value. `sched` is the schedule of the new zlib reader (environment). -/
def Reader.enableZlib (I : Inflater Z) (fuel : Nat) (sched : List (Nat × Bool)) (r : Reader Z) :
    Exec (Option Err × Reader Z) :=
  match r.orig with
  | none => .val (some .readerClosed, r)
  | some b =>
    if r.zlibOn then .val (some .zlibAlreadyActive, r)
    else
      match b.readFull fuel 2 [] with
      | .panic => .panic
      | .timeout => .timeout
      | .val ((h, some e), b') =>
        let _ := h
        .val (some (noEOF e), { r with zlibOn := true, orig := some b' })
      | .val ((h, none), b') =>
        match h with
        | [h1, h2] =>
          match I.header h1 h2 with
          | .error e => .val (some e, { r with zlibOn := true, orig := some b' })
          | .ok z =>
            .val (none, { r with zlibOn := true, orig := some b', curZ := true, cbuf := [],
                                 zlib := some ⟨z, [], none, sched⟩ })
        | _ => .panic

/-- Reader.go:284-295, `Binary`: an `io.LimitReader` with `n` bytes left. `int64(sz)` of a size of
`2^63` or more is negative: the limit is then 0 (line 288). -/
def binaryLimit (sz : Nat) : Nat := if sz % 2 ^ 64 < 2 ^ 63 then sz % 2 ^ 64 else 0

/-- Reader.go:284-289, `Binary(sz)`: the number of bytes left in the section, or an error. -/
def Reader.binary (r : Reader Z) (sz : Nat) : Except Err Nat :=
  match r.orig with
  | none => .error .readerClosed
  | some _ => .ok (binaryLimit sz)

/-- Reader.go:295-297 with `io.LimitedReader.Read`, `len(p) = n`, `left` bytes left. -/
def Reader.binRead (I : Inflater Z) (fuel n left : Nat) (r : Reader Z) :
    Exec ((Bytes × Option Err) × Nat × Reader Z) :=
  if left = 0 then .val (([], some .eof), 0, r)
  else
    match r.read I fuel (min n left) with
    | .val ((d, e), r') => .val ((d, e), left - d.length, r')
    | .panic => .panic
    | .timeout => .timeout

/-- `io.Copy(ioutil.Discard, r)` (reader.go:299-302): 8 KiB reads until an error; `io.EOF` is
success. -/
def Reader.binClose (I : Inflater Z) : Nat → Nat → Reader Z → Exec (Option Err × Reader Z)
  | 0, _, _ => .timeout
  | fuel + 1, left, r =>
    match r.binRead I fuel 8192 left with
    | .val ((_, some e), _, r') => .val (if e = .eof then none else some e, r')
    | .val ((_, none), left', r') => Reader.binClose I fuel left' r'
    | .panic => .panic
    | .timeout => .timeout

end Verif.Lineproto
