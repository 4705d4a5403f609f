import Verif.Lineproto.Reader

/-!
# `lineproto.Reader` with its memory

`Verif/Lineproto/Reader.lean` has values where the program has slices.  Here the buffers are arrays in memory and slices are
windows on them, to say which arrays are written and which are handed out.

* Arrays have addresses; `next` is the first address not in use.
* A `Read` of the transport or of the decompressor may use the whole buffer it is given (`io.Reader`): what it leaves behind the
  data is `junk`, an unknown function of the memory.
* `append` writes into the array of its argument when there is room, else into a new array whose capacity is given by `grow`, an
  unknown function that returns at least the length needed.
* The memory of the decompressor is its own; hooks do not write to the line they get.
-/

namespace Verif.Lineproto.Mem

open Verif.Lineproto

/-- The arrays in memory. -/
structure Heap where
  mem : Nat → Bytes
  next : Nat

/-- The array at `a` gets new contents. -/
def Heap.set (h : Heap) (a : Nat) (v : Bytes) : Heap := { h with mem := fun x => if x = a then v else h.mem x }

/-- A new array. -/
def Heap.alloc (h : Heap) (v : Bytes) : Nat × Heap := (h.next, ⟨fun x => if x = h.next then v else h.mem x, h.next + 1⟩)

/-- A slice that begins at the beginning of its array. -/
structure Slice where
  arr : Nat
  len : Nat
  cap : Nat

/-- The bytes of a slice. -/
def Slice.bytes (h : Heap) (s : Slice) : Bytes := (h.mem s.arr).take s.len

/-- What is not known about the environment: the bytes a `Read` leaves behind its data, and the capacity of an array made by
`append`. -/
structure World where
  junk : Heap → Bytes
  grow : Nat → Nat

/-- `append(s, bs...)`. -/
def append (W : World) (h : Heap) (s : Slice) (bs : Bytes) : Slice × Heap :=
  if s.len + bs.length ≤ s.cap then
    ({ s with len := s.len + bs.length },
      h.set s.arr ((h.mem s.arr).take s.len ++ bs ++ (h.mem s.arr).drop (s.len + bs.length)))
  else
    match h.alloc ((h.mem s.arr).take s.len ++ bs) with
    | (a, h') => ({ arr := a, len := s.len + bs.length, cap := max (s.len + bs.length) (W.grow (s.len + bs.length)) }, h')

/-- The buffer of a `bufReader`, reader.go:55-56: `buf` is the first `len` bytes of the array, its capacity is `readBuf`. -/
structure MBuf where
  arr : Nat
  len : Nat
  off : Nat

/-- `r.buf[r.off:]`. -/
def MBuf.view (h : Heap) (b : MBuf) : Bytes := ((h.mem b.arr).take b.len).drop b.off

/-- The array after a `Read` into it: the data, then junk over some more bytes. -/
def World.scribble (W : World) (h : Heap) (a : Nat) (d : Bytes) : Heap :=
  h.set a (d ++ W.junk h ++ (h.mem a).drop (d.length + (W.junk h).length))

/-- Reader.go:65-75, `peek`, for the result of `r.r.Read(r.buf[:cap(r.buf)])`. -/
def MBuf.fill (W : World) (h : Heap) (b : MBuf) (d : Bytes) (e : Option Err) : Option Err × MBuf × Heap :=
  match d, e with
  | [], some e => (some e, b, W.scribble h b.arr [])
  | d, _ => (none, { b with len := d.length, off := 0 }, W.scribble h b.arr d)

/-- Reader.go:53-57, `bufReader` over a plain reader. -/
structure MSrc where
  src : Src
  buf : MBuf

/-- Reader.go:65-75, `peek`. -/
def MSrc.peek (W : World) (h : Heap) (b : MSrc) : Option Err × MSrc × Heap :=
  match b.src.read readBuf with
  | ((d, e), s) =>
    match b.buf.fill W h d e with
    | (e', buf, h') => (e', ⟨s, buf⟩, h')

/-- Reader.go:77-86, `ReadByte`. -/
def MSrc.readByte (W : World) (h : Heap) (b : MSrc) : Exec ((Byte ⊕ Err) × MSrc × Heap) :=
  match b.buf.view h with
  | c :: _ => .val (.inl c, { b with buf.off := b.buf.off + 1 }, h)
  | [] =>
    match b.peek W h with
    | (some e, b', h') => .val (.inr e, b', h')
    | (none, b', h') =>
      match b'.buf.view h' with
      | c :: _ => .val (.inl c, { b' with buf.off := b'.buf.off + 1 }, h')
      | [] => .panic

/-- Reader.go:88-96, `Read(p)` with `len(p) = n`: the bytes to be written to `p`. -/
def MSrc.read (n : Nat) (h : Heap) (b : MSrc) : (Bytes × Option Err) × MSrc :=
  match b.buf.view h with
  | [] =>
    match b.src.read n with
    | (r, s) => (r, { b with src := s })
  | c :: cs => (((c :: cs).take n, none), { b with buf.off := b.buf.off + ((c :: cs).take n).length })

/-- The next byte for the decompressor, as `Buf.zByte`. The bytes of `io.ReadFull` go to the memory of the decompressor. -/
def MSrc.zByte (W : World) (n : Nat) (h : Heap) (b : MSrc) : Exec (((Byte × Option Err) ⊕ Err) × MSrc × Heap) :=
  if n = 0 then
    match b.readByte W h with
    | .val (.inl c, b', h') => .val (.inl (c, none), b', h')
    | .val (.inr e, b', h') => .val (.inr e, b', h')
    | .panic => .panic
    | .timeout => .timeout
  else
    match b.buf.view h with
    | c :: _ => .val (.inl (c, none), { b with buf.off := b.buf.off + 1 }, h)
    | [] =>
      match b.src.fetch with
      | (.inr e, s) => .val (.inr e, { b with src := s }, h)
      | (.inl (c, e), s) => .val (.inl (c, if n = 1 then none else e), { b with src := s }, h)

variable {Z : Type}

/-- `zFill` of the model of values. -/
def zFill (I : Inflater Z) (W : World) (want : Nat) : Nat → ZRd Z → MSrc → Heap → Exec (ZRd Z × MSrc × Heap)
  | 0, _, _, _ => .timeout
  | fuel + 1, zr, b, h =>
    if want ≤ zr.pend.length then .val (zr, b, h)
    else if zr.zerr.isSome then .val (zr, b, h)
    else match I.status zr.z with
      | .done => .val (zr, b, h)
      | .failed _ => .val (zr, b, h)
      | .running =>
        match b.zByte W (I.want zr.z) h with
        | .val (.inl (c, e), b', h') =>
          zFill I W want fuel { zr with z := (I.step zr.z c).1, pend := zr.pend ++ (I.step zr.z c).2, zerr := e.map noEOF } b' h'
        | .val (.inr e, b', h') => zFill I W want fuel { zr with zerr := some (noEOF e) } b' h'
        | .panic => .panic
        | .timeout => .timeout

/-- `zRead` of the model of values: the bytes to be written to the buffer of the caller. -/
def zRead (I : Inflater Z) (W : World) (fuel n : Nat) (zr : ZRd Z) (b : MSrc) (h : Heap) :
    Exec ((Bytes × Option Err) × ZRd Z × MSrc × Heap) :=
  match zFill I W (max 1 (zr.sched.headD (1, false)).1) fuel zr b h with
  | .val (zr', b', h') =>
    if zr'.pend = [] then
      .val (([], some (zFinal I zr')), { zr' with sched := zr.sched.tail }, b', h')
    else
      let out := zr'.pend.take n
      let rest := zr'.pend.drop n
      let fin := zr'.zerr.isSome || (I.status zr'.z != .running)
      let e := if rest = [] ∧ fin = true ∧ (zr.sched.headD (1, false)).2 = true
        then some (zFinal I zr') else none
      .val ((out, e), { zr' with pend := rest, sched := zr.sched.tail }, b', h')
  | .panic => .panic
  | .timeout => .timeout

/-- Reader.go:125-140, `Reader`.  `comp` is the buffer of `compressed`, and `line` is `r.line`. -/
structure MReader (Z : Type) where
  delim : Byte
  maxLine : Int
  orig : Option MSrc
  zlibOn : Bool
  curZ : Bool
  zlib : Option (ZRd Z)
  comp : Option MBuf
  line : Slice
  onLine : List (Bytes → Hook)

/-- Reader.go:143-152, `NewReader`: two new arrays. -/
def newReader (s : Src) (delim : Byte) (h : Heap) : MReader Z × Heap :=
  match h.alloc (List.replicate readBuf 0) with
  | (a, h1) =>
    match h1.alloc (List.replicate readBuf 0) with
    | (l, h2) =>
      ({ delim, maxLine := maxLineDef, orig := some ⟨s, ⟨a, 0, 0⟩⟩, zlibOn := false, curZ := false, zlib := none, comp := none,
         line := ⟨l, readBuf, readBuf⟩, onLine := [] }, h2)

/-- Reader.go:155-169, `Close`. -/
def MReader.close (r : MReader Z) : MReader Z :=
  { r with orig := none, zlibOn := false, curZ := false, zlib := none, comp := none, line := ⟨0, 0, 0⟩, onLine := [] }

/-- Reader.go:98-115, `r.cur.Scan(r.delim)`.  `pref` is given by its bytes: the only use of it is as an argument of `append`, before
anything else is read. -/
def MReader.scan (I : Inflater Z) (W : World) (fuel : Nat) (r : MReader Z) (b : MSrc) (h : Heap) :
    Exec ((Bytes × Bool × Option Err) × MReader Z × Heap) :=
  if r.curZ then
    match r.comp with
    | none => .panic
    | some c =>
      match c.view h with
      | [] =>
        match r.zlib with
        | none => .panic
        | some zr =>
          match zRead I W fuel readBuf zr b h with
          | .panic => .panic
          | .timeout => .timeout
          | .val ((d, e), zr', b', h1) =>
            match c.fill W h1 d e with
            | (some e, c', h2) => .val (([], false, some e), { r with zlib := some zr', orig := some b', comp := some c' }, h2)
            | (none, c', h2) =>
              match scanBuf r.delim (c'.view h2) with
              | (pref, more, _) =>
                .val ((pref, more, none), { r with zlib := some zr', orig := some b', comp := some { c' with off := c'.off + pref.length } }, h2)
      | x :: xs =>
        match scanBuf r.delim (x :: xs) with
        | (pref, more, _) => .val ((pref, more, none), { r with comp := some { c with off := c.off + pref.length } }, h)
  else
    match b.buf.view h with
    | [] =>
      match b.peek W h with
      | (some e, b', h') => .val (([], false, some e), { r with orig := some b' }, h')
      | (none, b', h') =>
        match scanBuf r.delim (b'.buf.view h') with
        | (pref, more, _) => .val ((pref, more, none), { r with orig := some { b' with buf.off := b'.buf.off + pref.length } }, h')
    | x :: xs =>
      match scanBuf r.delim (x :: xs) with
      | (pref, more, _) => .val ((pref, more, none), { r with orig := some { b with buf.off := b.buf.off + pref.length } }, h)

/-- Reader.go:195-225, the loop of `ReadLine`.  The result is a slice or nil. -/
def MReader.readLoop (I : Inflater Z) (W : World) : Nat → MReader Z → Heap → Exec ((Option Slice × Option Err) × MReader Z × Heap)
  | 0, _, _ => .timeout
  | fuel + 1, r, h =>
    match r.orig with
    | none => .panic
    | some b =>
      if r.maxLine > 0 ∧ (r.line.len : Int) ≥ r.maxLine then
        .val ((none, some .bufferExhausted), r, h)
      else
        match r.scan I W fuel b h with
        | .panic => .panic
        | .timeout => .timeout
        | .val ((pref, more, err), r1, h1) =>
          if err = some .eof ∧ r1.zlibOn = true then
            MReader.readLoop I W fuel { r1 with curZ := false, zlibOn := false } h1
          else
            match append W h1 r1.line pref with
            | (line, h2) =>
              match err with
              | some e => .val ((some line, some e), { r1 with line }, h2)
              | none =>
                if more then MReader.readLoop I W fuel { r1 with line } h2
                else
                  match runHooks (line.bytes h2) r1.onLine with
                  | .accept => .val ((some line, none), { r1 with line }, h2)
                  | .drop => MReader.readLoop I W fuel { r1 with line := { line with len := 0 } } h2
                  | .fail e => .val ((none, some e), { r1 with line }, h2)

/-- Reader.go:188-226, `ReadLine`. -/
def MReader.readLine (I : Inflater Z) (W : World) (fuel : Nat) (r : MReader Z) (h : Heap) :
    Exec ((Option Slice × Option Err) × MReader Z × Heap) :=
  match r.orig with
  | none => .val ((none, some .readerClosed), r, h)
  | some _ => { r with line.len := 0 }.readLoop I W fuel h

/-- `r.cur.Read(buf)`, `len(buf) = n` (reader.go:88-96). -/
def MReader.curRead (I : Inflater Z) (W : World) (fuel n : Nat) (r : MReader Z) (b : MSrc) (h : Heap) :
    Exec ((Bytes × Option Err) × MReader Z × Heap) :=
  if r.curZ then
    match r.comp with
    | none => .panic
    | some c =>
      match c.view h with
      | [] =>
        match r.zlib with
        | none => .panic
        | some zr =>
          match zRead I W fuel n zr b h with
          | .val (res, zr', b', h') => .val (res, { r with zlib := some zr', orig := some b' }, h')
          | .panic => .panic
          | .timeout => .timeout
      | x :: xs => .val (((x :: xs).take n, none), { r with comp := some { c with off := c.off + ((x :: xs).take n).length } }, h)
  else
    match b.read n h with
    | (res, b') => .val (res, { r with orig := some b' }, h)

/-- Reader.go:230-249, `Read(buf)` with `len(buf) = n`: the bytes to be written to `buf`. -/
def MReader.readBytes (I : Inflater Z) (W : World) (fuel n : Nat) (r : MReader Z) (h : Heap) :
    Exec ((Bytes × Option Err) × MReader Z × Heap) :=
  match r.orig with
  | none => .val (([], some .readerClosed), r, h)
  | some b =>
    match r.curRead I W fuel n b h with
    | .panic => .panic
    | .timeout => .timeout
    | .val ((d, err), r1, h1) =>
      if err = some .eof ∧ r1.zlibOn = true then
        let r2 := { r1 with curZ := false, zlibOn := false }
        if d ≠ [] then .val ((d, none), r2, h1)
        else
          match r2.orig with
          | none => .panic
          | some b2 =>
            match b2.read n h1 with
            | (res, b3) => .val (res, { r2 with orig := some b3 }, h1)
      else .val ((d, err), r1, h1)

/-- `io.ReadFull(b, p)` with `len(p) = n`, on the original `bufReader`; `p` belongs to the decompressor. -/
def MSrc.readFull (h : Heap) : Nat → Nat → Bytes → MSrc → Exec ((Bytes × Option Err) × MSrc)
  | _, 0, acc, b => .val ((acc, none), b)
  | 0, _ + 1, _, _ => .timeout
  | fuel + 1, n + 1, acc, b =>
    match b.read (n + 1) h with
    | ((d, e), b') =>
      if n + 1 ≤ d.length then .val ((acc ++ d, none), b')
      else match e with
        | some e =>
          .val ((acc ++ d, some (if e = .eof ∧ acc ++ d ≠ [] then .unexpectedEOF else e)), b')
        | none => MSrc.readFull h fuel (n + 1 - d.length) (acc ++ d) b'

/-- Reader.go:252-280, `EnableZlib`: the buffer of an earlier compressed reader is used again (line 274), else one is made
(line 276). -/
def MReader.enableZlib (I : Inflater Z) (fuel : Nat) (sched : List (Nat × Bool)) (r : MReader Z) (h : Heap) :
    Exec (Option Err × MReader Z × Heap) :=
  match r.orig with
  | none => .val (some .readerClosed, r, h)
  | some b =>
    if r.zlibOn then .val (some .zlibAlreadyActive, r, h)
    else
      match b.readFull h fuel 2 [] with
      | .panic => .panic
      | .timeout => .timeout
      | .val ((_, some e), b') => .val (some (noEOF e), { r with zlibOn := true, orig := some b' }, h)
      | .val ((hd, none), b') =>
        match hd with
        | [h1, h2] =>
          match I.header h1 h2 with
          | .error e => .val (some e, { r with zlibOn := true, orig := some b' }, h)
          | .ok z =>
            match r.comp with
            | some c =>
              .val (none, { r with zlibOn := true, orig := some b', curZ := true, comp := some { c with len := 0, off := 0 },
                                   zlib := some ⟨z, [], none, sched⟩ }, h)
            | none =>
              match h.alloc (List.replicate readBuf 0) with
              | (a, h') =>
                .val (none, { r with zlibOn := true, orig := some b', curZ := true, comp := some ⟨a, 0, 0⟩,
                                     zlib := some ⟨z, [], none, sched⟩ }, h')
        | _ => .panic

/-- `n` bytes are copied to `p[:n]`, where `p` begins at `off` in the array `a`. -/
def Heap.copyTo (h : Heap) (a off : Nat) (d : Bytes) : Heap :=
  h.set a ((h.mem a).take off ++ d ++ (h.mem a).drop (off + d.length))

/-- Reader.go:295-297 with `io.LimitedReader.Read`, `len(p) = n`, `left` bytes left. -/
def MReader.binRead (I : Inflater Z) (W : World) (fuel n left : Nat) (r : MReader Z) (h : Heap) :
    Exec ((Bytes × Option Err) × Nat × MReader Z × Heap) :=
  if left = 0 then .val (([], some .eof), 0, r, h)
  else
    match r.readBytes I W fuel (min n left) h with
    | .val ((d, e), r', h') => .val ((d, e), left - d.length, r', h')
    | .panic => .panic
    | .timeout => .timeout

/-- `io.Copy(ioutil.Discard, r)` (reader.go:299-302): the buffer belongs to `ioutil`. -/
def MReader.binClose (I : Inflater Z) (W : World) : Nat → Nat → MReader Z → Heap → Exec (Option Err × MReader Z × Heap)
  | 0, _, _, _ => .timeout
  | fuel + 1, left, r, h =>
    match r.binRead I W fuel 8192 left h with
    | .val ((_, some e), _, r', h') => .val (if e = .eof then none else some e, r', h')
    | .val ((_, none), left', r', h') => MReader.binClose I W fuel left' r' h'
    | .panic => .panic
    | .timeout => .timeout

end Verif.Lineproto.Mem
