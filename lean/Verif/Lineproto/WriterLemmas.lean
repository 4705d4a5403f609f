import Verif.Lineproto.Writer
import Verif.Lineproto.ReaderLemmas

/-!
# Lemmas about the writer
-/

namespace Verif.Lineproto

/-- What the writer does with its compressor inside a section. -/
inductive ZOp where
  | write (p : Bytes)
  | flush

variable {D : Type}

/-- One call of the compressor. -/
def Deflater.exec (C : Deflater D) (d : D) : ZOp → D × List Bytes × Option Err
  | .write p => C.write d p
  | .flush => C.flush d

/-- Compressor state and output after some calls. -/
def Deflater.trace (C : Deflater D) (d : D) : List ZOp → D × Bytes
  | [] => (d, [])
  | op :: ops =>
    match C.exec d op with
    | (d', cs, _) =>
      match Deflater.trace C d' ops with
      | (d'', out) => (d'', cs.flatten ++ out)

/-- The data given to the compressor. -/
def writtenZ : List ZOp → Bytes
  | [] => []
  | .write p :: ops => p ++ writtenZ ops
  | .flush :: ops => writtenZ ops

/-- A compressor that has just been created or reset. -/
def Deflater.Start (C : Deflater D) (d : D) : Prop := (∃ lvl, C.new lvl = .ok d) ∨ ∃ d0, d = C.reset d0

/-- `stream` is a complete compressed stream (header included) that decompresses to `out`. -/
def IsStream {Z : Type} (I : Inflater Z) (stream out : Bytes) : Prop :=
  ∃ h1 h2 z body, stream = h1 :: h2 :: body ∧ I.header h1 h2 = .ok z ∧ inflate I z body = some out

/-- Decompression of an unfinished stream: what can be produced from the bytes seen so far. -/
def inflatePart {Z : Type} (I : Inflater Z) (z : Z) : Bytes → Option Bytes
  | [] => some []
  | c :: cs =>
    if I.status z = .running then
      (inflatePart I (I.step z c).1 cs).map ((I.step z c).2 ++ ·)
    else none

/-- From `stream`, the beginning of a compressed stream, exactly `out` can be decompressed. -/
def IsPart {Z : Type} (I : Inflater Z) (stream out : Bytes) : Prop :=
  ∃ h1 h2 z body, stream = h1 :: h2 :: body ∧ I.header h1 h2 = .ok z ∧ inflatePart I z body = some out

/-- What is assumed of zlib: levels -2..9 exist, an open compressor does not fail by itself, closing
completes a stream that decompresses to all the data written, and after a flush all data written so far
can be decompressed. -/
structure Deflater.Law {Z : Type} (C : Deflater D) (I : Inflater Z) : Prop where
  levels : ∀ lvl, (∃ d, C.new lvl = .ok d) ↔ -2 ≤ lvl ∧ lvl ≤ 9
  noErr : ∀ d, C.Start d → ∀ ops op, (C.exec (C.trace d ops).1 op).2.2 = none
  complete : ∀ d, C.Start d → ∀ ops, (C.close (C.trace d ops).1).2.2 = none ∧
    IsStream I ((C.trace d ops).2 ++ (C.close (C.trace d ops).1).2.1.flatten) (writtenZ ops)
  flushed : ∀ d, C.Start d → ∀ ops, IsPart I (C.trace d (ops ++ [.flush])).2 (writtenZ ops)

variable (C : Deflater D)

theorem trace_append (d : D) (ops ops' : List ZOp) :
    C.trace d (ops ++ ops') = ((C.trace (C.trace d ops).1 ops').1,
      (C.trace d ops).2 ++ (C.trace (C.trace d ops).1 ops').2) := by
  induction ops generalizing d with
  | nil => simp [Deflater.trace]
  | cons op ops ih => simp [Deflater.trace, ih]

theorem writtenZ_append (ops ops' : List ZOp) : writtenZ (ops ++ ops') = writtenZ ops ++ writtenZ ops' := by
  induction ops with
  | nil => rfl
  | cons op ops ih => cases op <;> simp [writtenZ, ih]

theorem trace_snoc (d : D) (ops : List ZOp) (op : ZOp) :
    (C.trace d (ops ++ [op])).1 = (C.exec (C.trace d ops).1 op).1 ∧
    (C.trace d (ops ++ [op])).2 = (C.trace d ops).2 ++ (C.exec (C.trace d ops).1 op).2.1.flatten := by
  simp [trace_append, Deflater.trace]

/-- The sink appends; an error-free write appends everything. -/
theorem Sink.write_cases (p : Bytes) (s : Sink) :
    (∃ s', s.write p = ((p.length, none), s') ∧ s'.sent = s.sent ++ p) ∨
    (∃ n e s', s.write p = ((n, some e), s') ∧ n ≤ p.length ∧ s'.sent = s.sent ++ p.take n) := by
  unfold Sink.write
  split
  · exact .inl ⟨_, rfl, rfl⟩
  · exact .inl ⟨_, rfl, rfl⟩
  · rename_i n e t _
    refine .inr ⟨_, _, _, rfl, by omega, ?_⟩
    simp [List.take_eq_take_iff]

theorem emit_none {cs : List Bytes} {s s' : Sink} (h : emit cs s = (none, s')) :
    s'.sent = s.sent ++ cs.flatten := by
  induction cs generalizing s with
  | nil => simp [emit] at h; simp [h]
  | cons c cs ih =>
    rcases Sink.write_cases c s with ⟨s1, h1, h2⟩ | ⟨n, e, s1, h1, -, h2⟩
    · simp only [emit, h1] at h
      simp [ih h, h2]
    · simp [emit, h1] at h

/-- What a write to `cur` appends to: the sink itself, or a compressed section.  `base` is what was on
the wire before the section, `a` the data of the section that has left the buffer. -/
def Chan (w : Writer D) (base a : Bytes) : Prop :=
  (w.curZ = false ∧ w.zlibOn = false ∧ w.sink.sent = base ++ a) ∨
  (w.curZ = true ∧ w.zlibOn = true ∧ ∃ d0 ops, C.Start d0 ∧ w.zlibW = some ⟨(C.trace d0 ops).1, none⟩ ∧
    w.sink.sent = base ++ (C.trace d0 ops).2 ∧ a = writtenZ ops)

/-- Fields that I/O leaves alone. -/
structure SameW (w w' : Writer D) : Prop where
  onLine : w'.onLine = w.onLine
  curZ : w'.curZ = w.curZ
  zlibOn : w'.zlibOn = w.zlibOn
  lvl : w'.lvl = w.lvl

theorem SameW.refl (w : Writer D) : SameW w w := ⟨rfl, rfl, rfl, rfl⟩

theorem SameW.trans {w w1 w2 : Writer D} (h : SameW w w1) (h' : SameW w1 w2) : SameW w w2 :=
  ⟨h'.1.trans h.1, h'.2.trans h.2, h'.3.trans h.3, h'.4.trans h.4⟩

variable {Z : Type} {I : Inflater Z} (law : C.Law I)
include law

theorem curWrite_spec {w : Writer D} {base a : Bytes} (p : Bytes) (h : Chan C w base a) :
    ∃ n e w', w.curWrite C p = .val ((n, e), w') ∧ SameW w w' ∧ w'.bw = w.bw ∧ w'.err = w.err ∧ w'.tmo = w.tmo ∧
      ((e = none ∧ n = p.length ∧ Chan C w' base (a ++ p)) ∨
       (e ≠ none ∧ n ≤ p.length ∧ (w.curZ = false → Chan C w' base (a ++ p.take n)))) := by
  rcases h with ⟨hc, hz, hs⟩ | ⟨hc, hz, d0, ops, hst, hzw, hs, ha⟩
  · rcases Sink.write_cases p w.sink with ⟨s', h1, h2⟩ | ⟨n, e, s', h1, hn, h2⟩
    · refine ⟨_, _, { w with sink := s' }, by simp [Writer.curWrite, hc, h1], ⟨rfl, rfl, rfl, rfl⟩, rfl, rfl, rfl, .inl ⟨rfl, rfl, .inl ⟨hc, hz, ?_⟩⟩⟩
      simp [h2, hs]
    · refine ⟨n, some e, { w with sink := s' }, by simp [Writer.curWrite, hc, h1], ⟨rfl, rfl, rfl, rfl⟩, rfl, rfl, rfl, .inr ⟨by simp, hn, fun _ => .inl ⟨hc, hz, ?_⟩⟩⟩
      simp [h2, hs]
  · have hne := law.noErr d0 hst ops (.write p)
    have hsn := trace_snoc C d0 ops (.write p)
    simp only [Deflater.exec] at hne hsn
    obtain ⟨⟨d', cs, e⟩, hex⟩ : ∃ x, x = C.write (C.trace d0 ops).1 p := ⟨_, rfl⟩
    rw [← hex] at hne hsn
    simp only at hne hsn
    subst hne
    obtain ⟨⟨e', s'⟩, hem⟩ : ∃ x, x = emit cs w.sink := ⟨_, rfl⟩
    cases e' with
    | none =>
      refine ⟨p.length, none, { w with zlibW := some ⟨d', none⟩, sink := s' },
        by simp [Writer.curWrite, hc, hzw, ZW.call, ← hex, ← hem], ⟨rfl, rfl, rfl, rfl⟩, rfl, rfl, rfl, .inl ⟨rfl, rfl, ?_⟩⟩
      refine .inr ⟨hc, hz, d0, ops ++ [.write p], hst, by simp [hsn.1], ?_, ?_⟩
      · simp [emit_none hem.symm, hs, hsn.2]
      · simp [writtenZ_append, ha, writtenZ]
    | some e =>
      refine ⟨0, some e, { w with zlibW := some ⟨d', some e⟩, sink := s' },
        by simp [Writer.curWrite, hc, hzw, ZW.call, ← hex, ← hem], ⟨rfl, rfl, rfl, rfl⟩, rfl, rfl, rfl, .inr ⟨by simp, by simp, ?_⟩⟩
      simp [hc]

/-- The writer works: everything given to it since the section began (`content`) has left the buffer or
is in the buffer. -/
def Good (w : Writer D) (base content : Bytes) : Prop :=
  ∃ b a, w.bw = some b ∧ b.berr = none ∧ Chan C w base a ∧ a ++ b.buf = content

/-- What is known after a failure: on a plain connection only a prefix was sent. -/
def Failed (w : Writer D) (base content : Bytes) : Prop :=
  w.curZ = false → w.sink.sent <+: base ++ content

omit law in
theorem Chan.sent {w : Writer D} {base a : Bytes} (h : Chan C w base a) (hc : w.curZ = false) :
    w.sink.sent = base ++ a := by
  rcases h with ⟨_, _, h⟩ | ⟨h, _⟩
  · exact h
  · simp [hc] at h

omit law in
theorem Chan.of_eq {w w' : Writer D} {base a : Bytes} (h : Chan C w base a) (h1 : w'.curZ = w.curZ)
    (h2 : w'.zlibOn = w.zlibOn) (h3 : w'.sink = w.sink) (h4 : w'.zlibW = w.zlibW) : Chan C w' base a := by
  unfold Chan at *
  rw [h1, h2, h3, h4]; exact h

omit law in
theorem Good.failed {w : Writer D} {base content : Bytes} (h : Good C w base content) : Failed w base content := by
  obtain ⟨b, a, _, _, h1, h2⟩ := h
  intro hc
  rw [h1.sent C hc, ← h2]
  simp

theorem bwFlush_spec {w : Writer D} {base content : Bytes} (h : Good C w base content) :
    ∃ e w', w.bwFlush C = .val (e, w') ∧ SameW w w' ∧ w'.err = w.err ∧ w'.tmo = w.tmo ∧
      ((e = none ∧ Good C w' base content ∧ ∃ b, w'.bw = some b ∧ b.buf = []) ∨
       (e ≠ none ∧ Failed w' base content ∧ ∃ b, w'.bw = some b ∧ b.berr = e)) := by
  obtain ⟨b, a, hb, he, hch, hcont⟩ := h
  by_cases hbuf : b.buf = []
  · refine ⟨none, w, by simp [Writer.bwFlush, hb, he, hbuf], .refl w, rfl, rfl, .inl ⟨rfl, ⟨b, a, hb, he, hch, hcont⟩, b, hb, hbuf⟩⟩
  · obtain ⟨n, e, w1, h1, h2, h3, h4, h5, h6⟩ := curWrite_spec C law b.buf hch
    rcases h6 with ⟨rfl, rfl, h6⟩ | ⟨hne, hn, h6⟩
    · refine ⟨none, { w1 with bw := some { b with buf := [] } }, by simp [Writer.bwFlush, hb, he, hbuf, h1], ⟨h2.1, h2.2, h2.3, h2.4⟩, h4, h5, .inl ⟨rfl, ⟨_, a ++ b.buf, rfl, he, h6.of_eq C rfl rfl rfl rfl, by simp [hcont]⟩, _, rfl, rfl⟩⟩
    · cases e with
      | none => simp at hne
      | some e =>
        refine ⟨some e, { w1 with bw := some { b with buf := b.buf.drop n, berr := some e } }, by simp [Writer.bwFlush, hb, he, hbuf, h1], ⟨h2.1, h2.2, h2.3, h2.4⟩, h4, h5, .inr ⟨hne, ?_, _, rfl, rfl⟩⟩
        intro hc
        have hc' : w1.curZ = false := hc
        have hs := (h6 (by rw [← h2.curZ]; exact hc')).sent C hc'
        show w1.sink.sent <+: _
        rw [hs, ← hcont]
        exact ⟨b.buf.drop n, by simp⟩

/-- The loop of `bufio.Writer.Write`. -/
theorem bwLoop_spec {fuel : Nat} {p : Bytes} {w : Writer D} {base content : Bytes} {b : BW}
    (h : Good C w base content) (hb : w.bw = some b)
    (hf : (if b.buf = [] then 2 else 3) ≤ fuel) :
    ∃ p' w' b', w.bwLoop C fuel p = .val (p', w') ∧ SameW w w' ∧ w'.err = w.err ∧ w'.tmo = w.tmo ∧
      w'.bw = some b' ∧
      ((b'.berr = none ∧ ∃ c', Good C w' base c' ∧ c' ++ p' = content ++ p) ∨
       (b'.berr ≠ none ∧ Failed w' base (content ++ p))) := by
  induction fuel generalizing p w content b with
  | zero => split at hf <;> omega
  | succ fuel ih =>
    have hg := h
    obtain ⟨b0, a, hb0, he, hch, hcont⟩ := h
    rw [hb] at hb0; cases hb0
    by_cases hlt : b.size - b.buf.length < p.length
    · by_cases hbuf : b.buf = []
      · simp only [hbuf, if_true] at hf
        obtain ⟨n, e, w1, h1, h2, h3, h4, h5, h6⟩ := curWrite_spec C law p hch
        obtain ⟨fuel, rfl⟩ : ∃ k, fuel = k + 1 := ⟨fuel - 1, by omega⟩
        rcases h6 with ⟨rfl, rfl, h6⟩ | ⟨hne, hn, h6⟩
        · refine ⟨[], { w1 with bw := some { b with berr := none } }, _, ?_, ⟨h2.1, h2.2, h2.3, h2.4⟩, h4, h5, rfl, .inl ⟨rfl, content ++ p, ⟨_, a ++ p, rfl, rfl, h6.of_eq C rfl rfl rfl rfl, ?_⟩, by simp⟩⟩
          · simp [hbuf] at hlt
            simp [Writer.bwLoop, hb, hlt, hbuf, he, h1]
          · simp [hbuf] at hcont ⊢; simp [hcont]
        · refine ⟨p.drop n, { w1 with bw := some { b with berr := e } }, _, ?_, ⟨h2.1, h2.2, h2.3, h2.4⟩, h4, h5, rfl, .inr ⟨hne, ?_⟩⟩
          · simp [hbuf] at hlt
            simp [Writer.bwLoop, hb, hlt, hbuf, he, h1, hne]
          · intro hc
            have hc' : w1.curZ = false := hc
            have hs := (h6 (by rw [← h2.curZ]; exact hc')).sent C hc'
            show w1.sink.sent <+: _
            simp only [hbuf, List.append_nil] at hcont
            rw [hs, ← hcont]
            exact ⟨p.drop n, by simp⟩
      · simp only [hbuf, if_false] at hf
        have hg' : Good C { w with bw := some { b with buf := b.buf ++ p.take (b.size - b.buf.length) } } base
            (content ++ p.take (b.size - b.buf.length)) :=
          ⟨_, a, rfl, he, hch.of_eq C rfl rfl rfl rfl, by simp [← hcont]⟩
        obtain ⟨e, w1, h1, h2, h3, h4, h5⟩ := bwFlush_spec C law hg'
        have h2' : SameW w w1 := ⟨h2.1, h2.2, h2.3, h2.4⟩
        simp only [he] at h1
        rcases h5 with ⟨rfl, h5, b1, hb1, hbuf1⟩ | ⟨hne, h5, b1, hb1, hbe⟩
        · obtain ⟨p', w', b', g1, g2, g3, g4, g5, g6⟩ :=
            ih (p := p.drop (b.size - b.buf.length)) h5 hb1 (by rw [if_pos hbuf1]; omega)
          refine ⟨p', w', b', ?_, h2'.trans g2, g3.trans h3, g4.trans h4, g5, ?_⟩
          · simp [Writer.bwLoop, hb, hlt, hbuf, he, h1, g1]
          · simpa using g6
        · refine ⟨p.drop (b.size - b.buf.length), w1, b1, ?_, h2', h3, h4, hb1, .inr ⟨by rw [hbe]; exact hne, ?_⟩⟩
          · obtain ⟨fuel, rfl⟩ : ∃ k, fuel = k + 1 := ⟨fuel - 1, by omega⟩
            simp [Writer.bwLoop, hb, hlt, hbuf, he, h1, hb1, hbe, hne]
          · intro hc
            refine (h5 hc).trans ?_
            exact ⟨p.drop (b.size - b.buf.length), by simp⟩
    · refine ⟨p, w, b, ?_, .refl w, rfl, rfl, hb, .inl ⟨he, content, hg, rfl⟩⟩
      simp [Writer.bwLoop, hb, hlt]

theorem bwWrite_spec {p : Bytes} {w : Writer D} {base content : Bytes} (h : Good C w base content) :
    ∃ e w', w.bwWrite C p = .val (e, w') ∧ SameW w w' ∧ w'.err = w.err ∧ w'.tmo = w.tmo ∧
      ((e = none ∧ Good C w' base (content ++ p)) ∨ (e ≠ none ∧ Failed w' base (content ++ p))) := by
  obtain ⟨b, a, hb, he, hch, hcont⟩ := id h
  obtain ⟨p', w', b', h1, h2, h3, h4, h5, h6⟩ :=
    bwLoop_spec C law (p := p) (fuel := p.length + 3) h hb (by split <;> omega)
  rcases h6 with ⟨h6, c', ⟨b1, a1, hb1, he1, hch1, hc1⟩, hc⟩ | ⟨h6, h7⟩
  · rw [h5] at hb1; cases hb1
    refine ⟨none, { w' with bw := some { b' with buf := b'.buf ++ p' } }, by simp [Writer.bwWrite, h1, h5, h6], ⟨h2.1, h2.2, h2.3, h2.4⟩, h3, h4, .inl ⟨rfl, ⟨_, a1, rfl, he1, hch1.of_eq C rfl rfl rfl rfl, ?_⟩⟩⟩
    simp [← hc, ← hc1]
  · cases hbe : b'.berr with
    | none => simp [hbe] at h6
    | some e =>
      exact ⟨some e, w', by simp [Writer.bwWrite, h1, h5, hbe], h2, h3, h4, .inr ⟨by simp, h7⟩⟩

omit law in
theorem timeout_spec (w : Writer D) : ∃ ts, w.timeout.2 = { w with tmo := ts } := by
  unfold Writer.timeout
  split
  · rename_i h; exact ⟨[], by simp [← h]⟩
  · exact ⟨_, rfl⟩

omit law in
theorem Good.of_eq {w w' : Writer D} {base c : Bytes} (h : Good C w base c) (h1 : w'.curZ = w.curZ)
    (h2 : w'.zlibOn = w.zlibOn) (h3 : w'.sink = w.sink) (h4 : w'.zlibW = w.zlibW) (h5 : w'.bw = w.bw) :
    Good C w' base c := by
  obtain ⟨b, a, hb, he, hch, hc⟩ := h
  exact ⟨b, a, h5.trans hb, he, hch.of_eq C h1 h2 h3 h4, hc⟩

theorem writeLine_spec {l : Bytes} {w : Writer D} {base content : Bytes} (h : Good C w base content)
    (he : w.err = none) (hh : runHooks l w.onLine = .accept) :
    ∃ e w', w.writeLine C l = .val (e, w') ∧ SameW w w' ∧ w'.err = e ∧
      ((e = none ∧ Good C w' base (content ++ l)) ∨ (e ≠ none ∧ Failed w' base (content ++ l))) := by
  obtain ⟨ts, hts⟩ := timeout_spec w
  obtain ⟨⟨te, tw⟩, htw⟩ : ∃ x, x = w.timeout := ⟨_, rfl⟩
  rw [← htw] at hts; simp only at hts; subst hts
  cases te with
  | some e =>
    refine ⟨some e, { w with tmo := ts, err := some e }, by simp [Writer.writeLine, he, hh, ← htw], ⟨rfl, rfl, rfl, rfl⟩, rfl, .inr ⟨by simp, ?_⟩⟩
    intro hc
    exact (h.failed C hc).trans ⟨l, by simp⟩
  | none =>
    obtain ⟨e, w', h1, h2, h3, h4, h5⟩ := bwWrite_spec C law (p := l) (h.of_eq C (w' := { w with tmo := ts }) rfl rfl rfl rfl rfl)
    have h2' : SameW w w' := ⟨h2.1, h2.2, h2.3, h2.4⟩
    simp only [he] at h1
    cases e with
    | none =>
      refine ⟨none, w', by simp [Writer.writeLine, he, hh, ← htw, h1], h2', h3.trans he, h5⟩
    | some e =>
      refine ⟨some e, { w' with err := some e }, by simp [Writer.writeLine, he, hh, ← htw, h1], ⟨h2.1, h2.2, h2.3, h2.4⟩, rfl, .inr ⟨by simp, ?_⟩⟩
      rcases h5 with ⟨h5, _⟩ | ⟨_, h5⟩
      · simp at h5
      · exact h5

/-- After a successful `Flush` nothing is buffered, and all data written so far is on the wire: as it
is, or as the flushed beginning of a compressed stream. -/
def OnWire (w : Writer D) (base content : Bytes) : Prop :=
  Good C w base content ∧ (∃ b, w.bw = some b ∧ b.buf = []) ∧
    (w.curZ = false → w.sink.sent = base ++ content) ∧
    (w.curZ = true → ∃ part, w.sink.sent = base ++ part ∧ IsPart I part content)

theorem flush_spec {w : Writer D} {base content : Bytes} (h : Good C w base content) (he : w.err = none) :
    ∃ e w', w.flush C = .val (e, w') ∧ SameW w w' ∧ w'.err = e ∧
      ((e = none ∧ OnWire C (I := I) w' base content) ∨ (e ≠ none ∧ Failed w' base content)) := by
  obtain ⟨ts, hts⟩ := timeout_spec w
  obtain ⟨⟨te, tw⟩, htw⟩ : ∃ x, x = w.timeout := ⟨_, rfl⟩
  rw [← htw] at hts; simp only at hts; subst hts
  cases te with
  | some e =>
    refine ⟨some e, { w with tmo := ts, err := some e }, by simp [Writer.flush, he, ← htw], ⟨rfl, rfl, rfl, rfl⟩, rfl, .inr ⟨by simp, ?_⟩⟩
    exact fun hc => h.failed C hc
  | none =>
    obtain ⟨e, w', h1, h2, h3, h4, h5⟩ := bwFlush_spec C law (h.of_eq C (w' := { w with tmo := ts }) rfl rfl rfl rfl rfl)
    have h2' : SameW w w' := ⟨h2.1, h2.2, h2.3, h2.4⟩
    simp only [he] at h1
    cases e with
    | some e =>
      refine ⟨some e, { w' with err := some e }, by simp [Writer.flush, he, ← htw, h1], ⟨h2.1, h2.2, h2.3, h2.4⟩, rfl, .inr ⟨by simp, ?_⟩⟩
      rcases h5 with ⟨h5, _⟩ | ⟨_, h5, _⟩
      · simp at h5
      · exact h5
    | none =>
      rcases h5 with ⟨_, h5, b, hb, hbuf⟩ | ⟨h5, _⟩
      rotate_left
      · simp at h5
      have hg := h5
      obtain ⟨b0, a, hb0, hbe, hch, hcont⟩ := h5
      rw [hb] at hb0; cases hb0
      rw [hbuf, List.append_nil] at hcont
      subst hcont
      rcases hch with ⟨hc, hz, hs⟩ | ⟨hc, hz, d0, ops, hst, hzw, hs, ha⟩
      · refine ⟨none, w', by simp [Writer.flush, he, ← htw, h1, hz], h2', h3.trans he, .inl ⟨rfl, hg, ⟨b, hb, hbuf⟩, fun _ => hs, by simp [hc]⟩⟩
      · have hne := law.noErr d0 hst ops .flush
        have hsn := trace_snoc C d0 ops .flush
        have hfl := law.flushed d0 hst ops
        rw [hsn.2] at hfl
        simp only [Deflater.exec] at hne hsn hfl
        obtain ⟨⟨d', cs, e⟩, hex⟩ : ∃ x, x = C.flush (C.trace d0 ops).1 := ⟨_, rfl⟩
        rw [← hex] at hne hsn hfl
        simp only at hne hsn hfl
        subst hne
        obtain ⟨⟨e', s'⟩, hem⟩ : ∃ x, x = emit cs w'.sink := ⟨_, rfl⟩
        cases e' with
        | none =>
          have hs' := emit_none hem.symm
          have hch' : Chan C { w' with zlibW := some ⟨d', none⟩, sink := s' } base a :=
            .inr ⟨hc, hz, d0, ops ++ [.flush], hst, by simp [hsn.1], by simp [hs', hs, hsn.2], by simp [ha, writtenZ_append, writtenZ]⟩
          refine ⟨none, { w' with zlibW := some ⟨d', none⟩, sink := s' }, by simp [Writer.flush, he, ← htw, h1, hz, hzw, ZW.call, ← hex, ← hem], ⟨h2.1, h2.2, h2.3, h2.4⟩, h3.trans he,
            .inl ⟨rfl, ⟨b, a, hb, hbe, hch', by simp [hbuf]⟩, ⟨b, hb, hbuf⟩, by simp [hc], fun _ => ⟨_, ?_, ha ▸ hfl⟩⟩⟩
          simp [hs', hs]
        | some e =>
          refine ⟨some e, { w' with zlibW := some ⟨d', some e⟩, sink := s', err := some e }, by simp [Writer.flush, he, ← htw, h1, hz, hzw, ZW.call, ← hex, ← hem], ⟨h2.1, h2.2, h2.3, h2.4⟩, rfl, .inr ⟨by simp, ?_⟩⟩
          intro hc'; simp [hc] at hc'

theorem write_spec {w : Writer D} {p : Bytes} {base content : Bytes} (h : Good C w base content) (he : w.err = none) :
    ∃ n e w', w.write C p = .val ((n, e), w') ∧ SameW w w' ∧ n ≤ p.length ∧
      ((e = none ∧ n = p.length ∧ w'.err = none ∧ Good C w' base (content ++ p) ∧ ∃ b, w'.bw = some b ∧ b.buf = []) ∨
       (e ≠ none ∧ w'.err = e ∧ n = 0 ∧ Failed w' base content) ∨
       (e ≠ none ∧ w'.err = none ∧ (w.curZ = false → Good C w' base (content ++ p.take n) ∧
          ∃ b, w'.bw = some b ∧ b.buf = []))) := by
  have direct : ∀ w1 : Writer D, Good C w1 base content → (∃ b, w1.bw = some b ∧ b.buf = []) → w1.err = none →
      ∃ n e w', w1.curWrite C p = .val ((n, e), w') ∧ SameW w1 w' ∧ n ≤ p.length ∧
      ((e = none ∧ n = p.length ∧ w'.err = none ∧ Good C w' base (content ++ p) ∧ ∃ b, w'.bw = some b ∧ b.buf = []) ∨
       (e ≠ none ∧ w'.err = none ∧ (w1.curZ = false → Good C w' base (content ++ p.take n) ∧
          ∃ b, w'.bw = some b ∧ b.buf = []))) := by
    intro w1 hg ⟨b, hb, hbuf⟩ he1
    obtain ⟨b0, a, hb0, hbe, hch, hcont⟩ := hg
    rw [hb] at hb0; cases hb0
    rw [hbuf, List.append_nil] at hcont
    subst hcont
    obtain ⟨n, e, w', h1, h2, h3, h4, h5, h6⟩ := curWrite_spec C law p hch
    refine ⟨n, e, w', h1, h2, ?_, ?_⟩
    · rcases h6 with ⟨_, rfl, _⟩ | ⟨_, h, _⟩ <;> omega
    · rcases h6 with ⟨rfl, rfl, h⟩ | ⟨hne, hn, h⟩
      · exact .inl ⟨rfl, rfl, h4.trans he1, ⟨b, _, h3.trans hb, hbe, h, by simp [hbuf]⟩, b, h3.trans hb, hbuf⟩
      · exact .inr ⟨hne, h4.trans he1, fun hc => ⟨⟨b, _, h3.trans hb, hbe, h hc, by simp [hbuf]⟩, b, h3.trans hb, hbuf⟩⟩
  obtain ⟨b, a, hb, hbe, hch, hcont⟩ := id h
  by_cases hbuf : b.buf = []
  · obtain ⟨n, e, w', h1, h2, h3, h4⟩ := direct w h ⟨b, hb, hbuf⟩ he
    refine ⟨n, e, w', by simp [Writer.write, he, hb, hbuf, h1], h2, h3, ?_⟩
    rcases h4 with h4 | h4
    · exact .inl h4
    · exact .inr (.inr h4)
  · obtain ⟨e, w1, h1, h2, h3, h4⟩ := flush_spec C law h he
    cases e with
    | some e =>
      refine ⟨0, some e, w1, by simp [Writer.write, he, hb, hbuf, h1], h2, by simp, .inr (.inl ⟨by simp, h3, rfl, ?_⟩)⟩
      rcases h4 with ⟨h4, _⟩ | ⟨_, h4⟩
      · simp at h4
      · exact h4
    | none =>
      rcases h4 with ⟨_, h4⟩ | ⟨h4, _⟩
      rotate_left
      · simp at h4
      obtain ⟨n, e, w', g1, g2, g3, g4⟩ := direct w1 h4.1 h4.2.1 h3
      refine ⟨n, e, w', by simp [Writer.write, he, hb, hbuf, h1, g1], h2.trans g2, g3, ?_⟩
      rw [h2.curZ] at g4
      rcases g4 with g4 | g4
      · exact .inl g4
      · exact .inr (.inr g4)

end Verif.Lineproto
