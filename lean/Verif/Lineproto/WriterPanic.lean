import Verif.Lineproto.WriterSafe

/-!
# Panics of the line writer (lemmas)
-/

namespace Verif.Lineproto

variable {D : Type} (C : Deflater D)

/-- The writer has a buffer, and a compressor if it writes to one. -/
structure Sane (w : Writer D) : Prop where
  bw : w.bw ≠ none
  c : w.curZ = true → w.zlibW ≠ none

/-- Nothing changes but the data, the state of the compressor and the recorded error. -/
structure Keeps (w w' : Writer D) : Prop where
  bw : w'.bw ≠ none
  zlibOn : w'.zlibOn = w.zlibOn
  curZ : w'.curZ = w.curZ
  zlibW : w'.zlibW = none ↔ w.zlibW = none

theorem Keeps.refl {w : Writer D} (h : w.bw ≠ none) : Keeps w w := ⟨h, rfl, rfl, Iff.rfl⟩

theorem Keeps.trans {a b c : Writer D} (h : Keeps a b) (h' : Keeps b c) : Keeps a c :=
  ⟨h'.bw, h'.zlibOn.trans h.zlibOn, h'.curZ.trans h.curZ, h'.zlibW.trans h.zlibW⟩

theorem Keeps.sane {w w' : Writer D} (h : Keeps w w') (hs : Sane w) : Sane w' :=
  ⟨h.bw, fun hc hn => hs.c (h.curZ ▸ hc) (h.zlibW.mp hn)⟩

theorem Keeps.setErr {w w' : Writer D} (h : Keeps w w') (e : Option Err) : Keeps w { w' with err := e } :=
  ⟨h.bw, h.zlibOn, h.curZ, h.zlibW⟩

theorem curWrite_keeps (p : Bytes) {w : Writer D} (h : Sane w) :
    ∃ n e w', w.curWrite C p = .val ((n, e), w') ∧ Keeps w w' ∧ w'.bw = w.bw ∧ w'.err = w.err ∧ (e = none → n = p.length) := by
  unfold Writer.curWrite
  split
  · rename_i hc
    split
    · rename_i hz; exact absurd hz (h.c hc)
    · rename_i z hz
      split
      rename_i e z' s' _
      refine ⟨_, _, _, rfl, ⟨h.bw, rfl, rfl, by simp [hz]⟩, rfl, rfl, ?_⟩
      rintro rfl; rfl
  · split
    rename_i r s' hr
    obtain ⟨n, e⟩ := r
    refine ⟨n, e, _, rfl, ⟨h.bw, rfl, rfl, Iff.rfl⟩, rfl, rfl, ?_⟩
    rintro rfl
    exact Sink.write_count p _ hr

theorem bwFlush_keeps {w : Writer D} (h : Sane w) :
    ∃ e w' b, w.bwFlush C = .val (e, w') ∧ Keeps w w' ∧ w'.err = w.err ∧ w'.bw = some b ∧ (b.berr = none → b.buf = []) := by
  cases hb : w.bw with
  | none => exact absurd hb h.bw
  | some b =>
    unfold Writer.bwFlush
    simp only [hb]
    split
    · rename_i e he
      exact ⟨_, w, b, rfl, .refl h.bw, rfl, hb, by simp [he]⟩
    · rename_i he
      split
      · rename_i hbuf; exact ⟨_, w, b, rfl, .refl h.bw, rfl, hb, fun _ => hbuf⟩
      · obtain ⟨n, e, w1, h1, h2, h3, h4, h5⟩ := curWrite_keeps C b.buf h
        simp only [h1]
        split
        · exact ⟨_, _, _, rfl, ⟨by simp, h2.zlibOn, h2.curZ, h2.zlibW⟩, h4, rfl, by simp⟩
        · exact ⟨_, _, _, rfl, ⟨by simp, h2.zlibOn, h2.curZ, h2.zlibW⟩, h4, rfl, by simp⟩

theorem bwLoop_keeps {fuel : Nat} {p : Bytes} {w : Writer D} {b : BW} (h : Sane w) (hb : w.bw = some b)
    (hf : (if b.berr = none then (if b.buf = [] then 2 else 3) else 1) ≤ fuel) :
    ∃ p' w', w.bwLoop C fuel p = .val (p', w') ∧ Keeps w w' ∧ w'.err = w.err := by
  induction fuel generalizing p w b with
  | zero => split at hf <;> (try split at hf) <;> omega
  | succ fuel ih =>
    unfold Writer.bwLoop
    simp only [hb]
    split
    · rename_i hc
      obtain ⟨-, he⟩ := hc
      rw [if_pos he] at hf
      split
      · rename_i hbuf
        rw [if_pos hbuf] at hf
        obtain ⟨n, e, w1, h1, h2, h3, h4, h5⟩ := curWrite_keeps C p h
        simp only [h1]
        have hk : Keeps w { w1 with bw := some { b with berr := e } } := ⟨by simp, h2.zlibOn, h2.curZ, h2.zlibW⟩
        cases e with
        | some e =>
          obtain ⟨p', w', h6, h7, h8⟩ := ih (hk.sane h) rfl (p := p.drop n) (by simp; omega)
          exact ⟨p', w', h6, hk.trans h7, h8.trans h4⟩
        | none =>
          rw [h5 rfl, List.drop_length]
          obtain ⟨fuel, rfl⟩ : ∃ k, fuel = k + 1 := ⟨fuel - 1, by omega⟩
          unfold Writer.bwLoop
          simp only [List.length_nil, Nat.not_lt_zero, false_and, if_false]
          exact ⟨_, _, rfl, hk, h4⟩
      · rename_i hbuf
        rw [if_neg hbuf] at hf
        have hk : Keeps w { w with bw := some { b with buf := b.buf ++ p.take (b.size - b.buf.length) } } :=
          ⟨by simp, rfl, rfl, Iff.rfl⟩
        obtain ⟨e, w1, b1, h1, h2, h3, h4, h5⟩ := bwFlush_keeps C (hk.sane h)
        simp only [h1]
        obtain ⟨p', w', h6, h7, h8⟩ := ih (h2.sane (hk.sane h)) h4 (p := p.drop (b.size - b.buf.length)) (by
          split
          · rename_i hn; rw [if_pos (h5 hn)]; omega
          · omega)
        exact ⟨p', w', h6, (hk.trans h2).trans h7, h8.trans h3⟩
    · exact ⟨_, _, rfl, .refl h.bw, rfl⟩

theorem bwWrite_keeps (p : Bytes) {w : Writer D} (h : Sane w) :
    ∃ e w', w.bwWrite C p = .val (e, w') ∧ Keeps w w' ∧ w'.err = w.err := by
  cases hb : w.bw with
  | none => exact absurd hb h.bw
  | some b =>
    obtain ⟨p', w', h1, h2, h3⟩ := bwLoop_keeps C (p := p) (fuel := p.length + 3) h hb
      (by split <;> (try split) <;> omega)
    unfold Writer.bwWrite
    simp only [h1]
    cases hb' : w'.bw with
    | none => exact absurd hb' h2.bw
    | some b' =>
      simp only
      split
      · exact ⟨_, _, rfl, h2, h3⟩
      · exact ⟨_, _, rfl, ⟨by simp, h2.zlibOn, h2.curZ, h2.zlibW⟩, h3⟩

theorem timeout_keeps {w w1 : Writer D} {e : Option Err} (h : w.bw ≠ none) (ht : w.timeout = (e, w1)) : Keeps w w1 ∧ w1.err = w.err := by
  unfold Writer.timeout at ht
  split at ht <;> (cases ht; exact ⟨⟨h, rfl, rfl, Iff.rfl⟩, rfl⟩)

/-- What can happen to the recorded error in a call that returns `e`. -/
def ErrStep (w w' : Writer D) (e : Option Err) : Prop :=
  w'.err = w.err ∨ (w.err = none ∧ e ≠ none ∧ w'.err = e)

theorem flush_keeps {w : Writer D} (h : Sane w) :
    (∃ e w', w.flush C = .val (e, w') ∧ Keeps w w' ∧ (e = none → w'.err = none) ∧ (∀ x, e = some x → w'.err = some x) ∧
      (∀ x, w.err = some x → e = some x)) ∨
    (w.flush C = .panic ∧ w.err = none ∧ w.zlibOn = true ∧ w.zlibW = none) := by
  unfold Writer.flush
  cases he : w.err with
  | some x => exact .inl ⟨_, _, rfl, .refl h.bw, by simp, by rintro y ⟨⟩; exact he, by simp⟩
  | none =>
    simp only
    cases ht : w.timeout with
    | mk t w1 =>
    obtain ⟨hk, herr⟩ := timeout_keeps h.bw ht
    cases t with
    | some x => exact .inl ⟨_, _, rfl, hk.setErr _, by simp, by rintro y ⟨⟩; rfl, by simp⟩
    | none =>
      simp only
      obtain ⟨e, w2, b, h1, h2, h3, -, -⟩ := bwFlush_keeps C (hk.sane h)
      simp only [h1]
      cases e with
      | some x => exact .inl ⟨_, _, rfl, (hk.trans h2).setErr _, by simp, by rintro y ⟨⟩; rfl, by simp⟩
      | none =>
        simp only
        split
        · rename_i hz
          split
          · rename_i hn
            exact .inr ⟨by trivial, by trivial, (hk.trans h2).zlibOn ▸ hz, (hk.trans h2).zlibW.mp hn⟩
          · rename_i z hz'
            have hw : w.zlibW ≠ none := fun hn => by rw [(hk.trans h2).zlibW.mpr hn] at hz'; cases hz'
            split
            · refine .inl ⟨_, _, rfl, ⟨(hk.trans h2).bw, (hk.trans h2).zlibOn, (hk.trans h2).curZ, by simp [hw]⟩, by simp, by rintro y ⟨⟩; rfl, by simp⟩
            · exact .inl ⟨_, _, rfl, ⟨(hk.trans h2).bw, (hk.trans h2).zlibOn, (hk.trans h2).curZ, by simp [hw]⟩, fun _ => by simp [h3, herr, he], by simp, by simp⟩
        · exact .inl ⟨_, _, rfl, hk.trans h2, fun _ => by simp [h3, herr, he], by simp, by simp⟩

theorem writeLine_keeps (l : Bytes) {w : Writer D} (h : Sane w) :
    ∃ e w', w.writeLine C l = .val (e, w') ∧ Keeps w w' ∧ (w'.err = w.err ∨ w.err = none) := by
  unfold Writer.writeLine
  cases he : w.err with
  | some x => exact ⟨_, _, rfl, .refl h.bw, .inl he⟩
  | none =>
    simp only
    split
    · exact ⟨_, _, rfl, (Keeps.refl h.bw).setErr _, .inr (by trivial)⟩
    · exact ⟨_, _, rfl, .refl h.bw, .inr (by trivial)⟩
    · cases ht : w.timeout with
      | mk t w1 =>
      obtain ⟨hk, -⟩ := timeout_keeps h.bw ht
      cases t with
      | some x => exact ⟨_, _, rfl, hk.setErr _, .inr (by trivial)⟩
      | none =>
        obtain ⟨e, w2, h1, h2, -⟩ := bwWrite_keeps C l (hk.sane h)
        simp only [h1]
        cases e with
        | some x => exact ⟨_, _, rfl, (hk.trans h2).setErr _, .inr (by trivial)⟩
        | none => exact ⟨_, _, rfl, hk.trans h2, .inr (by trivial)⟩

theorem write_keeps (p : Bytes) {w : Writer D} (h : Sane w) :
    (∃ r w', w.write C p = .val (r, w') ∧ Keeps w w' ∧ (w'.err = w.err ∨ w.err = none)) ∨
    (w.write C p = .panic ∧ w.err = none ∧ w.zlibOn = true ∧ w.zlibW = none) := by
  unfold Writer.write
  cases he : w.err with
  | some x => exact .inl ⟨_, _, rfl, .refl h.bw, .inl he⟩
  | none =>
    simp only
    have go : ∀ w1 : Writer D, Keeps w w1 → ∃ r w', w1.curWrite C p = .val (r, w') ∧ Keeps w w' ∧ (w'.err = none ∨ True) := by
      intro w1 hk
      obtain ⟨n, e, w', h1, h2, -, -, -⟩ := curWrite_keeps C p (hk.sane h)
      exact ⟨_, w', h1, hk.trans h2, .inr (by trivial)⟩
    cases hb : w.bw with
    | none => exact absurd hb h.bw
    | some b =>
      simp only
      split
      · rcases flush_keeps C h with ⟨e, w1, h1, h2, -⟩ | ⟨h1, -, h3, h4⟩
        · simp only [h1]
          cases e with
          | some x => exact .inl ⟨_, _, rfl, h2, .inr (by trivial)⟩
          | none => exact .inl (go w1 h2)
        · simp only [h1]
          exact .inr ⟨trivial, trivial, h3, h4⟩
      · exact .inl (go w (.refl h.bw))

/-- What `EnableZlib` does. -/
theorem enable_cases (lvl : Int) {w : Writer D} (h : Sane w) (hb : ¬ (w.zlibOn = true ∧ w.zlibW = none)) :
    ∃ e w', w.enableZlib C lvl = .val (e, w') ∧ Sane w' ∧ (w'.err = w.err ∨ w.err = none) ∧
      ((∃ x, e = some x ∧ Keeps w w' ∧ (w'.err = some x ∨ x = .zlibAlreadyActive)) ∨
       (e = none ∧ w'.zlibW ≠ none) ∨
       (∃ x, e = some x ∧ C.new lvl = .error x ∧ w'.err = none ∧ w'.zlibOn = true ∧ (w'.zlibW = none ↔ w.zlibW = none))) := by
  unfold Writer.enableZlib
  cases he : w.err with
  | some x => exact ⟨_, _, rfl, h, .inl he, .inl ⟨x, rfl, .refl h.bw, .inl he⟩⟩
  | none =>
    simp only
    split
    · exact ⟨_, _, rfl, h, .inr (by trivial), .inl ⟨_, rfl, .refl h.bw, .inr (by trivial)⟩⟩
    · rcases flush_keeps C h with ⟨e, w1, h1, h2, h3, h4, -⟩ | ⟨h1, -, h3, h4⟩
      · simp only [h1]
        have hs := h2.sane h
        cases e with
        | some x => exact ⟨_, _, rfl, hs, .inr (by trivial), .inl ⟨x, rfl, h2, .inl (h4 x rfl)⟩⟩
        | none =>
          simp only
          have hreset : ∀ (w3 : Writer D), w3.bw ≠ none → w3.zlibW ≠ none → Sane w3.bwReset := fun w3 hb hz =>
            ⟨(bwReset_safe hb hz).bw, fun _ => hz⟩
          split
          · exact ⟨_, _, rfl, hreset _ hs.bw (by simp), .inr (by trivial), .inr (.inl ⟨rfl, by simp [Writer.bwReset]⟩)⟩
          · split
            · rename_i x hx
              exact ⟨_, _, rfl, ⟨hs.bw, hs.c⟩, .inr (by trivial), .inr (.inr ⟨x, rfl, hx, h3 rfl, rfl, h2.zlibW⟩)⟩
            · exact ⟨_, _, rfl, hreset _ hs.bw (by simp), .inr (by trivial), .inr (.inl ⟨rfl, by simp [Writer.bwReset]⟩)⟩
      · exact absurd ⟨h3, h4⟩ hb

/-- In a writer without the compressor it should have, `EnableZlib` does nothing. -/
theorem enable_broken (lvl : Int) {w : Writer D} (hb : w.zlibOn = true) :
    ∃ x, w.enableZlib C lvl = .val (some x, w) ∧ (w.err = some x ∨ w.err = none ∧ x = .zlibAlreadyActive) := by
  unfold Writer.enableZlib
  cases he : w.err with
  | some x => exact ⟨x, rfl, .inl rfl⟩
  | none => exact ⟨_, by simp [hb], .inr ⟨rfl, rfl⟩⟩

/-- A call of `EnableZlib` that fails because of the level: the error is not recorded. -/
def BadEnable (op : WOp) (res : Option Err) (recorded : Option Err) : Prop :=
  ∃ lvl e, op = .enable lvl ∧ res = some e ∧ e ≠ .zlibAlreadyActive ∧ recorded = none

theorem disable_keeps {w : Writer D} (h : Sane w) :
    (∃ e w', w.disableZlib C = .val (e, w') ∧ Sane w' ∧ (w'.zlibW = none ↔ w.zlibW = none) ∧ (w'.err = w.err ∨ w.err = none) ∧
      (w'.zlibOn = true → w.zlibOn = true) ∧ (w.zlibW = none → w'.zlibOn = w.zlibOn)) ∨
    (w.disableZlib C = .panic ∧ w.err = none ∧ w.zlibOn = true ∧ w.zlibW = none) := by
  unfold Writer.disableZlib
  cases he : w.err with
  | some x => exact .inl ⟨_, _, rfl, h, Iff.rfl, .inl he, id, fun _ => rfl⟩
  | none =>
    simp only
    split
    · rename_i hz
      obtain ⟨e, w2, b, h1, h2, h3, h4, -⟩ := bwFlush_keeps C h
      simp only [h1]
      cases e with
      | some x =>
        exact .inl ⟨_, _, rfl, (h2.setErr _).sane h, h2.zlibW, .inr (by trivial), fun _ => hz, fun _ => h2.zlibOn⟩
      | none =>
        simp only
        split
        · rename_i hn
          exact .inr ⟨rfl, trivial, hz, h2.zlibW.mp hn⟩
        · rename_i z hz'
          have hw : w.zlibW ≠ none := fun hn => by rw [h2.zlibW.mpr hn] at hz'; cases hz'
          split
          · exact .inl ⟨_, _, rfl, ⟨h2.bw, by simp⟩, by simp [hw], .inr (by trivial), fun _ => hz, fun hn => absurd hn hw⟩
          · refine .inl ⟨_, _, rfl, ⟨?_, by simp [Writer.bwReset]⟩, by simp [Writer.bwReset, hw], .inr (by trivial), fun _ => hz, fun hn => absurd hn hw⟩
            simp [Writer.bwReset, h4]
    · exact .inl ⟨_, _, rfl, h, Iff.rfl, .inl he, id, fun _ => rfl⟩

/-- `Close` of an open writer. -/
theorem close_cases {w : Writer D} (h : Sane w) :
    ((∃ e w', w.close C = .val (e, w') ∧ w'.err ≠ none ∧ w'.bw = none) ∧ ¬ (w.zlibOn = true ∧ w.zlibW = none)) ∨
    (w.close C = .panic ∧ w.zlibOn = true ∧ w.zlibW = none) := by
  unfold Writer.close
  obtain ⟨e, w2, b, h1, h2, h3, h4, -⟩ := bwFlush_keeps C h
  simp only [h1]
  have he : (match w2.err with | none => some Err.writerClosed | some e => some e) ≠ none := by
    cases w2.err <;> simp
  split
  · rename_i hz
    have hz0 : w.zlibOn = true := h2.zlibOn ▸ hz
    split
    · rename_i hn; exact .inr ⟨rfl, hz0, h2.zlibW.mp hn⟩
    · rename_i z hz'
      have hw : w.zlibW ≠ none := fun hn => by rw [h2.zlibW.mpr hn] at hz'; cases hz'
      exact .inl ⟨⟨_, _, rfl, he, rfl⟩, fun hh => hw hh.2⟩
  · rename_i hz
    exact .inl ⟨⟨_, _, rfl, he, rfl⟩, fun hh => hz (h2.zlibOn.trans hh.1)⟩

/-- `Close` of a closed writer. -/
theorem close_closed {w : Writer D} (h : w.bw = none) : w.close C = .panic := by
  simp [Writer.close, Writer.bwFlush, h]

/-- Calls of a closed writer do nothing, but `Close` panics. -/
theorem step_closed (op : WOp) {w : Writer D} (h : w.bw = none) (he : w.err ≠ none) :
    (op = .close ∧ w.step C op = .panic) ∨
    (op ≠ .close ∧ ∃ r w', w.step C op = .val (r, w') ∧ w'.bw = none ∧ w'.err = w.err) := by
  cases hwe : w.err with
  | none => exact absurd hwe he
  | some e =>
    cases op with
    | close => exact .inl ⟨rfl, by simp [Writer.step, close_closed C h]⟩
    | onLine f => exact .inr ⟨by simp, _, _, rfl, h, hwe⟩
    | _ => exact .inr ⟨by simp, (0, some e), w, by simp [Writer.step, Writer.writeLine, Writer.flush, Writer.write,
                    Writer.enableZlib, Writer.disableZlib, hwe], h, hwe⟩

/-- Calls of an open writer. -/
theorem step_open (hz : ∀ lvl, C.new lvl ≠ .error .zlibAlreadyActive) (op : WOp) (hop : op ≠ .close) {w : Writer D} (h : Sane w) :
    (∃ r w', w.step C op = .val (r, w') ∧ Sane w' ∧
      ((∃ lvl, op = .enable lvl) ∧ r.2 = none ∧ w'.zlibW ≠ none ∨
       ¬ ((∃ lvl, op = .enable lvl) ∧ r.2 = none) ∧ (w'.zlibW = none ↔ w.zlibW = none)) ∧
      (w'.zlibW = none → (w'.zlibOn = true ↔ w.zlibOn = true ∨ BadEnable op r.2 w'.err))) ∨
    (w.step C op = .panic ∧ (op = .flush ∨ op = .disable ∨ ∃ p, op = .write p) ∧ w.err = none ∧ w.zlibOn = true ∧ w.zlibW = none) := by
  cases op with
  | close => simp at hop
  | onLine f => exact .inl ⟨_, _, rfl, ⟨h.bw, h.c⟩, .inr ⟨by simp, Iff.rfl⟩, fun _ => by simp [BadEnable, Writer.addHook]⟩
  | line l =>
    obtain ⟨e, w', h1, h2, -⟩ := writeLine_keeps C l h
    exact .inl ⟨(0, e), w', by simp [Writer.step, h1], h2.sane h, .inr ⟨by simp, h2.zlibW⟩, fun _ => by simp [BadEnable, h2.zlibOn]⟩
  | flush =>
    rcases flush_keeps C h with ⟨e, w', h1, h2, -⟩ | ⟨h1, h2⟩
    · exact .inl ⟨(0, e), w', by simp [Writer.step, h1], h2.sane h, .inr ⟨by simp, h2.zlibW⟩, fun _ => by simp [BadEnable, h2.zlibOn]⟩
    · exact .inr ⟨by simp [Writer.step, h1], by simp, h2⟩
  | write p =>
    rcases write_keeps C p h with ⟨r, w', h1, h2, -⟩ | ⟨h1, h2⟩
    · exact .inl ⟨r, w', by simp [Writer.step, h1], h2.sane h, .inr ⟨by simp, h2.zlibW⟩, fun _ => by simp [BadEnable, h2.zlibOn]⟩
    · exact .inr ⟨by simp [Writer.step, h1], by simp, h2⟩
  | disable =>
    rcases disable_keeps C h with ⟨e, w', h1, h2, h3, -, -, h5⟩ | ⟨h1, h2⟩
    · exact .inl ⟨(0, e), w', by simp [Writer.step, h1], h2, .inr ⟨by simp, h3⟩, fun hn => by simp [BadEnable, h5 (h3.mp hn)]⟩
    · exact .inr ⟨by simp [Writer.step, h1], by simp, h2⟩
  | enable lvl =>
    refine .inl ?_
    by_cases hb : w.zlibOn = true ∧ w.zlibW = none
    · obtain ⟨x, h1, h2⟩ := enable_broken C lvl hb.1
      exact ⟨(0, some x), w, by simp [Writer.step, h1], h, .inr ⟨by simp, Iff.rfl⟩, fun _ => by simp [hb.1]⟩
    · obtain ⟨e, w', h1, h2, h3, h4⟩ := enable_cases C lvl h hb
      refine ⟨(0, e), w', by simp [Writer.step, h1], h2, ?_, ?_⟩
      · rcases h4 with ⟨x, rfl, hk, -⟩ | ⟨rfl, hk⟩ | ⟨x, rfl, -, -, -, hk⟩
        · exact .inr ⟨by simp, hk.zlibW⟩
        · exact .inl ⟨⟨lvl, rfl⟩, rfl, hk⟩
        · exact .inr ⟨by simp, hk⟩
      · intro hn
        rcases h4 with ⟨x, rfl, hk, hx⟩ | ⟨rfl, hk⟩ | ⟨x, rfl, hx, hx1, hon, hk⟩
        · rw [hk.zlibOn]
          constructor
          · exact .inl
          · rintro (hh | ⟨l, y, -, hy, hne, hnone⟩)
            · exact hh
            · cases hy
              rcases hx with hx | hx
              · rw [hx] at hnone; cases hnone
              · exact absurd hx hne
        · exact absurd hn hk
        · simp only [hon, true_iff]
          exact .inr ⟨lvl, x, rfl, rfl, fun hc => hz lvl (hc ▸ hx), hx1⟩

end Verif.Lineproto
