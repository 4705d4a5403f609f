import Verif.Lineproto.WriterTrace

/-!
# Helper lemmas for `Verif/Props/LineTimeouts.lean`
-/

namespace Verif.Lineproto

/-- The transport after the writes `ps`. -/
def Sink.puts (ps : List Bytes) (s : Sink) : Sink := ps.foldl (fun s p => (s.write p).2) s

theorem Sink.puts_append (ps qs : List Bytes) (s : Sink) :
    s.puts (ps ++ qs) = (s.puts ps).puts qs := by
  simp [Sink.puts, List.foldl_append]

theorem emit_puts (cs : List Bytes) (s : Sink) : (emit cs s).2 = s.puts (emitLog cs s) := by
  induction cs generalizing s with
  | nil => rfl
  | cons c cs ih =>
    unfold emit emitLog
    rcases hw : s.write c with ⟨⟨n, e⟩, s'⟩
    cases e with
    | some e => simp [Sink.puts, hw]
    | none => simp [Sink.puts, hw, ih s']

theorem call_puts (z : ZW D) (f : D → D × List Bytes × Option Err) (s : Sink) :
    (z.call f s).2.2 = s.puts (z.callLog f s) := by
  unfold ZW.call ZW.callLog
  cases z.zerr with
  | some e => rfl
  | none =>
    rcases hf : f z.d with ⟨d', cs, e⟩
    have := emit_puts cs s
    rcases he : emit cs s with ⟨e', s'⟩
    rw [he] at this
    cases e' <;> simpa [hf, he] using this

variable (C : Deflater D)

theorem curWrite_puts {w w' : Writer D} {p r} (h : w.curWrite C p = .val (r, w')) :
    w'.sink = w.sink.puts (w.curWriteLog C p) ∧ w'.tmo = w.tmo := by
  unfold Writer.curWrite at h
  unfold Writer.curWriteLog
  by_cases hz : w.curZ = true
  · rw [if_pos hz] at h ⊢
    cases hw : w.zlibW with
    | none => simp [hw] at h
    | some z =>
      simp only [hw] at h
      have := call_puts z (C.write · p) w.sink
      rcases hc : z.call (C.write · p) w.sink with ⟨e, z', s'⟩
      rw [hc] at h this
      simp only [Exec.val.injEq, Prod.mk.injEq] at h
      rcases h with ⟨_, rfl⟩
      exact ⟨this, rfl⟩
  · rw [if_neg hz] at h ⊢
    rcases hs : w.sink.write p with ⟨r', s'⟩
    rw [hs] at h
    simp only [Exec.val.injEq, Prod.mk.injEq] at h
    rcases h with ⟨_, rfl⟩
    simp [Sink.puts, hs]

theorem bwFlush_puts {w w' : Writer D} {r} (h : w.bwFlush C = .val (r, w')) :
    w'.sink = w.sink.puts (w.bwFlushLog C) ∧ w'.tmo = w.tmo := by
  unfold Writer.bwFlush at h
  unfold Writer.bwFlushLog
  cases hb : w.bw with
  | none => simp [hb] at h
  | some b =>
    simp only [hb] at h ⊢
    cases he : b.berr with
    | some e =>
      simp only [he, Exec.val.injEq, Prod.mk.injEq] at h
      rcases h with ⟨_, rfl⟩
      exact ⟨rfl, rfl⟩
    | none =>
      simp only [he] at h ⊢
      by_cases hbuf : b.buf = []
      · rw [if_pos hbuf] at h ⊢
        simp only [Exec.val.injEq, Prod.mk.injEq] at h
        rcases h with ⟨_, rfl⟩
        exact ⟨rfl, rfl⟩
      · rw [if_neg hbuf] at h ⊢
        cases hc : w.curWrite C b.buf with
        | panic => simp [hc] at h
        | timeout => simp [hc] at h
        | val x =>
          rcases x with ⟨⟨n, e⟩, w1⟩
          have := curWrite_puts C hc
          simp only [hc] at h
          split at h <;>
            (simp only [Exec.val.injEq, Prod.mk.injEq] at h; rcases h with ⟨_, rfl⟩; exact this)

theorem bwLoop_puts (fuel : Nat) (p : Bytes) (w : Writer D) {r w'}
    (h : w.bwLoop C fuel p = .val (r, w')) :
    w'.sink = w.sink.puts (w.bwLoopLog C fuel p) ∧ w'.tmo = w.tmo := by
  induction fuel generalizing p w with
  | zero => simp [Writer.bwLoop] at h
  | succ fuel ih =>
    unfold Writer.bwLoop at h
    unfold Writer.bwLoopLog
    cases hb : w.bw with
    | none => simp [hb] at h
    | some b =>
      simp only [hb] at h ⊢
      by_cases hc : b.size - b.buf.length < p.length ∧ b.berr = none
      · rw [if_pos hc] at h ⊢
        by_cases hbuf : b.buf = []
        · rw [if_pos hbuf] at h ⊢
          cases hw : w.curWrite C p with
          | panic => simp [hw] at h
          | timeout => simp [hw] at h
          | val x =>
            rcases x with ⟨⟨n, e⟩, w1⟩
            simp only [hw] at h ⊢
            have h1 := curWrite_puts C hw
            have h2 := ih _ _ h
            rw [Sink.puts_append, ← h1.1]
            exact ⟨h2.1, h2.2.trans h1.2⟩
        · rw [if_neg hbuf] at h ⊢
          split at h
          · simp at h
          · simp at h
          · rename_i w1 hw
            simp only [hw]
            have h1 := bwFlush_puts C hw
            have h2 := ih _ _ h
            rw [Sink.puts_append, ← h1.1]
            exact ⟨h2.1, h2.2.trans h1.2⟩
      · rw [if_neg hc] at h ⊢
        simp only [Exec.val.injEq, Prod.mk.injEq] at h
        rcases h with ⟨_, rfl⟩
        exact ⟨rfl, rfl⟩

theorem bwWrite_puts {p : Bytes} {w w' : Writer D} {r} (h : w.bwWrite C p = .val (r, w')) :
    w'.sink = w.sink.puts (w.bwWriteLog C p) ∧ w'.tmo = w.tmo := by
  unfold Writer.bwWrite at h
  unfold Writer.bwWriteLog
  cases hl : w.bwLoop C (p.length + 3) p with
  | panic => simp [hl] at h
  | timeout => simp [hl] at h
  | val x =>
    rcases x with ⟨p', w1⟩
    have := bwLoop_puts C _ _ _ hl
    simp only [hl] at h
    cases hb : w1.bw with
    | none => simp [hb] at h
    | some b =>
      simp only [hb] at h
      cases he : b.berr <;>
        (simp only [he, Exec.val.injEq, Prod.mk.injEq] at h; rcases h with ⟨_, rfl⟩; exact this)

end Verif.Lineproto
