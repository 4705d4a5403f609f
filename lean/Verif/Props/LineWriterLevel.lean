import Verif.Props.LineWriter

/-!
# C75: the compression level asked for is the one used

Model: `Verif/Lineproto/Writer.lean`.
-/

namespace Verif.Props.LineWriterLevel

open Verif Verif.Lineproto

variable {D : Type} (C : Deflater D)

/-- A compressor that behaves as `C` and remembers the level it was created with. -/
def labelled : Deflater (D × Int) where
  new lvl := match C.new lvl with
    | .ok d => .ok (d, lvl)
    | .error e => .error e
  reset d := (C.reset d.1, d.2)
  write d p := match C.write d.1 p with | (d', r) => ((d', d.2), r)
  flush d := match C.flush d.1 with | (d', r) => ((d', d.2), r)
  close d := match C.close d.1 with | (d', r) => ((d', d.2), r)

/-- The level of the compressor is the one the writer remembers. -/
def Agree (w : Writer (D × Int)) : Prop := ∀ z, w.zlibW = some z → z.d.2 = w.lvl

theorem call_label {z z' : ZW (D × Int)} {f : D × Int → (D × Int) × List Bytes × Option Err} {s s' : Sink} {e : Option Err}
    (hf : ∀ d, (f d).1.2 = d.2) (h : z.call f s = (e, z', s')) : z'.d.2 = z.d.2 := by
  unfold ZW.call at h
  split at h
  · simp only [Prod.mk.injEq] at h; rw [← h.2.1]
  · have := hf z.d
    rcases hx : f z.d with ⟨d', cs, e1⟩
    rw [hx] at this
    simp only [hx] at h
    split at h <;> (simp only [Prod.mk.injEq] at h; rw [← h.2.1]; exact this)

theorem write_label (p : Bytes) (d : D × Int) : ((labelled C).write d p).1.2 = d.2 := by
  simp [labelled]

theorem flush_label (d : D × Int) : ((labelled C).flush d).1.2 = d.2 := by
  simp [labelled]

theorem close_label (d : D × Int) : ((labelled C).close d).1.2 = d.2 := by
  simp [labelled]

theorem curWrite_agree {p : Bytes} {w w' : Writer (D × Int)} {r} (ha : Agree w)
    (h : w.curWrite (labelled C) p = .val (r, w')) : Agree w' := by
  unfold Writer.curWrite at h
  split at h
  · split at h
    · cases h
    · rename_i z hz
      rcases hc : z.call ((labelled C).write · p) w.sink with ⟨e, z', s'⟩
      simp only [hc, Exec.val.injEq, Prod.mk.injEq] at h
      obtain ⟨_, rfl⟩ := h
      intro z1 h1
      cases h1
      rw [call_label (fun d => write_label C p d) hc]
      exact ha z hz
  · simp only [Exec.val.injEq, Prod.mk.injEq] at h
    obtain ⟨_, rfl⟩ := h
    exact ha

theorem bwFlush_agree {w w' : Writer (D × Int)} {e} (ha : Agree w)
    (h : w.bwFlush (labelled C) = .val (e, w')) : Agree w' := by
  unfold Writer.bwFlush at h
  split at h
  · cases h
  · split at h
    · simp only [Exec.val.injEq, Prod.mk.injEq] at h; rw [← h.2]; exact ha
    · split at h
      · simp only [Exec.val.injEq, Prod.mk.injEq] at h; rw [← h.2]; exact ha
      · split at h
        · cases h
        · cases h
        · rename_i hc
          have := curWrite_agree C ha hc
          split at h <;> (simp only [Exec.val.injEq, Prod.mk.injEq] at h; rw [← h.2]; exact this)

theorem bwLoop_agree : ∀ (fuel : Nat) {p p' : Bytes} {w w' : Writer (D × Int)}, Agree w →
    w.bwLoop (labelled C) fuel p = .val (p', w') → Agree w' := by
  intro fuel
  induction fuel with
  | zero => intro p p' w w' _ h; simp [Writer.bwLoop] at h
  | succ fuel ih =>
    intro p p' w w' ha h
    rw [Writer.bwLoop] at h
    split at h
    · cases h
    · split at h
      · split at h
        · split at h
          · cases h
          · cases h
          · rename_i hc
            have := curWrite_agree C ha hc
            refine ih ?_ h
            exact fun z hz => this z hz
        · split at h
          · cases h
          · cases h
          · rename_i hc
            refine ih (bwFlush_agree C ?_ hc) h
            exact fun z hz => ha z hz
      · simp only [Exec.val.injEq, Prod.mk.injEq] at h; rw [← h.2]; exact ha

theorem bwWrite_agree {p : Bytes} {w w' : Writer (D × Int)} {e} (ha : Agree w)
    (h : w.bwWrite (labelled C) p = .val (e, w')) : Agree w' := by
  unfold Writer.bwWrite at h
  split at h
  · cases h
  · cases h
  · rename_i hc
    have := bwLoop_agree C _ ha hc
    split at h
    · cases h
    · split at h <;> (simp only [Exec.val.injEq, Prod.mk.injEq] at h; rw [← h.2]; exact this)

theorem timeout_agree {w w' : Writer (D × Int)} {e} (ha : Agree w) (h : w.timeout = (e, w')) : Agree w' := by
  unfold Writer.timeout at h
  split at h <;> (simp only [Prod.mk.injEq] at h; rw [← h.2]; exact ha)

theorem flush_agree {w w' : Writer (D × Int)} {e} (ha : Agree w)
    (h : w.flush (labelled C) = .val (e, w')) : Agree w' := by
  unfold Writer.flush at h
  split at h
  · simp only [Exec.val.injEq, Prod.mk.injEq] at h; rw [← h.2]; exact ha
  · rcases ht : w.timeout with ⟨t, w1⟩
    have h1 := timeout_agree ha ht
    rw [ht] at h
    cases t with
    | some t => simp only [Exec.val.injEq, Prod.mk.injEq] at h; rw [← h.2]; exact h1
    | none =>
      simp only at h
      split at h
      · cases h
      · cases h
      · rename_i hc
        have := bwFlush_agree C h1 hc
        simp only [Exec.val.injEq, Prod.mk.injEq] at h; rw [← h.2]; exact this
      · rename_i hc
        have := bwFlush_agree C h1 hc
        split at h
        · split at h
          · cases h
          · rename_i z hz
            split at h
            · rename_i hcall
              simp only [Exec.val.injEq, Prod.mk.injEq] at h
              rw [← h.2]
              intro z1 hz1
              cases hz1
              rw [call_label (flush_label C) hcall]
              exact this z hz
            · rename_i hcall
              simp only [Exec.val.injEq, Prod.mk.injEq] at h
              rw [← h.2]
              intro z1 hz1
              cases hz1
              rw [call_label (flush_label C) hcall]
              exact this z hz
        · simp only [Exec.val.injEq, Prod.mk.injEq] at h; rw [← h.2]; exact this

theorem writeLine_agree {l : Bytes} {w w' : Writer (D × Int)} {e} (ha : Agree w)
    (h : w.writeLine (labelled C) l = .val (e, w')) : Agree w' := by
  unfold Writer.writeLine at h
  split at h
  · simp only [Exec.val.injEq, Prod.mk.injEq] at h; rw [← h.2]; exact ha
  · split at h
    · simp only [Exec.val.injEq, Prod.mk.injEq] at h; rw [← h.2]; exact ha
    · simp only [Exec.val.injEq, Prod.mk.injEq] at h; rw [← h.2]; exact ha
    · rcases ht : w.timeout with ⟨t, w1⟩
      have h1 := timeout_agree ha ht
      rw [ht] at h
      cases t with
      | some t => simp only [Exec.val.injEq, Prod.mk.injEq] at h; rw [← h.2]; exact h1
      | none =>
        simp only at h
        split at h
        · cases h
        · cases h
        · rename_i hc
          have := bwWrite_agree C h1 hc
          simp only [Exec.val.injEq, Prod.mk.injEq] at h; rw [← h.2]; exact this
        · rename_i hc
          have := bwWrite_agree C h1 hc
          simp only [Exec.val.injEq, Prod.mk.injEq] at h; rw [← h.2]; exact this

theorem write_agree {p : Bytes} {w w' : Writer (D × Int)} {r} (ha : Agree w)
    (h : w.write (labelled C) p = .val (r, w')) : Agree w' := by
  unfold Writer.write at h
  split at h
  · simp only [Exec.val.injEq, Prod.mk.injEq] at h; rw [← h.2]; exact ha
  · split at h
    · cases h
    · split at h
      · split at h
        · cases h
        · cases h
        · rename_i hc
          have := flush_agree C ha hc
          simp only [Exec.val.injEq, Prod.mk.injEq] at h; rw [← h.2]; exact this
        · rename_i hc
          exact curWrite_agree C (flush_agree C ha hc) h
      · exact curWrite_agree C ha h

/-- After a successful `EnableZlibLevel(lvl)` the compressor is fresh and has level `lvl`. -/
theorem enable_agree {lvl : Int} {w w' : Writer (D × Int)} {e} (ha : Agree w)
    (h : w.enableZlib (labelled C) lvl = .val (e, w')) :
    Agree w' ∧ (e = none → ∃ d, w'.zlibW = some ⟨(d, lvl), none⟩) := by
  unfold Writer.enableZlib at h
  split at h
  · simp only [Exec.val.injEq, Prod.mk.injEq] at h; rw [← h.2, ← h.1]; exact ⟨ha, by simp⟩
  · split at h
    · simp only [Exec.val.injEq, Prod.mk.injEq] at h; rw [← h.2, ← h.1]; exact ⟨ha, by simp⟩
    · split at h
      · cases h
      · cases h
      · rename_i hc
        have := flush_agree C ha hc
        simp only [Exec.val.injEq, Prod.mk.injEq] at h; rw [← h.2, ← h.1]; exact ⟨this, by simp⟩
      · rename_i w1 hc
        have h1 := flush_agree C ha hc
        split at h
        · rename_i z hz
          have hz' : w1.zlibW = some z ∧ w1.lvl = lvl := by
            split at hz
            · cases hz
            · rename_i z0 h0
              split at hz
              · rename_i hl; cases hz; exact ⟨h0, hl⟩
              · cases hz
          simp only [Exec.val.injEq, Prod.mk.injEq] at h
          obtain ⟨rfl, rfl⟩ := h
          have hl := h1 z hz'.1
          have hr : (labelled C).reset z.d = (C.reset z.d.1, lvl) := by
            simp only [labelled]; rw [hl, hz'.2]
          refine ⟨?_, fun _ => ⟨C.reset z.d.1, ?_⟩⟩
          · intro z1 hz1
            simp only [Writer.bwReset, Option.some.injEq] at hz1
            rw [← hz1, hr]
            exact hz'.2.symm
          · simp only [Writer.bwReset, hr]
        · split at h
          · simp only [Exec.val.injEq, Prod.mk.injEq] at h
            obtain ⟨rfl, rfl⟩ := h
            exact ⟨h1, by simp⟩
          · rename_i d hn
            simp only [Exec.val.injEq, Prod.mk.injEq] at h
            obtain ⟨rfl, rfl⟩ := h
            have hd : ∃ d0, d = (d0, lvl) := by
              simp only [labelled] at hn
              split at hn
              · rename_i d0 _; cases hn; exact ⟨d0, rfl⟩
              · cases hn
            obtain ⟨d0, rfl⟩ := hd
            refine ⟨?_, fun _ => ⟨d0, rfl⟩⟩
            intro z1 hz1
            simp only [Writer.bwReset, Option.some.injEq] at hz1
            rw [← hz1]; rfl

theorem disable_agree {w w' : Writer (D × Int)} {e} (ha : Agree w)
    (h : w.disableZlib (labelled C) = .val (e, w')) : Agree w' := by
  unfold Writer.disableZlib at h
  split at h
  · simp only [Exec.val.injEq, Prod.mk.injEq] at h; rw [← h.2]; exact ha
  · split at h
    · split at h
      · cases h
      · cases h
      · rename_i hc
        have := bwFlush_agree C ha hc
        simp only [Exec.val.injEq, Prod.mk.injEq] at h; rw [← h.2]; exact this
      · rename_i hc
        have := bwFlush_agree C ha hc
        split at h
        · cases h
        · rename_i z hz
          split at h
          · rename_i hcall
            simp only [Exec.val.injEq, Prod.mk.injEq] at h
            rw [← h.2]
            intro z1 hz1
            cases hz1
            rw [call_label (close_label C) hcall]
            exact this z hz
          · rename_i hcall
            simp only [Exec.val.injEq, Prod.mk.injEq] at h
            rw [← h.2]
            intro z1 hz1
            simp only [Writer.bwReset, Option.some.injEq] at hz1
            rw [← hz1, call_label (close_label C) hcall]
            exact this z hz
    · simp only [Exec.val.injEq, Prod.mk.injEq] at h; rw [← h.2]; exact ha

theorem close_agree {w w' : Writer (D × Int)} {e} (ha : Agree w)
    (h : w.close (labelled C) = .val (e, w')) : Agree w' := by
  unfold Writer.close at h
  split at h
  · cases h
  · cases h
  · rename_i hc
    have := bwFlush_agree C ha hc
    dsimp only at h
    split at h
    · split at h
      · cases h
      · simp only [Exec.val.injEq, Prod.mk.injEq] at h
        rw [← h.2]
        intro z hz
        cases hz
    · simp only [Exec.val.injEq, Prod.mk.injEq] at h
      rw [← h.2]
      exact this

theorem step_agree {op : WOp} {w w' : Writer (D × Int)} {r} (ha : Agree w)
    (h : w.step (labelled C) op = .val (r, w')) : Agree w' := by
  cases op with
  | write p => exact write_agree C ha h
  | onLine f => simp only [Writer.step, Exec.val.injEq, Prod.mk.injEq] at h; rw [← h.2]; exact ha
  | line l =>
    simp only [Writer.step] at h
    split at h
    · rename_i hx; simp only [Exec.val.injEq, Prod.mk.injEq] at h; rw [← h.2]; exact writeLine_agree C ha hx
    · cases h
    · cases h
  | flush =>
    simp only [Writer.step] at h
    split at h
    · rename_i hx; simp only [Exec.val.injEq, Prod.mk.injEq] at h; rw [← h.2]; exact flush_agree C ha hx
    · cases h
    · cases h
  | enable lvl =>
    simp only [Writer.step] at h
    split at h
    · rename_i hx; simp only [Exec.val.injEq, Prod.mk.injEq] at h; rw [← h.2]; exact (enable_agree C ha hx).1
    · cases h
    · cases h
  | disable =>
    simp only [Writer.step] at h
    split at h
    · rename_i hx; simp only [Exec.val.injEq, Prod.mk.injEq] at h; rw [← h.2]; exact disable_agree C ha hx
    · cases h
    · cases h
  | close =>
    simp only [Writer.step] at h
    split at h
    · rename_i hx; simp only [Exec.val.injEq, Prod.mk.injEq] at h; rw [← h.2]; exact close_agree C ha hx
    · cases h
    · cases h

theorem run_agree (ops : List WOp) : ∀ {w w' : Writer (D × Int)} {rs}, Agree w →
    Writer.run (labelled C) ops w = .val (rs, w') → Agree w' := by
  induction ops with
  | nil => intro w w' rs ha h; simp only [Writer.run, Exec.val.injEq, Prod.mk.injEq] at h; rw [← h.2]; exact ha
  | cons op ops ih =>
    intro w w' rs ha h
    simp only [Writer.run] at h
    split at h
    · cases h
    · cases h
    · rename_i hs
      have := step_agree C ha hs
      split at h
      · cases h
      · cases h
      · rename_i hr
        simp only [Exec.val.injEq, Prod.mk.injEq] at h
        rw [← h.2]
        exact ih this hr

/-- **C75.** Whatever happened before on a writer, and whatever the levels of earlier compressed sections were: when
`EnableZlibLevel(lvl)` succeeds, the section is compressed by a fresh or reset compressor of level `lvl`, without a
left-over error. -/
theorem level_used (size : Int) (tmo : List (Option Err)) (s : Sink) (ops : List WOp)
    {rs : List (Nat × Option Err)} {w w' : Writer (D × Int)} {lvl : Int}
    (h : Writer.run (labelled C) ops (newWriter size tmo s) = .val (rs, w))
    (he : w.enableZlib (labelled C) lvl = .val (none, w')) :
    ∃ d, w'.zlibW = some ⟨(d, lvl), none⟩ ∧ w'.zlibOn = true ∧ w'.curZ = true := by
  have ha := run_agree C ops (w := newWriter size tmo s) (by intro z hz; cases hz) h
  obtain ⟨d, hd⟩ := (enable_agree C ha he).2 rfl
  refine ⟨d, hd, ?_⟩
  unfold Writer.enableZlib at he
  split at he
  · cases he
  · split at he
    · cases he
    · split at he
      · cases he
      · cases he
      · cases he
      · split at he
        · simp only [Exec.val.injEq, Prod.mk.injEq] at he; rw [← he.2]; exact ⟨rfl, rfl⟩
        · split at he
          · cases he
          · simp only [Exec.val.injEq, Prod.mk.injEq] at he; rw [← he.2]; exact ⟨rfl, rfl⟩

/-- Three sections with the levels 6, 6 and 9: the second reuses the compressor, the third does not. -/
example : ∃ (rs : List (Nat × Option Err)) (w w' : Writer (Bool × Int)),
    Writer.run (labelled LineWriter.stored) [.enable 6, .line b!"a|", .disable, .enable 6, .line b!"b|", .disable]
      (newWriter 0 [] ⟨[], []⟩) = .val (rs, w) ∧ w.enableZlib (labelled LineWriter.stored) 9 = .val (none, w') :=
  ⟨_, _, _, rfl, rfl⟩

end Verif.Props.LineWriterLevel
