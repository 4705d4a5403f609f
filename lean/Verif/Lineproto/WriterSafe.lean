import Verif.Lineproto.Writer

/-!
# When the writer cannot panic or hang
-/

namespace Verif.Lineproto

variable {D : Type} (C : Deflater D)

/-- No nil pointer is within reach: `Close` was not called, and a compressor exists when it is needed. -/
structure Safe (w : Writer D) : Prop where
  bw : w.bw ≠ none
  z : w.zlibOn = true → w.zlibW ≠ none
  c : w.curZ = true → w.zlibW ≠ none

theorem Sink.write_count (p : Bytes) (s : Sink) {n : Nat} {s' : Sink} (h : s.write p = ((n, none), s')) :
    n = p.length := by
  unfold Sink.write at h
  split at h <;> simp at h <;> omega

theorem curWrite_safe (p : Bytes) {w : Writer D} (h : Safe w) :
    ∃ n e w', w.curWrite C p = .val ((n, e), w') ∧ w'.bw = w.bw ∧ w'.zlibOn = w.zlibOn ∧ w'.curZ = w.curZ ∧
      (w'.zlibW = none → w.zlibW = none) ∧ (e = none → n = p.length) := by
  unfold Writer.curWrite
  split
  · rename_i hc
    split
    · rename_i hz; exact absurd hz (h.c hc)
    · rename_i z hz
      split
      rename_i e z' s' _
      refine ⟨_, _, _, rfl, rfl, rfl, rfl, by simp, ?_⟩
      rintro rfl; rfl
  · split
    rename_i r s' hr
    obtain ⟨n, e⟩ := r
    refine ⟨n, e, _, rfl, rfl, rfl, rfl, id, ?_⟩
    rintro rfl
    exact Sink.write_count p _ hr

theorem bwFlush_safe {w : Writer D} (h : Safe w) :
    ∃ e w' b, w.bwFlush C = .val (e, w') ∧ w'.bw = some b ∧ w'.zlibOn = w.zlibOn ∧ w'.curZ = w.curZ ∧
      (w'.zlibW = none → w.zlibW = none) ∧ (b.berr = none → b.buf = []) := by
  cases hb : w.bw with
  | none => exact absurd hb h.bw
  | some b =>
    unfold Writer.bwFlush
    simp only [hb]
    split
    · rename_i e he
      exact ⟨_, w, b, rfl, hb, rfl, rfl, id, by simp [he]⟩
    · rename_i he
      split
      · rename_i hbuf; exact ⟨_, w, b, rfl, hb, rfl, rfl, id, fun _ => hbuf⟩
      · obtain ⟨n, e, w1, h1, h2, h3, h4, h5, h6⟩ := curWrite_safe C b.buf h
        simp only [h1]
        split
        · exact ⟨_, _, _, rfl, rfl, h3, h4, h5, by simp⟩
        · exact ⟨_, _, _, rfl, rfl, h3, h4, h5, by simp⟩

theorem Safe.of {w w' : Writer D} (h : Safe w) {b : BW} (h1 : w'.bw = some b) (h2 : w'.zlibOn = w.zlibOn)
    (h3 : w'.curZ = w.curZ) (h4 : w'.zlibW = none → w.zlibW = none) : Safe w' :=
  ⟨by simp [h1], fun h' hn => h.z (h2 ▸ h') (h4 hn), fun h' hn => h.c (h3 ▸ h') (h4 hn)⟩

theorem bwLoop_safe {fuel : Nat} {p : Bytes} {w : Writer D} {b : BW} (h : Safe w) (hb : w.bw = some b)
    (hf : (if b.berr = none then (if b.buf = [] then 2 else 3) else 1) ≤ fuel) :
    ∃ p' w', w.bwLoop C fuel p = .val (p', w') ∧ Safe w' := by
  induction fuel generalizing p w b with
  | zero => split at hf <;> (try split at hf) <;> omega
  | succ fuel ih =>
    unfold Writer.bwLoop
    simp only [hb]
    split
    · rename_i hc
      obtain ⟨-, he⟩ := hc
      rw [if_pos he] at hf
      split
      · rename_i hbuf
        rw [if_pos hbuf] at hf
        obtain ⟨n, e, w1, h1, h2, h3, h4, h5, h6⟩ := curWrite_safe C p h
        simp only [h1]
        have hs : Safe { w1 with bw := some { b with berr := e } } := h.of rfl h3 h4 h5
        cases e with
        | some e => exact ih hs rfl (by simp; omega)
        | none =>
          rw [h6 rfl, List.drop_length]
          obtain ⟨fuel, rfl⟩ : ∃ k, fuel = k + 1 := ⟨fuel - 1, by omega⟩
          unfold Writer.bwLoop
          simp only [List.length_nil, Nat.not_lt_zero, false_and, if_false]
          exact ⟨_, _, rfl, hs⟩
      · rename_i hbuf
        rw [if_neg hbuf] at hf
        have hs : Safe { w with bw := some { b with buf := b.buf ++ p.take (b.size - b.buf.length) } } :=
          h.of rfl rfl rfl id
        obtain ⟨e, w1, b1, h1, h2, h3, h4, h5, h6⟩ := bwFlush_safe C hs
        simp only [h1]
        refine ih (hs.of h2 h3 h4 h5) h2 ?_
        split
        · rename_i hn; rw [if_pos (h6 hn)]; omega
        · omega
    · exact ⟨_, _, rfl, h⟩

theorem bwWrite_safe (p : Bytes) {w : Writer D} (h : Safe w) :
    ∃ e w', w.bwWrite C p = .val (e, w') ∧ Safe w' := by
  cases hb : w.bw with
  | none => exact absurd hb h.bw
  | some b =>
    obtain ⟨p', w', h1, h2⟩ := bwLoop_safe C (p := p) (fuel := p.length + 3) h hb
      (by split <;> (try split) <;> omega)
    unfold Writer.bwWrite
    simp only [h1]
    cases hb' : w'.bw with
    | none => exact absurd hb' h2.bw
    | some b' =>
      simp only
      split
      · exact ⟨_, _, rfl, h2⟩
      · exact ⟨_, _, rfl, h2.of rfl rfl rfl id⟩

theorem timeout_safe {w : Writer D} (h : Safe w) : Safe w.timeout.2 := by
  unfold Writer.timeout
  split
  · exact h
  · exact ⟨h.bw, h.z, h.c⟩

theorem flush_safe {w : Writer D} (h : Safe w) :
    ∃ e w', w.flush C = .val (e, w') ∧ Safe w' := by
  unfold Writer.flush
  split
  · exact ⟨_, _, rfl, h⟩
  · have ht := timeout_safe h
    split
    · rename_i htw; rw [htw] at ht
      exact ⟨_, _, rfl, ⟨ht.bw, ht.z, ht.c⟩⟩
    · rename_i w1 htw; rw [htw] at ht
      obtain ⟨e, w', b, h1, h2, h3, h4, h5, -⟩ := bwFlush_safe C ht
      have hs := ht.of h2 h3 h4 h5
      simp only [h1]
      cases e with
      | some e => exact ⟨_, _, rfl, ⟨hs.bw, hs.z, hs.c⟩⟩
      | none =>
        simp only
        split
        · rename_i hz
          split
          · rename_i hn; exact absurd hn (hs.z hz)
          · split
            · exact ⟨_, _, rfl, hs.bw, by simp, by simp⟩
            · exact ⟨_, _, rfl, hs.bw, by simp, by simp⟩
        · exact ⟨_, _, rfl, hs⟩

theorem writeLine_safe (l : Bytes) {w : Writer D} (h : Safe w) :
    ∃ e w', w.writeLine C l = .val (e, w') ∧ Safe w' := by
  unfold Writer.writeLine
  split
  · exact ⟨_, _, rfl, h⟩
  · split
    · exact ⟨_, _, rfl, ⟨h.bw, h.z, h.c⟩⟩
    · exact ⟨_, _, rfl, h⟩
    · have ht := timeout_safe h
      split
      · rename_i htw; rw [htw] at ht
        exact ⟨_, _, rfl, ⟨ht.bw, ht.z, ht.c⟩⟩
      · rename_i w1 htw; rw [htw] at ht
        obtain ⟨e, w', h1, hs⟩ := bwWrite_safe C l ht
        simp only [h1]
        cases e with
        | some e => exact ⟨_, _, rfl, ⟨hs.bw, hs.z, hs.c⟩⟩
        | none => exact ⟨_, _, rfl, hs⟩

theorem curWrite_safe' (p : Bytes) {w : Writer D} (h : Safe w) :
    ∃ r w', w.curWrite C p = .val (r, w') ∧ Safe w' := by
  obtain ⟨n, e, w', h1, h2, h3, h4, h5, -⟩ := curWrite_safe C p h
  cases hb : w.bw with
  | none => exact absurd hb h.bw
  | some b => exact ⟨_, w', h1, h.of (h2.trans hb) h3 h4 h5⟩

theorem write_safe (p : Bytes) {w : Writer D} (h : Safe w) :
    ∃ r w', w.write C p = .val (r, w') ∧ Safe w' := by
  unfold Writer.write
  split
  · exact ⟨_, _, rfl, h⟩
  · split
    · rename_i hn; exact absurd hn h.bw
    · split
      · obtain ⟨e, w', h1, hs⟩ := flush_safe C h
        simp only [h1]
        cases e with
        | some e => exact ⟨_, _, rfl, hs⟩
        | none => exact curWrite_safe' C p hs
      · exact curWrite_safe' C p h

theorem bwReset_safe {w : Writer D} (h1 : w.bw ≠ none) (h2 : w.zlibW ≠ none) : Safe w.bwReset := by
  refine ⟨?_, fun _ => h2, fun _ => h2⟩
  cases hb : w.bw with
  | none => exact absurd hb h1
  | some b => simp [Writer.bwReset, hb]

theorem enable_safe (lvl : Int) (hl : ∃ d, C.new lvl = .ok d) {w : Writer D} (h : Safe w) :
    ∃ e w', w.enableZlib C lvl = .val (e, w') ∧ Safe w' := by
  unfold Writer.enableZlib
  split
  · exact ⟨_, _, rfl, h⟩
  · split
    · exact ⟨_, _, rfl, h⟩
    · obtain ⟨e, w', h1, hs⟩ := flush_safe C h
      simp only [h1]
      cases e with
      | some e => exact ⟨_, _, rfl, hs⟩
      | none =>
        simp only
        obtain ⟨d, hd⟩ := hl
        have h3 := hs.bw
        split
        · exact ⟨_, _, rfl, bwReset_safe h3 (by simp)⟩
        · rw [hd]; exact ⟨_, _, rfl, bwReset_safe h3 (by simp)⟩

theorem disable_safe {w : Writer D} (h : Safe w) :
    ∃ e w', w.disableZlib C = .val (e, w') ∧ Safe w' := by
  unfold Writer.disableZlib
  split
  · exact ⟨_, _, rfl, h⟩
  · split
    · obtain ⟨e, w', b, h1, h2, h3, h4, h5, -⟩ := bwFlush_safe C h
      have hs := h.of h2 h3 h4 h5
      simp only [h1]
      cases e with
      | some e => exact ⟨_, _, rfl, ⟨hs.bw, hs.z, hs.c⟩⟩
      | none =>
        rename_i hz
        simp only
        split
        · rename_i hn; exact absurd hn (hs.z (h3.trans hz))
        · have h3 := hs.bw
          split
          · exact ⟨_, _, rfl, hs.bw, by simp, by simp⟩
          · exact ⟨_, _, rfl, bwReset_safe h3 (by simp)⟩
    · exact ⟨_, _, rfl, h⟩

theorem close_safe {w : Writer D} (h : Safe w) :
    ∃ e w', w.close C = .val (e, w') ∧ w'.err ≠ none := by
  unfold Writer.close
  obtain ⟨e, w', b, h1, h2, h3, h4, h5, -⟩ := bwFlush_safe C h
  have hs := h.of h2 h3 h4 h5
  simp only [h1]
  have he : (match w'.err with | none => some Err.writerClosed | some e => some e) ≠ none := by
    cases w'.err <;> simp
  split
  · split
    · rename_i hz _ hn; exact absurd hn (hs.z hz)
    · exact ⟨_, _, rfl, he⟩
  · exact ⟨_, _, rfl, he⟩

end Verif.Lineproto
