import Verif.Lineproto.ReaderLemmas

/-!
# Buffer sizes of the line reader
-/

namespace Verif.Lineproto

variable {Z : Type} (I : Inflater Z)

/-- Buffers never hold more than one read buffer. -/
def Small (r : Reader Z) : Prop := r.cbuf.length ≤ readBuf ∧ ∀ b, r.orig = some b → b.buf.length ≤ readBuf

theorem scanBuf_len (d : Byte) (bs : Bytes) :
    (scanBuf d bs).1.length ≤ bs.length ∧ (scanBuf d bs).2.2.length ≤ bs.length := by
  rcases scanBuf_spec d bs with ⟨_, h⟩ | ⟨l, rest, _, hb, h⟩
  · simp [h]
  · rw [h, hb]; simp; omega

theorem src_read_len (n : Nat) (s : Src) : (s.read n).1.1.length ≤ n := by
  cases s with
  | nil => simp [Src.read]
  | cons ev s =>
    simp only [Src.read]
    split
    · assumption
    · simp; omega

theorem peek_len {b : Buf} (h : b.buf.length ≤ readBuf) : b.peek.2.buf.length ≤ readBuf := by
  have := src_read_len readBuf b.src
  unfold Buf.peek
  split
  · exact h
  · rename_i heq; rw [heq] at this; exact this

theorem readByte_len {b b' : Buf} {x} (h : b.buf.length ≤ readBuf) (hr : b.readByte = .val (x, b')) :
    b'.buf.length ≤ readBuf := by
  unfold Buf.readByte at hr
  have hp := peek_len h
  split at hr
  · rename_i heq; rw [heq] at h; simp at hr h; rw [← hr.2]; simp; omega
  · split at hr
    · rename_i heq; rw [heq] at hp; simp at hr; rw [← hr.2]; exact hp
    · rename_i heq; rw [heq] at hp
      split at hr
      · rename_i heq2; simp at hr hp; rw [heq2] at hp; rw [← hr.2]; simp at hp ⊢; omega
      · simp at hr

theorem zByte_len {n : Nat} {b b' : Buf} {x} (h : b.buf.length ≤ readBuf) (hr : b.zByte n = .val (x, b')) :
    b'.buf.length ≤ readBuf := by
  unfold Buf.zByte at hr
  split at hr
  · split at hr
    · rename_i hb; cases hr; exact readByte_len h hb
    · rename_i hb; cases hr; exact readByte_len h hb
    · cases hr
    · cases hr
  · split at hr
    · rename_i hb; cases hr; rw [hb] at h; simp at h ⊢; omega
    · split at hr
      · cases hr; exact h
      · cases hr; exact h

theorem zFill_len (want : Nat) (fuel : Nat) : ∀ {zr zr' : ZRd Z} {b b' : Buf}, b.buf.length ≤ readBuf →
    zFill I want fuel zr b = .val (zr', b') → b'.buf.length ≤ readBuf := by
  induction fuel with
  | zero => intro zr zr' b b' _ h; simp [zFill] at h
  | succ fuel ih =>
    intro zr zr' b b' hb h
    unfold zFill at h
    split at h
    · simp at h; rw [← h.2]; exact hb
    · split at h
      · simp at h; rw [← h.2]; exact hb
      · split at h
        · simp at h; rw [← h.2]; exact hb
        · simp at h; rw [← h.2]; exact hb
        · split at h
          · rename_i heq; exact ih (zByte_len hb heq) h
          · rename_i heq; exact ih (zByte_len hb heq) h
          · simp at h
          · simp at h

theorem zRead_len {fuel n : Nat} {zr zr' : ZRd Z} {b b' : Buf} {d : Bytes} {e}
    (hb : b.buf.length ≤ readBuf) (h : zRead I fuel n zr b = .val ((d, e), zr', b')) :
    b'.buf.length ≤ readBuf ∧ d.length ≤ n := by
  unfold zRead at h
  split at h
  · rename_i heq
    have := zFill_len I _ _ hb heq
    split at h
    · simp at h; obtain ⟨⟨rfl, _⟩, _, rfl⟩ := h; exact ⟨this, by simp⟩
    · simp at h; obtain ⟨⟨rfl, _⟩, _, rfl⟩ := h; exact ⟨this, by simp; omega⟩
  · simp at h
  · simp at h

theorem zPeek_len {fuel : Nat} {zr zr' : ZRd Z} {b b' : Buf} {x : Bytes ⊕ Err}
    (hb : b.buf.length ≤ readBuf) (h : zPeek I fuel zr b = .val (x, zr', b')) :
    b'.buf.length ≤ readBuf ∧ ∀ d, x = .inl d → d.length ≤ readBuf := by
  unfold zPeek at h
  split at h
  · rename_i hz
    simp at h; obtain ⟨rfl, _, rfl⟩ := h
    exact ⟨(zRead_len I hb hz).1, by simp⟩
  · rename_i hz
    simp at h; obtain ⟨rfl, _, rfl⟩ := h
    refine ⟨(zRead_len I hb (by assumption)).1, ?_⟩
    intro d hd; cases hd; exact (zRead_len I hb (by assumption)).2
  · simp at h
  · simp at h

theorem bufScan_len {d : Byte} {b b' : Buf} {res} (hb : b.buf.length ≤ readBuf)
    (h : b.scan d = (res, b')) : b'.buf.length ≤ readBuf ∧ res.1.length ≤ readBuf := by
  unfold Buf.scan at h
  have hp := peek_len hb
  split at h
  · split at h
    · rename_i heq; rw [heq] at hp
      simp at h; obtain ⟨rfl, rfl⟩ := h; exact ⟨hp, by simp⟩
    · rename_i heq; rw [heq] at hp
      simp at h; obtain ⟨rfl, rfl⟩ := h
      simp only at hp
      exact ⟨Nat.le_trans (scanBuf_len d _).2 hp, Nat.le_trans (scanBuf_len d _).1 hp⟩
  · rename_i heq; rw [heq] at hb
    simp at h; obtain ⟨rfl, rfl⟩ := h
    rename_i c cs
    have := scanBuf_len d (c :: cs)
    exact ⟨Nat.le_trans this.2 hb, Nat.le_trans this.1 hb⟩

theorem scan_len {fuel : Nat} {r r' : Reader Z} {b : Buf} {res : Bytes × Bool × Option Err}
    (hr : Small r) (hb : r.orig = some b) (h : r.scan I fuel b = .val (res, r')) :
    Small r' ∧ res.1.length ≤ readBuf ∧ r'.maxLine = r.maxLine := by
  have hbl := hr.2 b hb
  unfold Reader.scan at h
  split at h
  · split at h
    · split at h
      · simp at h
      · split at h
        · rename_i heq
          have := zPeek_len I hbl heq
          simp at h; obtain ⟨rfl, rfl⟩ := h
          exact ⟨⟨hr.1, fun b1 h1 => by cases h1; exact this.1⟩, by simp, rfl⟩
        · rename_i d _ _ heq
          have := zPeek_len I hbl heq
          have hd := this.2 d rfl
          have hs := scanBuf_len r.delim d
          simp at h; obtain ⟨rfl, rfl⟩ := h
          exact ⟨⟨Nat.le_trans hs.2 hd, fun b1 h1 => by cases h1; exact this.1⟩, Nat.le_trans hs.1 hd, rfl⟩
        · simp at h
        · simp at h
    · rename_i c cs heq
      have hs := scanBuf_len r.delim (c :: cs)
      have hc := hr.1
      rw [heq] at hc
      simp at h; obtain ⟨rfl, rfl⟩ := h
      exact ⟨⟨Nat.le_trans hs.2 hc, hr.2⟩, Nat.le_trans hs.1 hc, rfl⟩
  · have : ∃ res1 b1, b.scan r.delim = (res1, b1) := ⟨_, _, rfl⟩
    obtain ⟨res1, b1, hs⟩ := this
    have hl := bufScan_len hbl hs
    rw [hs] at h
    simp at h; obtain ⟨rfl, rfl⟩ := h
    exact ⟨⟨hr.1, fun b2 h2 => by cases h2; exact hl.1⟩, hl.2, rfl⟩

theorem readLoop_len (fuel : Nat) : ∀ {acc line : Bytes} {e : Option Err} {r r' : Reader Z}, Small r →
    r.readLoop I fuel acc = .val ((line, e), r') →
    Small r' ∧ r'.maxLine = r.maxLine ∧
      (r.maxLine > 0 → (line.length : Int) ≤ r.maxLine - 1 + readBuf) := by
  induction fuel with
  | zero => intro acc line e r r' _ h; simp [Reader.readLoop] at h
  | succ fuel ih =>
    intro acc line e r r' hr h
    unfold Reader.readLoop at h
    split at h
    · simp at h
    · rename_i b hb
      split at h
      · simp at h; obtain ⟨⟨rfl, rfl⟩, rfl⟩ := h
        exact ⟨hr, rfl, fun _ => by simp [readBuf]; omega⟩
      · rename_i hmax
        split at h
        · simp at h
        · simp at h
        · rename_i pref more err r1 hscan
          obtain ⟨h1, h2, h3⟩ := scan_len I hr hb hscan
          simp only at h2
          have hline : r.maxLine > 0 → ((acc ++ pref).length : Int) ≤ r.maxLine - 1 + readBuf := by
            intro hp; simp; omega
          split at h
          · obtain ⟨g1, g2, g3⟩ := ih (r := { r1 with curZ := false, zlibOn := false }) ⟨h1.1, h1.2⟩ h
            exact ⟨g1, g2.trans h3, by simpa only [h3] using g3⟩
          · split at h
            · simp at h; obtain ⟨⟨rfl, rfl⟩, rfl⟩ := h
              exact ⟨h1, h3, hline⟩
            · split at h
              · obtain ⟨g1, g2, g3⟩ := ih h1 h
                exact ⟨g1, g2.trans h3, by simpa only [h3] using g3⟩
              · simp only at h
                split at h
                · simp at h; obtain ⟨⟨rfl, rfl⟩, rfl⟩ := h
                  exact ⟨h1, h3, hline⟩
                · obtain ⟨g1, g2, g3⟩ := ih h1 h
                  exact ⟨g1, g2.trans h3, by simpa only [h3] using g3⟩
                · simp at h; obtain ⟨⟨rfl, rfl⟩, rfl⟩ := h
                  exact ⟨h1, h3, fun _ => by simp [readBuf]; omega⟩

theorem readLine_len {fuel : Nat} {line : Bytes} {e : Option Err} {r r' : Reader Z} (hr : Small r)
    (h : r.readLine I fuel = .val ((line, e), r')) :
    Small r' ∧ r'.maxLine = r.maxLine ∧
      (r.maxLine > 0 → (line.length : Int) ≤ r.maxLine - 1 + readBuf) := by
  unfold Reader.readLine at h
  split at h
  · simp at h; obtain ⟨⟨rfl, rfl⟩, rfl⟩ := h
    exact ⟨hr, rfl, fun _ => by simp [readBuf]; omega⟩
  · exact readLoop_len I fuel hr h

theorem bufRead_len {n : Nat} {b b' : Buf} {x} (hb : b.buf.length ≤ readBuf) (h : b.read n = (x, b')) :
    b'.buf.length ≤ readBuf := by
  unfold Buf.read at h
  split at h
  · simp at h; obtain ⟨rfl, rfl⟩ := h; exact hb
  · rename_i heq; rw [heq] at hb
    simp at h; obtain ⟨rfl, rfl⟩ := h; simp at hb ⊢; omega

theorem curRead_small {fuel n : Nat} {r r' : Reader Z} {b : Buf} {x} (hr : Small r) (hb : r.orig = some b)
    (h : r.curRead I fuel n b = .val (x, r')) : Small r' ∧ r'.maxLine = r.maxLine := by
  have hbl := hr.2 b hb
  unfold Reader.curRead at h
  split at h
  · split at h
    · split at h
      · simp at h
      · split at h
        · rename_i res _ _ heq
          obtain ⟨d, e⟩ := res
          simp at h; obtain ⟨rfl, rfl⟩ := h
          exact ⟨⟨hr.1, fun b1 h1 => by cases h1; exact (zRead_len I hbl heq).1⟩, rfl⟩
        · simp at h
        · simp at h
    · rename_i heq; have hc := hr.1; rw [heq] at hc
      simp at h; obtain ⟨rfl, rfl⟩ := h
      exact ⟨⟨by simp at hc ⊢; omega, hr.2⟩, rfl⟩
  · simp at h; obtain ⟨rfl, rfl⟩ := h
    exact ⟨⟨hr.1, fun b1 h1 => by cases h1; exact bufRead_len hbl rfl⟩, rfl⟩

theorem read_small {fuel n : Nat} {r r' : Reader Z} {x} (hr : Small r)
    (h : r.read I fuel n = .val (x, r')) : Small r' ∧ r'.maxLine = r.maxLine := by
  unfold Reader.read at h
  split at h
  · simp at h; obtain ⟨rfl, rfl⟩ := h; exact ⟨hr, rfl⟩
  · rename_i b hb
    split at h
    · simp at h
    · simp at h
    · rename_i d err r1 heq
      obtain ⟨h1, h2⟩ := curRead_small I hr hb heq
      split at h
      · split at h
        · simp at h; obtain ⟨rfl, rfl⟩ := h; exact ⟨⟨h1.1, h1.2⟩, h2⟩
        · simp only at h
          split at h
          · simp at h
          · rename_i b2 hb2
            simp at h; obtain ⟨rfl, rfl⟩ := h
            exact ⟨⟨h1.1, fun b3 h3 => by cases h3; exact bufRead_len (h1.2 b2 hb2) rfl⟩, h2⟩
      · simp at h; obtain ⟨rfl, rfl⟩ := h; exact ⟨h1, h2⟩

theorem readFull_small (fuel : Nat) : ∀ {n : Nat} {acc : Bytes} {b b' : Buf} {x},
    b.buf.length ≤ readBuf → b.readFull fuel n acc = .val (x, b') → b'.buf.length ≤ readBuf := by
  induction fuel with
  | zero =>
    intro n acc b b' x hb h
    cases n with
    | zero => simp [Buf.readFull] at h; obtain ⟨rfl, rfl⟩ := h; exact hb
    | succ n => simp [Buf.readFull] at h
  | succ fuel ih =>
    intro n acc b b' x hb h
    cases n with
    | zero => simp [Buf.readFull] at h; obtain ⟨rfl, rfl⟩ := h; exact hb
    | succ n =>
      obtain ⟨y, b1, hr⟩ : ∃ y b1, b.read (n + 1) = (y, b1) := ⟨_, _, rfl⟩
      have h1 := bufRead_len hb hr
      obtain ⟨d, e⟩ := y
      simp only [Buf.readFull, hr] at h
      split at h
      · simp at h; obtain ⟨rfl, rfl⟩ := h; exact h1
      · split at h
        · simp at h; obtain ⟨rfl, rfl⟩ := h; exact h1
        · exact ih h1 h

theorem enableZlib_small {fuel : Nat} {sched} {r r' : Reader Z} {x} (hr : Small r)
    (h : r.enableZlib I fuel sched = .val (x, r')) : Small r' ∧ r'.maxLine = r.maxLine := by
  unfold Reader.enableZlib at h
  split at h
  · simp at h; obtain ⟨rfl, rfl⟩ := h; exact ⟨hr, rfl⟩
  · rename_i b hb
    have hbl := hr.2 b hb
    split at h
    · simp at h; obtain ⟨rfl, rfl⟩ := h; exact ⟨hr, rfl⟩
    · split at h
      · simp at h
      · simp at h
      · rename_i heq; have := readFull_small _ hbl heq
        simp at h; obtain ⟨rfl, rfl⟩ := h
        exact ⟨⟨hr.1, fun b1 h1 => by cases h1; exact this⟩, rfl⟩
      · rename_i heq; have := readFull_small _ hbl heq
        split at h
        · split at h
          · simp at h; obtain ⟨rfl, rfl⟩ := h
            exact ⟨⟨hr.1, fun b1 h1 => by cases h1; exact this⟩, rfl⟩
          · simp at h; obtain ⟨rfl, rfl⟩ := h
            exact ⟨⟨by simp, fun b1 h1 => by cases h1; exact this⟩, rfl⟩
        · simp at h

end Verif.Lineproto
