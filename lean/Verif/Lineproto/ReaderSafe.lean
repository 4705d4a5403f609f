import Verif.Lineproto.ReaderTotal

/-!
# The reader does not panic

Over a transport that never returns `(0, nil)`, or when decompression was never switched on.
-/

namespace Verif.Lineproto

variable {Z : Type} (I : Inflater Z)

/-- No result of the script is `(0, nil)`. -/
def Src.NoEmpty (s : Src) : Prop := ∀ ev ∈ s, ev.data ≠ [] ∨ ev.err ≠ none

theorem Src.NoEmpty.read {s : Src} (n : Nat) (h : s.NoEmpty) : Src.NoEmpty (s.read n).2 ∧
    (0 < n → (s.read n).1.1 = [] → (s.read n).1.2 ≠ none) := by
  cases s with
  | nil => simp [Src.read, Src.NoEmpty]
  | cons ev s =>
    have hs : Src.NoEmpty s := fun e he => h e (by simp [he])
    simp only [Src.read]
    split
    · refine ⟨hs, fun _ h0 => ?_⟩
      rcases h ev (by simp) with h1 | h1
      · exact absurd h0 h1
      · exact h1
    · rename_i hl
      refine ⟨?_, ?_⟩
      · intro e he
        simp only [List.mem_cons] at he
        rcases he with rfl | he
        · left; intro h0
          have := congrArg List.length h0
          simp at this; omega
        · exact hs e he
      · intro hn h0
        exfalso
        have := congrArg List.length h0
        rw [List.length_take, List.length_nil] at this; omega

theorem readByte_safe {b : Buf} (h : b.src.NoEmpty) : b.readByte ≠ .panic ∧
    ∀ x b', b.readByte = .val (x, b') → b'.src.NoEmpty := by
  obtain ⟨s, buf⟩ := b
  cases buf with
  | cons c cs => 
    refine ⟨by simp [Buf.readByte], ?_⟩
    intro x b' hb
    simp only [Buf.readByte, Exec.val.injEq, Prod.mk.injEq] at hb
    obtain ⟨_, rfl⟩ := hb
    exact h
  | nil =>
    have hr := h.read readBuf
    simp only [Buf.readByte, Buf.peek]
    rcases hx : Src.read readBuf s with ⟨⟨d, e⟩, s'⟩
    rw [hx] at hr
    cases d with
    | nil =>
      cases e with
      | none => exact absurd rfl (hr.2 (by decide) rfl)
      | some e =>
        refine ⟨by simp, ?_⟩
        intro x b' hb
        simp only [Exec.val.injEq, Prod.mk.injEq] at hb
        obtain ⟨_, rfl⟩ := hb
        exact hr.1
    | cons c cs =>
      refine ⟨by simp, ?_⟩
      intro x b' hb
      simp only [Exec.val.injEq, Prod.mk.injEq] at hb
      obtain ⟨_, rfl⟩ := hb
      exact hr.1

theorem fetch_safe {s : Src} (h : s.NoEmpty) : Src.NoEmpty s.fetch.2 := by
  induction s with
  | nil => simp [Src.fetch, Src.NoEmpty]
  | cons ev s ih =>
    have hs : Src.NoEmpty s := fun e he => h e (by simp [he])
    obtain ⟨d, e⟩ := ev
    match d, e with
    | [], none => exact ih hs
    | [], some e => exact hs
    | [c], e => exact hs
    | c :: d :: ds, e =>
      intro ev hev
      rcases List.mem_cons.mp hev with rfl | hev
      · simp
      · exact hs ev hev

theorem zByte_safe {n : Nat} {b : Buf} (h : b.src.NoEmpty) : b.zByte n ≠ .panic ∧
    ∀ x b', b.zByte n = .val (x, b') → b'.src.NoEmpty := by
  have hr := readByte_safe h
  have hf := fetch_safe h
  unfold Buf.zByte
  split
  · split
    · rename_i hb; exact ⟨by simp, by intro x b' h1; cases h1; exact hr.2 _ _ hb⟩
    · rename_i hb; exact ⟨by simp, by intro x b' h1; cases h1; exact hr.2 _ _ hb⟩
    · rename_i hb; exact absurd hb hr.1
    · simp
  · split
    · exact ⟨by simp, by intro x b' h1; cases h1; exact h⟩
    · split
      · rename_i hb; rw [hb] at hf; exact ⟨by simp, by intro x b' h1; cases h1; exact hf⟩
      · rename_i hb; rw [hb] at hf; exact ⟨by simp, by intro x b' h1; cases h1; exact hf⟩

theorem zFill_safe (want : Nat) : ∀ (f : Nat) {zr : ZRd Z} {b : Buf}, b.src.NoEmpty →
    zFill I want f zr b ≠ .panic ∧ ∀ zr' b', zFill I want f zr b = .val (zr', b') → b'.src.NoEmpty := by
  intro f
  induction f with
  | zero => intro zr b h; simp [zFill]
  | succ f ih =>
    intro zr b h
    rw [zFill]
    have done : (Exec.val (zr, b) : Exec (ZRd Z × Buf)) ≠ .panic ∧
        ∀ zr' b', (Exec.val (zr, b) : Exec (ZRd Z × Buf)) = .val (zr', b') → b'.src.NoEmpty := by
      refine ⟨by simp, ?_⟩
      intro zr' b' hb
      simp only [Exec.val.injEq, Prod.mk.injEq] at hb
      rw [← hb.2]; exact h
    split
    · exact done
    · split
      · exact done
      · split
        · exact done
        · exact done
        · have hr := zByte_safe (n := I.want zr.z) h
          split
          · rename_i hb; exact ih (hr.2 _ _ hb)
          · rename_i hb; exact ih (hr.2 _ _ hb)
          · rename_i hb; exact absurd hb hr.1
          · simp

theorem zRead_safe (f n : Nat) {zr : ZRd Z} {b : Buf} (h : b.src.NoEmpty) :
    zRead I f n zr b ≠ .panic ∧ ∀ x zr' b', zRead I f n zr b = .val (x, zr', b') → b'.src.NoEmpty := by
  have hf := zFill_safe I (max 1 (zr.sched.headD (1, false)).1) f (zr := zr) h
  unfold zRead
  split
  · rename_i hb
    have := hf.2 _ _ hb
    split
    · refine ⟨by simp, ?_⟩
      intro x zr' b' hx
      simp only [Exec.val.injEq, Prod.mk.injEq] at hx
      rw [← hx.2.2]; exact this
    · refine ⟨by simp, ?_⟩
      intro x zr' b' hx
      simp only [Exec.val.injEq, Prod.mk.injEq] at hx
      rw [← hx.2.2]; exact this
  · rename_i hb; exact absurd hb hf.1
  · simp

/-- What keeps the reader from panicking: the compressed reader is current only when it exists, and the transport
never returns `(0, nil)` or decompression was never on. -/
def Reader.Sound (r : Reader Z) : Prop :=
  (r.curZ = true → r.zlib.isSome = true ∧ r.orig.isSome = true) ∧
    (r.curZ = false ∨ ∀ b, r.orig = some b → b.src.NoEmpty)

theorem bufScan_safe {d : Byte} {b b' : Buf} {x} (h : b.scan d = (x, b')) (hb : b.src.NoEmpty) : b'.src.NoEmpty := by
  obtain ⟨s, buf⟩ := b
  cases buf with
  | cons c cs =>
    rcases hs : scanBuf d (c :: cs) with ⟨p, m, rest⟩
    simp only [Buf.scan, hs, Prod.mk.injEq] at h
    rw [← h.2]; exact hb
  | nil =>
    have hr := Src.NoEmpty.read readBuf hb
    simp only [Buf.scan, Buf.peek] at h
    rcases hx : Src.read readBuf s with ⟨⟨d', e⟩, s'⟩
    simp only [hx] at hr h
    cases d' with
    | nil =>
      cases e with
      | none => exact absurd rfl (hr.2 (by decide) rfl)
      | some e =>
        simp only [Prod.mk.injEq] at h
        rw [← h.2]; exact hr.1
    | cons c cs =>
      rcases hs : scanBuf d (c :: cs) with ⟨p, m, rest⟩
      simp only [hs, Prod.mk.injEq] at h
      rw [← h.2]; exact hr.1

/-- The original reader stays open, and stays free of empty results. -/
def Reader.Keeps (r r1 : Reader Z) : Prop :=
  r1.orig.isSome = true ∧ ((∀ b, r.orig = some b → b.src.NoEmpty) → ∀ b, r1.orig = some b → b.src.NoEmpty) ∧
    (r1.curZ = true → r.curZ = true)

theorem Reader.Keeps.trans {r r1 r2 : Reader Z} (h : r.Keeps r1) (h' : r1.Keeps r2) : r.Keeps r2 :=
  ⟨h'.1, fun hb => h'.2.1 (h.2.1 hb), fun hz => h.2.2 (h'.2.2 hz)⟩

theorem scan_safe {f : Nat} {r : Reader Z} {b : Buf} (hb : r.orig = some b) (hs : r.Sound) :
    r.scan I f b ≠ .panic ∧ ∀ x r1, r.scan I f b = .val (x, r1) → r1.Sound ∧ r.Keeps r1 := by
  unfold Reader.scan
  split
  · rename_i hc
    have hne : b.src.NoEmpty := by
      rcases hs.2 with h | h
      · rw [h] at hc; cases hc
      · exact h b hb
    have hz := hs.1 hc
    split
    · split
      · rename_i hn; rw [hn] at hz; simp at hz
      · rename_i zr hzr
        have hr := zRead_safe I f readBuf (zr := zr) hne
        unfold zPeek
        cases hx : zRead I f readBuf zr b with
        | panic => exact absurd hx hr.1
        | timeout => simp
        | val y =>
          obtain ⟨⟨d, e⟩, zr', b'⟩ := y
          have hb' := hr.2 _ _ _ hx
          cases d with
          | nil =>
            cases e with
            | none => exact absurd rfl ((zRead_weight I (by decide) hx).2 rfl)
            | some e =>
              refine ⟨by simp, ?_⟩
              intro x r1 h1
              simp only [Exec.val.injEq, Prod.mk.injEq] at h1
              obtain ⟨_, rfl⟩ := h1
              exact ⟨⟨fun _ => ⟨rfl, rfl⟩, .inr fun b1 h => by cases h; exact hb'⟩,
                rfl, fun _ b1 h => by cases h; exact hb', fun _ => hc⟩
          | cons c cs =>
            rcases hsb : scanBuf r.delim (c :: cs) with ⟨p, m, rest⟩
            refine ⟨by simp [hsb], ?_⟩
            intro x r1 h1
            simp only [hsb, Exec.val.injEq, Prod.mk.injEq] at h1
            obtain ⟨_, rfl⟩ := h1
            exact ⟨⟨fun _ => ⟨rfl, rfl⟩, .inr fun b1 h => by cases h; exact hb'⟩,
                rfl, fun _ b1 h => by cases h; exact hb', fun _ => hc⟩
    · rename_i c cs hcb
      rcases hsb : scanBuf r.delim (c :: cs) with ⟨p, m, rest⟩
      refine ⟨by simp, ?_⟩
      intro x r1 h1
      simp only [Exec.val.injEq, Prod.mk.injEq] at h1
      obtain ⟨_, rfl⟩ := h1
      exact ⟨hs, hz.2, fun h => h, fun h => h⟩
  · rename_i hc
    rcases hsb : b.scan r.delim with ⟨res, b'⟩
    refine ⟨by simp, ?_⟩
    intro x r1 h1
    simp only [Exec.val.injEq, Prod.mk.injEq] at h1
    obtain ⟨_, rfl⟩ := h1
    have hk : (∀ b, r.orig = some b → b.src.NoEmpty) →
        ∀ b1, some b' = some b1 → b1.src.NoEmpty := by
      intro h b1 h1
      cases h1
      exact bufScan_safe hsb (h b hb)
    refine ⟨⟨fun h => absurd h hc, .inl (by simpa using hc)⟩, rfl, hk, fun h => absurd h hc⟩

theorem readLoop_safe : ∀ (f : Nat) {line : Bytes} {r : Reader Z}, r.orig.isSome = true → r.Sound →
    r.readLoop I f line ≠ .panic ∧ ∀ x r1, r.readLoop I f line = .val (x, r1) → r1.Sound ∧ r.Keeps r1 := by
  intro f
  induction f with
  | zero => intro line r _ _; simp [Reader.readLoop]
  | succ f ih =>
    intro line r ho hs
    have self : r.Sound ∧ r.Keeps r := ⟨hs, ho, fun h => h, fun h => h⟩
    rw [Reader.readLoop]
    split
    · rename_i h; rw [h] at ho; cases ho
    · rename_i b hb
      split
      · refine ⟨by simp, ?_⟩
        intro x r1 h1
        simp only [Exec.val.injEq, Prod.mk.injEq] at h1
        obtain ⟨_, rfl⟩ := h1
        exact self
      · have hsc := scan_safe I (f := f) hb hs
        split
        · rename_i h; exact absurd h hsc.1
        · simp
        · rename_i pref more err r1 h1
          obtain ⟨hs1, hk1⟩ := hsc.2 _ _ h1
          have step : ∀ {r2 : Reader Z} {line' : Bytes}, r2.orig.isSome = true → r2.Sound → r.Keeps r2 →
              r2.readLoop I f line' ≠ .panic ∧ ∀ x r3, r2.readLoop I f line' = .val (x, r3) → r3.Sound ∧ r.Keeps r3 := by
            intro r2 line' ho2 hs2 hk2
            have := ih (line := line') ho2 hs2
            exact ⟨this.1, fun x r3 h3 => ⟨(this.2 x r3 h3).1, hk2.trans (this.2 x r3 h3).2⟩⟩
          have ret : ∀ y : Bytes × Option Err, (Exec.val (y, r1) : Exec ((Bytes × Option Err) × Reader Z)) ≠ .panic ∧
              ∀ x r3, (Exec.val (y, r1) : Exec ((Bytes × Option Err) × Reader Z)) = .val (x, r3) → r3.Sound ∧ r.Keeps r3 := by
            intro y
            refine ⟨by simp, ?_⟩
            intro x r3 h3
            simp only [Exec.val.injEq, Prod.mk.injEq] at h3
            obtain ⟨_, rfl⟩ := h3
            exact ⟨hs1, hk1⟩
          split
          · exact step (r2 := { r1 with curZ := false, zlibOn := false }) hk1.1
              ⟨by simp, .inl rfl⟩ ⟨hk1.1, hk1.2.1, by simp⟩
          · dsimp only
            split
            · exact ret _
            · split
              · exact step hk1.1 hs1 hk1
              · split
                · exact ret _
                · exact step hk1.1 hs1 hk1
                · exact ret _

theorem sound_closed {r : Reader Z} (h : r.orig = none) (hs : r.Sound) : r.curZ = false := by
  cases hc : r.curZ with
  | false => rfl
  | true => have := (hs.1 hc).2; rw [h] at this; cases this

/-- Closed or not, the reader stays so; the rest as in `Keeps`. -/
def Reader.Keeps' (r r1 : Reader Z) : Prop :=
  ((∀ b, r.orig = some b → b.src.NoEmpty) → ∀ b, r1.orig = some b → b.src.NoEmpty) ∧
    (r1.curZ = true → r.curZ = true)

theorem readLine_safe (f : Nat) {r : Reader Z} (hs : r.Sound) :
    r.readLine I f ≠ .panic ∧ ∀ x r1, r.readLine I f = .val (x, r1) → r1.Sound ∧ r.Keeps' r1 := by
  unfold Reader.readLine
  split
  · refine ⟨by simp, ?_⟩
    intro x r1 h1
    simp only [Exec.val.injEq, Prod.mk.injEq] at h1
    obtain ⟨_, rfl⟩ := h1
    exact ⟨hs, fun h => h, fun h => h⟩
  · rename_i b hb
    have := readLoop_safe I f (line := []) (by rw [hb]; rfl) hs
    exact ⟨this.1, fun x r1 h => ⟨(this.2 x r1 h).1, (this.2 x r1 h).2.2⟩⟩

theorem bufRead_safe {n : Nat} {b b' : Buf} {x} (h : b.read n = (x, b')) (hb : b.src.NoEmpty) : b'.src.NoEmpty := by
  obtain ⟨s, buf⟩ := b
  cases buf with
  | cons c cs =>
    simp only [Buf.read, Prod.mk.injEq] at h
    rw [← h.2]; exact hb
  | nil =>
    simp only [Buf.read, Prod.mk.injEq] at h
    rw [← h.2]; exact (Src.NoEmpty.read n hb).1

theorem curRead_safe {f n : Nat} {r : Reader Z} {b : Buf} (hb : r.orig = some b) (hs : r.Sound) :
    r.curRead I f n b ≠ .panic ∧ ∀ x r1, r.curRead I f n b = .val (x, r1) → r1.Sound ∧ r.Keeps r1 := by
  unfold Reader.curRead
  split
  · rename_i hc
    have hne : b.src.NoEmpty := by
      rcases hs.2 with h | h
      · rw [h] at hc; cases hc
      · exact h b hb
    have hz := hs.1 hc
    split
    · split
      · rename_i hn; rw [hn] at hz; simp at hz
      · rename_i zr hzr
        have hr := zRead_safe I f n (zr := zr) hne
        cases hx : zRead I f n zr b with
        | panic => exact absurd hx hr.1
        | timeout => simp
        | val y =>
          obtain ⟨res, zr', b'⟩ := y
          have hb' := hr.2 _ _ _ hx
          refine ⟨by simp, ?_⟩
          intro x r1 h1
          simp only [Exec.val.injEq, Prod.mk.injEq] at h1
          obtain ⟨_, rfl⟩ := h1
          exact ⟨⟨fun _ => ⟨rfl, rfl⟩, .inr fun b1 h => by cases h; exact hb'⟩,
            rfl, fun _ b1 h => by cases h; exact hb', fun _ => hc⟩
    · refine ⟨by simp, ?_⟩
      intro x r1 h1
      simp only [Exec.val.injEq, Prod.mk.injEq] at h1
      obtain ⟨_, rfl⟩ := h1
      exact ⟨hs, hz.2, fun h => h, fun h => h⟩
  · rename_i hc
    rcases hsb : b.read n with ⟨res, b'⟩
    refine ⟨by simp, ?_⟩
    intro x r1 h1
    simp only [Exec.val.injEq, Prod.mk.injEq] at h1
    obtain ⟨_, rfl⟩ := h1
    refine ⟨⟨fun h => absurd h hc, .inl (by simpa using hc)⟩, rfl, ?_, fun h => absurd h hc⟩
    intro h b1 h1
    cases h1
    exact bufRead_safe hsb (h b hb)

theorem read_safe (f n : Nat) {r : Reader Z} (hs : r.Sound) :
    r.read I f n ≠ .panic ∧ ∀ x r1, r.read I f n = .val (x, r1) → r1.Sound ∧ r.Keeps' r1 := by
  unfold Reader.read
  split
  · refine ⟨by simp, ?_⟩
    intro x r1 h1
    simp only [Exec.val.injEq, Prod.mk.injEq] at h1
    obtain ⟨_, rfl⟩ := h1
    exact ⟨hs, fun h => h, fun h => h⟩
  · rename_i b hb
    have hc := curRead_safe I (f := f) (n := n) hb hs
    split
    · rename_i h; exact absurd h hc.1
    · simp
    · rename_i d err r1 h1
      obtain ⟨hs1, hk1⟩ := hc.2 _ _ h1
      split
      · split
        · refine ⟨by simp, ?_⟩
          intro x r2 h2
          simp only [Exec.val.injEq, Prod.mk.injEq] at h2
          obtain ⟨_, rfl⟩ := h2
          exact ⟨⟨by simp, .inl rfl⟩, hk1.2.1, by simp⟩
        · dsimp only
          split
          · rename_i h; have := hk1.1; rw [h] at this; cases this
          · rename_i b2 hb2
            rcases hsb : b2.read n with ⟨res, b'⟩
            refine ⟨by simp, ?_⟩
            intro x r2 h2
            simp only [Exec.val.injEq, Prod.mk.injEq] at h2
            obtain ⟨_, rfl⟩ := h2
            refine ⟨⟨by simp, .inl rfl⟩, ?_, by simp⟩
            intro h b3 h3
            cases h3
            exact bufRead_safe hsb (hk1.2.1 h b2 hb2)
      · refine ⟨by simp, ?_⟩
        intro x r2 h2
        simp only [Exec.val.injEq, Prod.mk.injEq] at h2
        obtain ⟨_, rfl⟩ := h2
        exact ⟨hs1, hk1.2⟩

theorem readFull_safe : ∀ (f n : Nat) (acc : Bytes) (b : Buf),
    b.readFull f n acc ≠ .panic ∧ ∀ d e b', b.readFull f n acc = .val ((d, e), b') →
      (b.src.NoEmpty → b'.src.NoEmpty) ∧ (e = none → d.length = acc.length + n) := by
  intro f
  induction f with
  | zero =>
    intro n acc b
    cases n with
    | zero => 
      refine ⟨by simp [Buf.readFull], ?_⟩
      intro d e b' h
      simp only [Buf.readFull, Exec.val.injEq, Prod.mk.injEq] at h
      obtain ⟨⟨rfl, rfl⟩, rfl⟩ := h
      exact ⟨fun h => h, fun _ => rfl⟩
    | succ n => simp [Buf.readFull]
  | succ f ih =>
    intro n acc b
    cases n with
    | zero =>
      refine ⟨by simp [Buf.readFull], ?_⟩
      intro d e b' h
      simp only [Buf.readFull, Exec.val.injEq, Prod.mk.injEq] at h
      obtain ⟨⟨rfl, rfl⟩, rfl⟩ := h
      exact ⟨fun h => h, fun _ => rfl⟩
    | succ n =>
      rw [Buf.readFull]
      rcases hr : b.read (n + 1) with ⟨⟨d, e⟩, b'⟩
      have hl : d.length ≤ n + 1 := by
        obtain ⟨s, buf⟩ := b
        cases buf with
        | nil =>
          simp only [Buf.read, Prod.mk.injEq] at hr
          have : (s.read (n + 1)).1.1.length ≤ n + 1 := by
            cases s with
            | nil => simp [Src.read]
            | cons ev s => simp only [Src.read]; split <;> simp <;> omega
          rw [hr.1] at this; exact this
        | cons c cs =>
          simp only [Buf.read, Prod.mk.injEq] at hr
          rw [← hr.1.1]; simp; omega
      dsimp only
      split
      · refine ⟨by simp, ?_⟩
        intro d2 e2 b2 h
        simp only [Exec.val.injEq, Prod.mk.injEq] at h
        obtain ⟨⟨rfl, rfl⟩, rfl⟩ := h
        refine ⟨bufRead_safe hr, fun _ => ?_⟩
        simp; omega
      · split
        · refine ⟨by simp, ?_⟩
          intro d2 e2 b2 h
          simp only [Exec.val.injEq, Prod.mk.injEq] at h
          obtain ⟨⟨rfl, rfl⟩, rfl⟩ := h
          exact ⟨bufRead_safe hr, by simp⟩
        · have := ih (n + 1 - d.length) (acc ++ d) b'
          refine ⟨this.1, ?_⟩
          intro d2 e2 b2 h
          obtain ⟨h1, h2⟩ := this.2 _ _ _ h
          refine ⟨fun h => h1 (bufRead_safe hr h), fun he => ?_⟩
          rw [h2 he]; simp; omega

theorem enableZlib_safe (f : Nat) (sched : List (Nat × Bool)) {r : Reader Z} (hs : r.Sound)
    (hne : ∀ b, r.orig = some b → b.src.NoEmpty) :
    r.enableZlib I f sched ≠ .panic ∧ ∀ x r1, r.enableZlib I f sched = .val (x, r1) →
      r1.Sound ∧ ∀ b, r1.orig = some b → b.src.NoEmpty := by
  unfold Reader.enableZlib
  split
  · refine ⟨by simp, ?_⟩
    intro x r1 h1
    simp only [Exec.val.injEq, Prod.mk.injEq] at h1
    obtain ⟨_, rfl⟩ := h1
    exact ⟨hs, hne⟩
  · rename_i b hb
    split
    · refine ⟨by simp, ?_⟩
      intro x r1 h1
      simp only [Exec.val.injEq, Prod.mk.injEq] at h1
      obtain ⟨_, rfl⟩ := h1
      exact ⟨hs, hne⟩
    · have hr := readFull_safe f 2 [] b
      have good : ∀ {b' : Buf}, b'.src.NoEmpty →
          ({ r with zlibOn := true, orig := some b' } : Reader Z).Sound ∧
          ∀ b1, some b' = some b1 → b1.src.NoEmpty := by
        intro b' h'
        have : ∀ b1, some b' = some b1 → b1.src.NoEmpty := by intro b1 h1; cases h1; exact h'
        exact ⟨⟨fun h => ⟨(hs.1 h).1, rfl⟩, .inr this⟩, this⟩
      split
      · rename_i h; exact absurd h hr.1
      · simp
      · rename_i h e b' hx
        refine ⟨by simp, ?_⟩
        intro x r1 h1
        simp only [Exec.val.injEq, Prod.mk.injEq] at h1
        obtain ⟨_, rfl⟩ := h1
        exact good ((hr.2 _ _ _ hx).1 (hne b hb))
      · rename_i h b' hx
        obtain ⟨h1, h2⟩ := hr.2 _ _ _ hx
        have h3 := h2 rfl
        have hb' := h1 (hne b hb)
        split
        · split
          · refine ⟨by simp, ?_⟩
            intro x r1 h1
            simp only [Exec.val.injEq, Prod.mk.injEq] at h1
            obtain ⟨_, rfl⟩ := h1
            exact good hb'
          · refine ⟨by simp, ?_⟩
            intro x r1 h1
            simp only [Exec.val.injEq, Prod.mk.injEq] at h1
            obtain ⟨_, rfl⟩ := h1
            exact ⟨⟨fun _ => ⟨rfl, rfl⟩, .inr (good hb').2⟩, (good hb').2⟩
        · rename_i hn
          exfalso
          match h, h3, hn with
          | [a, c], _, hn => exact hn a c rfl

theorem binRead_safe (f n left : Nat) {r : Reader Z} (hs : r.Sound) :
    r.binRead I f n left ≠ .panic ∧ ∀ x l r1, r.binRead I f n left = .val (x, l, r1) → r1.Sound ∧ r.Keeps' r1 := by
  have hr := read_safe I f (min n left) hs
  unfold Reader.binRead
  split
  · refine ⟨by simp, ?_⟩
    intro x l r1 h1
    simp only [Exec.val.injEq, Prod.mk.injEq] at h1
    obtain ⟨_, _, rfl⟩ := h1
    exact ⟨hs, fun h => h, fun h => h⟩
  · split
    · rename_i hx
      refine ⟨by simp, ?_⟩
      intro x l r1 h1
      simp only [Exec.val.injEq, Prod.mk.injEq] at h1
      obtain ⟨_, _, rfl⟩ := h1
      exact hr.2 _ _ hx
    · rename_i h; exact absurd h hr.1
    · simp

theorem binClose_safe : ∀ (f left : Nat) {r : Reader Z}, r.Sound →
    r.binClose I f left ≠ .panic ∧ ∀ x r1, r.binClose I f left = .val (x, r1) → r1.Sound ∧ r.Keeps' r1 := by
  intro f
  induction f with
  | zero => intro left r _; simp [Reader.binClose]
  | succ f ih =>
    intro left r hs
    have hr := binRead_safe I f 8192 left hs
    rw [Reader.binClose]
    split
    · rename_i hx
      refine ⟨by simp, ?_⟩
      intro x r1 h1
      simp only [Exec.val.injEq, Prod.mk.injEq] at h1
      obtain ⟨_, rfl⟩ := h1
      exact hr.2 _ _ _ hx
    · rename_i left' _ hx
      obtain ⟨h1, h2⟩ := hr.2 _ _ _ hx
      have := ih left' h1
      refine ⟨this.1, ?_⟩
      intro x r1 h3
      obtain ⟨h4, h5⟩ := this.2 _ _ h3
      exact ⟨h4, fun hb => h5.1 (h2.1 hb), fun hz => h2.2 (h5.2 hz)⟩
    · rename_i h; exact absurd h hr.1
    · simp

end Verif.Lineproto
