import Verif.Lineproto.WriterMemory

/-!
# The writer with memory does what the writer of values does
-/

namespace Verif.Lineproto.Mem

open Verif.Lineproto

variable {D : Type} (C : Deflater D)

/-- The writer as a value. -/
def MWriter.abs (h : Heap) (m : MWriter D) : Writer D :=
  { m.w with bw := m.bw.map fun b => ⟨b.size, (h.mem b.arr).take b.n, b.berr⟩, onLine := [] }

/-- The buffer is as long as it should be. -/
def MWriter.Inv (h : Heap) (m : MWriter D) : Prop := ∀ b, m.bw = some b → b.n ≤ b.size ∧ (h.mem b.arr).length = b.size

/-- `a` is the array of the buffer. -/
def MWriter.Own (m : MWriter D) (a : Nat) : Prop := ∃ b, m.bw = some b ∧ b.arr = a

/-- What a step of the writer may do to the memory. -/
structure WGood (m : MWriter D) (h : Heap) (m' : MWriter D) (h' : Heap) : Prop where
  inv : m'.Inv h'
  own : ∀ a, m'.Own a → m.Own a
  frame : ∀ a, ¬ m.Own a → h'.mem a = h.mem a
  next : h'.next = h.next

theorem WGood.refl {m : MWriter D} {h : Heap} (i : m.Inv h) : WGood m h m h := ⟨i, fun _ x => x, fun _ _ => rfl, rfl⟩

theorem WGood.trans {m m' m'' : MWriter D} {h h' h'' : Heap} (x : WGood m h m' h') (y : WGood m' h' m'' h'') : WGood m h m'' h'' :=
  ⟨y.inv, fun a o => x.own a (y.own a o), fun a o => (y.frame a fun o' => o (x.own a o')).trans (x.frame a o), y.next.trans x.next⟩

/-- The two models agree. -/
def WSim (m : MWriter D) (h : Heap) (x : Exec (α × MWriter D × Heap)) (y : Exec (α × Writer D)) : Prop :=
  (x = .panic ∧ y = .panic) ∨ (x = .timeout ∧ y = .timeout)
    ∨ ∃ a m' h', x = .val (a, m', h') ∧ y = .val (a, m'.abs h') ∧ WGood m h m' h'

theorem WSim.val {m m' : MWriter D} {h h' : Heap} {a b : α} {w : Writer D} (e : a = b) (e' : m'.abs h' = w) (g : WGood m h m' h') :
    WSim m h (.val (a, m', h')) (.val (b, w)) := .inr (.inr ⟨a, m', h', rfl, by rw [e, e'], g⟩)

theorem WSim.panic {m : MWriter D} {h : Heap} : WSim (α := α) m h .panic .panic := .inl ⟨rfl, rfl⟩

theorem WSim.timeout {m : MWriter D} {h : Heap} : WSim (α := α) m h .timeout .timeout := .inr (.inl ⟨rfl, rfl⟩)

theorem WSim.trans {m m' : MWriter D} {h h' : Heap} {x : Exec (α × MWriter D × Heap)} {y : Exec (α × Writer D)} (g : WGood m h m' h')
    (s : WSim m' h' x y) : WSim m h x y := by
  rcases s with s | s | ⟨a, m'', h'', s1, s2, s3⟩
  · exact .inl s
  · exact .inr (.inl s)
  · exact .inr (.inr ⟨a, m'', h'', s1, s2, g.trans s3⟩)

theorem curWrite_bw (p : Bytes) (w : Writer D) (b : Option BW) :
    ({ w with bw := b, onLine := [] } : Writer D).curWrite C p
      = match w.curWrite C p with
        | .val (r, w') => .val (r, { w' with bw := b, onLine := [] })
        | .panic => .panic
        | .timeout => .timeout := by
  simp only [Writer.curWrite]
  cases w.curZ <;> cases w.zlibW <;> simp

theorem curWrite_le {p : Bytes} {w w' : Writer D} {k : Nat} {e : Option Err} (h : w.curWrite C p = .val ((k, e), w')) : k ≤ p.length := by
  simp only [Writer.curWrite] at h
  split at h
  · split at h
    · simp at h
    · simp only [Exec.val.injEq, Prod.mk.injEq] at h
      obtain ⟨⟨h, _⟩, _⟩ := h
      rw [← h]
      split <;> simp
  · simp only [Exec.val.injEq, Prod.mk.injEq] at h
    obtain ⟨h, _⟩ := h
    simp only [Sink.write] at h
    split at h <;> simp only [Prod.mk.injEq] at h <;> omega

theorem set_mem (h : Heap) (a x : Nat) (v : Bytes) : (h.set a v).mem x = if x = a then v else h.mem x := rfl

theorem copyIn_ok {h : Heap} {b : MBW} {p : Bytes} (i : b.n ≤ b.size ∧ (h.mem b.arr).length = b.size) :
    (b.copyIn h p).1.arr = b.arr ∧ (b.copyIn h p).1.size = b.size ∧ (b.copyIn h p).1.berr = b.berr
      ∧ ((b.copyIn h p).2.mem b.arr).take (b.copyIn h p).1.n = (h.mem b.arr).take b.n ++ p.take (b.size - b.n)
      ∧ (b.copyIn h p).1.n ≤ b.size ∧ ((b.copyIn h p).2.mem b.arr).length = b.size
      ∧ (∀ a, a ≠ b.arr → (b.copyIn h p).2.mem a = h.mem a) ∧ (b.copyIn h p).2.next = h.next := by
  obtain ⟨i1, i2⟩ := i
  refine ⟨rfl, rfl, rfl, ?_, ?_, ?_, ?_, rfl⟩
  · simp only [MBW.copyIn, set_mem, if_true]
    rw [List.take_append_of_le_length (by simp; omega), List.take_of_length_le (by simp; omega)]
  · simp only [MBW.copyIn, List.length_take]; omega
  · simp only [MBW.copyIn, set_mem, if_true, List.length_append, List.length_take, List.length_drop]; omega
  · intro a ha
    simp [MBW.copyIn, set_mem, ha]

/-- The writer after its buffer has changed. -/
theorem good_bw {m : MWriter D} {h h' : Heap} {b b' : MBW} {w : Writer D} (hb : m.bw = some b) (ha : b'.arr = b.arr)
    (i : b'.n ≤ b'.size ∧ (h'.mem b'.arr).length = b'.size) (fr : ∀ a, a ≠ b.arr → h'.mem a = h.mem a) (nx : h'.next = h.next) :
    WGood m h ⟨w, some b'⟩ h' := by
  refine ⟨?_, ?_, ?_, nx⟩
  · intro x hx; cases hx; exact i
  · rintro a ⟨x, hx, rfl⟩; cases hx; exact ⟨b, hb, ha.symm⟩
  · intro a no; exact fr a fun e => no ⟨b, hb, e.symm⟩

theorem bwFlush_sim {m : MWriter D} {h : Heap} (i : m.Inv h) : WSim m h (m.bwFlush C h) ((m.abs h).bwFlush C) := by
  obtain ⟨w, bw⟩ := m
  cases bw with
  | none => exact .panic
  | some b =>
    have ib := i b rfl
    simp only [MWriter.bwFlush, MWriter.abs, Writer.bwFlush, Option.map_some]
    cases hb : b.berr with
    | some e => exact .val rfl (by simp [MWriter.abs, hb]) (WGood.refl i)
    | none =>
      simp only []
      have l : ((h.mem b.arr).take b.n).length = b.n := by simp; omega
      by_cases hn : b.n = 0
      · rw [if_pos hn, if_pos (by simp [hn])]
        exact .val rfl (by simp [MWriter.abs, hb]) (WGood.refl i)
      · rw [if_neg hn, if_neg (by intro hh; rw [hh] at l; simp at l; omega), curWrite_bw]
        cases hc : w.curWrite C ((h.mem b.arr).take b.n) with
        | panic => exact .panic
        | timeout => exact .timeout
        | val x =>
          obtain ⟨⟨k, e⟩, w'⟩ := x
          have hk := curWrite_le C hc
          rw [l] at hk
          simp only [l]
          cases (if k < b.n ∧ e = none then some Err.shortWrite else e) with
          | none => exact .val rfl (by simp [MWriter.abs]) (good_bw rfl rfl ⟨by simp, ib.2⟩ (fun _ _ => rfl) rfl)
          | some e =>
            refine .val rfl ?_ (good_bw rfl rfl ⟨?_, ?_⟩ ?_ rfl)
            · simp only [MWriter.abs, Option.map_some, set_mem, if_true]
              rw [List.take_append_of_le_length (by simp; omega), List.take_of_length_le (by simp; omega)]
            · simp only; omega
            · simp only [set_mem, if_true, List.length_append, List.length_drop, List.length_take]; omega
            · intro a ha; simp [set_mem, ha]

theorem win_len {h : Heap} {p : Win} (hp : p.off + p.len ≤ (h.mem p.arr).length) : (p.bytes h).length = p.len := by
  simp [Win.bytes]; omega

theorem win_drop {h : Heap} {p : Win} {k : Nat} : (p.drop k).bytes h = (p.bytes h).drop k := by
  simp only [Win.bytes, Win.drop, List.drop_take, List.drop_drop]

theorem win_frame {h h' : Heap} {p : Win} (e : h'.mem p.arr = h.mem p.arr) : p.bytes h' = p.bytes h := by simp [Win.bytes, e]

/-- The slice is within its array. -/
def Win.In (h : Heap) (p : Win) : Prop := p.off + p.len ≤ (h.mem p.arr).length

/-- The loops agree. -/
def LoopSim (p : Win) (m : MWriter D) (h : Heap) (x : Exec (Win × MWriter D × Heap)) (y : Exec (Bytes × Writer D)) : Prop :=
  (x = .panic ∧ y = .panic) ∨ (x = .timeout ∧ y = .timeout)
    ∨ ∃ p' m' h', x = .val (p', m', h') ∧ y = .val (p'.bytes h', m'.abs h') ∧ WGood m h m' h' ∧ p'.arr = p.arr ∧ p'.In h'
        ∧ ∀ b, m'.bw = some b → b.berr = none → p'.len ≤ b.size - b.n

theorem LoopSim.trans {p p' : Win} {m m' : MWriter D} {h h' : Heap} {x : Exec (Win × MWriter D × Heap)} {y : Exec (Bytes × Writer D)}
    (g : WGood m h m' h') (e : p'.arr = p.arr) (s : LoopSim p' m' h' x y) : LoopSim p m h x y := by
  rcases s with s | s | ⟨q, m'', h'', s1, s2, s3, s4, s5, s6⟩
  · exact .inl s
  · exact .inr (.inl s)
  · exact .inr (.inr ⟨q, m'', h'', s1, s2, g.trans s3, s4.trans e, s5, s6⟩)

theorem bwLoop_sim : ∀ (fuel : Nat) (p : Win) (h : Heap) (m : MWriter D), m.Inv h → ¬ m.Own p.arr → p.In h →
    LoopSim p m h (m.bwLoop C fuel p h) ((m.abs h).bwLoop C fuel (p.bytes h))
  | 0, _, _, _, _, _, _ => .inr (.inl ⟨rfl, rfl⟩)
  | fuel + 1, p, h, m, i, no, hp => by
    obtain ⟨w, bw⟩ := m
    cases bw with
    | none => exact .inl ⟨rfl, rfl⟩
    | some b =>
      have ib := i b rfl
      have na : p.arr ≠ b.arr := fun e => no ⟨b, rfl, e.symm⟩
      have l : ((h.mem b.arr).take b.n).length = b.n := by simp; omega
      have lp := win_len hp
      simp only [MWriter.bwLoop, MWriter.abs, Writer.bwLoop, Option.map_some, l, lp]
      by_cases hc : b.size - b.n < p.len ∧ b.berr = none
      · rw [if_pos hc, if_pos hc]
        by_cases hn : b.n = 0
        · rw [if_pos hn, if_pos (by simp [hn]), curWrite_bw]
          cases hw : w.curWrite C (p.bytes h) with
          | panic => exact .inl ⟨rfl, rfl⟩
          | timeout => exact .inr (.inl ⟨rfl, rfl⟩)
          | val x =>
            obtain ⟨⟨k, e⟩, w'⟩ := x
            have hk := curWrite_le C hw
            rw [lp] at hk
            have g : WGood (⟨w, some b⟩ : MWriter D) h ⟨w', some { b with berr := e }⟩ h :=
              good_bw rfl rfl ⟨ib.1, ib.2⟩ (fun _ _ => rfl) rfl
            have ih := bwLoop_sim fuel (p.drop k) h ⟨w', some { b with berr := e }⟩ g.inv (fun o => no (g.own _ o))
              (by simp only [Win.In, Win.drop] at hp ⊢; omega)
            simp only [win_drop, MWriter.abs, Option.map_some] at ih
            exact ih.trans g rfl
        · rw [if_neg hn, if_neg (by intro hh; rw [hh] at l; simp at l; omega)]
          obtain ⟨c1, c2, c3, c4, c5, c6, c7, c8⟩ := copyIn_ok (p := p.bytes h) ib
          cases hcp : b.copyIn h (p.bytes h) with
          | mk b' h' =>
          rw [hcp] at c1 c2 c3 c4 c5 c6 c7 c8
          simp only at c1 c2 c3 c4 c5 c6 c7 c8
          have g : WGood (⟨w, some b⟩ : MWriter D) h ⟨w, some b'⟩ h' :=
            good_bw rfl c1 ⟨by omega, by rw [c1, c2]; exact c6⟩ c7 c8
          have ab : (⟨w, some b'⟩ : MWriter D).abs h'
              = { w with bw := some ⟨b.size, (h.mem b.arr).take b.n ++ (p.bytes h).take (b.size - b.n), b.berr⟩, onLine := [] } := by
            simp only [MWriter.abs, Option.map_some, c1, c2, c3, c4]
          have f := bwFlush_sim C g.inv
          rw [ab] at f
          rcases f with ⟨f1, f2⟩ | ⟨f1, f2⟩ | ⟨a, m', h'', f1, f2, g'⟩
          · rw [f1, f2]; exact .inl ⟨rfl, rfl⟩
          · rw [f1, f2]; exact .inr (.inl ⟨rfl, rfl⟩)
          · rw [f1, f2]
            have gg := g.trans g'
            have fr := gg.frame p.arr no
            have ih := bwLoop_sim fuel (p.drop (b.size - b.n)) h'' m' g'.inv (fun o => no (gg.own _ o))
              (by simp only [Win.In, Win.drop, fr] at hp ⊢; omega)
            rw [win_drop, win_frame fr] at ih
            exact ih.trans gg rfl
      · rw [if_neg hc, if_neg hc]
        refine .inr (.inr ⟨p, _, h, rfl, rfl, WGood.refl i, rfl, hp, ?_⟩)
        intro b' hb' he
        cases hb'
        simp only [he, and_true, Nat.not_lt] at hc
        exact hc

theorem bwWrite_sim {p : Win} {m : MWriter D} {h : Heap} (i : m.Inv h) (no : ¬ m.Own p.arr) (hp : p.In h) :
    WSim m h (m.bwWrite C p h) ((m.abs h).bwWrite C (p.bytes h)) := by
  simp only [MWriter.bwWrite, Writer.bwWrite, win_len hp]
  rcases bwLoop_sim C (p.len + 3) p h m i no hp with ⟨f1, f2⟩ | ⟨f1, f2⟩ | ⟨p', m', h', f1, f2, g, f4, f5, f6⟩
  · rw [f1, f2]; exact .panic
  · rw [f1, f2]; exact .timeout
  · rw [f1, f2]
    obtain ⟨w, bw⟩ := m'
    cases bw with
    | none => exact .panic
    | some b =>
      simp only [MWriter.abs, Option.map_some]
      have ib := g.inv b rfl
      cases hb : b.berr with
      | some e => exact .val rfl (by simp [MWriter.abs, hb]) g
      | none =>
        have fits := f6 b rfl hb
        obtain ⟨c1, c2, c3, c4, c5, c6, c7, c8⟩ := copyIn_ok (p := p'.bytes h') ib
        cases hcp : b.copyIn h' (p'.bytes h') with
        | mk b' h'' =>
        rw [hcp] at c1 c2 c3 c4 c5 c6 c7 c8
        simp only at c1 c2 c3 c4 c5 c6 c7 c8
        refine .val rfl ?_ (g.trans (good_bw rfl c1 ⟨by simp only; omega, by rw [c1, c2]; exact c6⟩ c7 c8))
        simp only [MWriter.abs, Option.map_some, c1, c2, c3, c4, hb]
        rw [List.take_of_length_le (l := p'.bytes h') (by rw [win_len f5]; exact fits)]

theorem WGood.ofW {m : MWriter D} {h : Heap} {w : Writer D} (i : m.Inv h) : WGood m h { m with w } h :=
  ⟨i, fun _ x => x, fun _ _ => rfl, rfl⟩

theorem WGood.reset {m : MWriter D} {h : Heap} (i : m.Inv h) : WGood m h m.bwReset h := by
  refine ⟨?_, ?_, fun _ _ => rfl, rfl⟩
  · intro b hb
    obtain ⟨w, bw⟩ := m
    cases bw with
    | none => simp [MWriter.bwReset] at hb
    | some b0 =>
      simp only [MWriter.bwReset, Option.map_some, Option.some.injEq] at hb
      subst hb
      exact ⟨by simp, (i b0 rfl).2⟩
  · rintro a ⟨b, hb, rfl⟩
    obtain ⟨w, bw⟩ := m
    cases bw with
    | none => simp [MWriter.bwReset] at hb
    | some b0 =>
      simp only [MWriter.bwReset, Option.map_some, Option.some.injEq] at hb
      subst hb
      exact ⟨b0, rfl, rfl⟩

theorem abs_reset (m : MWriter D) (h : Heap) : m.bwReset.abs h = (m.abs h).bwReset := by
  obtain ⟨w, bw⟩ := m
  cases bw <;> simp [MWriter.bwReset, Writer.bwReset, MWriter.abs]

theorem timeout_abs (m : MWriter D) (h : Heap) :
    (m.abs h).timeout = (m.w.timeout.1, { m with w := m.w.timeout.2 }.abs h) := by
  obtain ⟨w, bw⟩ := m
  obtain ⟨onLine, sink, tmo, curZ, bw', err, zlibOn, zlibW, lvl⟩ := w
  cases tmo <;> rfl

theorem flush_sim {m : MWriter D} {h : Heap} (i : m.Inv h) : WSim m h (m.flush C h) ((m.abs h).flush C) := by
  simp only [MWriter.flush, Writer.flush]
  have e : (m.abs h).err = m.w.err := rfl
  rw [e]
  cases m.w.err with
  | some e => exact .val rfl rfl (WGood.refl i)
  | none =>
    simp only [timeout_abs]
    cases ht : m.w.timeout with
    | mk t w =>
    cases t with
    | some e => exact .val rfl rfl (WGood.ofW i)
    | none =>
      simp only []
      refine WSim.trans (WGood.ofW (w := w) i) ?_
      generalize hm : ({ m with w } : MWriter D) = m1
      have i1 : m1.Inv h := by rw [← hm]; exact i
      rcases bwFlush_sim C i1 with ⟨f1, f2⟩ | ⟨f1, f2⟩ | ⟨a, m', h', f1, f2, g⟩
      · rw [f1, f2]; exact .panic
      · rw [f1, f2]; exact .timeout
      · rw [f1, f2]
        cases a with
        | some e => exact .val rfl rfl (g.trans (WGood.ofW g.inv))
        | none =>
          simp only [show (m'.abs h').zlibOn = m'.w.zlibOn from rfl, show (m'.abs h').zlibW = m'.w.zlibW from rfl,
            show (m'.abs h').sink = m'.w.sink from rfl]
          cases m'.w.zlibOn with
          | false => exact .val rfl rfl g
          | true =>
            simp only [if_true]
            cases m'.w.zlibW with
            | none => exact .panic
            | some z =>
              simp only []
              cases z.call C.flush m'.w.sink with
              | mk e zs =>
                cases e <;> exact .val rfl rfl (g.trans (WGood.ofW g.inv))

theorem lineCore_sim {p : Win} {m : MWriter D} {h : Heap} (i : m.Inv h) (no : ¬ m.Own p.arr) (hp : p.In h) :
    WSim m h (m.writeLine C [] p h) ((m.abs h).writeLine C (p.bytes h)) := by
  simp only [MWriter.writeLine, Writer.writeLine, runMHooks, show (m.abs h).onLine = [] from rfl, runHooks]
  have e : (m.abs h).err = m.w.err := rfl
  rw [e]
  cases m.w.err with
  | some e => exact .val rfl rfl (WGood.refl i)
  | none =>
    simp only [timeout_abs]
    cases ht : m.w.timeout with
    | mk t w =>
    cases t with
    | some e => exact .val rfl rfl (WGood.ofW i)
    | none =>
      simp only []
      refine WSim.trans (WGood.ofW (w := w) i) ?_
      generalize hm : ({ m with w } : MWriter D) = m1
      have i1 : m1.Inv h := by rw [← hm]; exact i
      have n1 : ¬ m1.Own p.arr := by rw [← hm]; exact no
      rcases bwWrite_sim C i1 n1 hp with ⟨f1, f2⟩ | ⟨f1, f2⟩ | ⟨a, m', h', f1, f2, g⟩
      · rw [f1, f2]; exact .panic
      · rw [f1, f2]; exact .timeout
      · rw [f1, f2]
        cases a with
        | some e => exact .val rfl rfl (g.trans (WGood.ofW g.inv))
        | none => exact .val rfl rfl g

theorem write_sim {p : Win} {m : MWriter D} {h : Heap} (i : m.Inv h) (no : ¬ m.Own p.arr) :
    WSim m h (m.write C p h) ((m.abs h).write C (p.bytes h)) := by
  have direct : ∀ {m' : MWriter D} {h' : Heap}, WGood m h m' h' →
      WSim m h (match m'.w.curWrite C (p.bytes h') with
        | .panic => .panic
        | .timeout => .timeout
        | .val (r, w) => .val (r, { m' with w }, h')) ((m'.abs h').curWrite C (p.bytes h)) := by
    intro m' h' g
    rw [win_frame (g.frame p.arr no)]
    have := curWrite_bw C (p.bytes h) m'.w (m'.abs h').bw
    rw [show ({ m'.w with bw := (m'.abs h').bw, onLine := [] } : Writer D) = m'.abs h' from rfl] at this
    rw [this]
    cases m'.w.curWrite C (p.bytes h) with
    | panic => exact .panic
    | timeout => exact .timeout
    | val x => exact .val rfl rfl (g.trans (WGood.ofW g.inv))
  simp only [MWriter.write, Writer.write]
  rw [show (m.abs h).err = m.w.err from rfl]
  cases m.w.err with
  | some e => exact .val rfl rfl (WGood.refl i)
  | none =>
    cases hb : m.bw with
    | none =>
      rw [show (m.abs h).bw = none by simp [MWriter.abs, hb]]
      exact .panic
    | some b =>
      rw [show (m.abs h).bw = some ⟨b.size, (h.mem b.arr).take b.n, b.berr⟩ by simp [MWriter.abs, hb]]
      have ib := i b hb
      have l : ((h.mem b.arr).take b.n).length = b.n := by simp; omega
      simp only []
      by_cases hn : b.n = 0
      · rw [if_neg (by simp [hn]), if_neg (by simp [hn])]
        have := direct (WGood.refl i)
        rw [hb] at this
        exact this
      · rw [if_pos hn, if_pos (by intro hh; rw [hh] at l; simp at l; omega)]
        rcases flush_sim C i with ⟨f1, f2⟩ | ⟨f1, f2⟩ | ⟨a, m', h', f1, f2, g⟩
        · rw [f1, f2]; exact .panic
        · rw [f1, f2]; exact .timeout
        · rw [f1, f2]
          cases a with
          | some e => exact .val rfl rfl g
          | none => exact direct g

theorem enable_sim {lvl : Int} {m : MWriter D} {h : Heap} (i : m.Inv h) :
    WSim m h (m.enableZlib C lvl h) ((m.abs h).enableZlib C lvl) := by
  simp only [MWriter.enableZlib, Writer.enableZlib]
  rw [show (m.abs h).err = m.w.err from rfl, show (m.abs h).zlibOn = m.w.zlibOn from rfl]
  cases m.w.err with
  | some e => exact .val rfl rfl (WGood.refl i)
  | none =>
    cases m.w.zlibOn with
    | true => exact .val rfl rfl (WGood.refl i)
    | false =>
      simp only [Bool.false_eq_true, if_false]
      rcases flush_sim C i with ⟨f1, f2⟩ | ⟨f1, f2⟩ | ⟨a, m', h', f1, f2, g⟩
      · rw [f1, f2]; exact .panic
      · rw [f1, f2]; exact .timeout
      · rw [f1, f2]
        cases a with
        | some e => exact .val rfl rfl g
        | none =>
          simp only []
          rw [show (m'.abs h').zlibW = m'.w.zlibW from rfl, show (m'.abs h').lvl = m'.w.lvl from rfl]
          cases hz : m'.w.zlibW with
          | none =>
            simp only []
            cases C.new lvl with
            | error e => exact .val rfl (by simp [MWriter.abs, hz]) (g.trans (WGood.ofW g.inv))
            | ok d => exact .val rfl (abs_reset _ _) (g.trans ((WGood.ofW g.inv).trans (WGood.reset (WGood.ofW g.inv).inv)))
          | some z =>
            by_cases hl : m'.w.lvl = lvl
            · simp only [hl, if_true]
              refine .val rfl ?_ (g.trans ((WGood.ofW g.inv).trans (WGood.reset (WGood.ofW g.inv).inv)))
              rw [abs_reset]
              simp only [MWriter.abs]
            · simp only [hl, if_false]
              cases C.new lvl with
              | error e => exact .val rfl (by simp [MWriter.abs, hz]) (g.trans (WGood.ofW g.inv))
              | ok d => exact .val rfl (abs_reset _ _) (g.trans ((WGood.ofW g.inv).trans (WGood.reset (WGood.ofW g.inv).inv)))

theorem disable_sim {m : MWriter D} {h : Heap} (i : m.Inv h) : WSim m h (m.disableZlib C h) ((m.abs h).disableZlib C) := by
  simp only [MWriter.disableZlib, Writer.disableZlib]
  rw [show (m.abs h).err = m.w.err from rfl, show (m.abs h).zlibOn = m.w.zlibOn from rfl]
  cases m.w.err with
  | some e => exact .val rfl rfl (WGood.refl i)
  | none =>
    cases m.w.zlibOn with
    | false => exact .val rfl rfl (WGood.refl i)
    | true =>
      simp only [if_true]
      rcases bwFlush_sim C i with ⟨f1, f2⟩ | ⟨f1, f2⟩ | ⟨a, m', h', f1, f2, g⟩
      · rw [f1, f2]; exact .panic
      · rw [f1, f2]; exact .timeout
      · rw [f1, f2]
        cases a with
        | some e => exact .val rfl rfl (g.trans (WGood.ofW g.inv))
        | none =>
          simp only []
          rw [show (m'.abs h').zlibW = m'.w.zlibW from rfl, show (m'.abs h').sink = m'.w.sink from rfl]
          cases m'.w.zlibW with
          | none => exact .panic
          | some z =>
            simp only []
            cases z.call C.close m'.w.sink with
            | mk e zs =>
              cases e with
              | some e => exact .val rfl rfl (g.trans (WGood.ofW g.inv))
              | none => exact .val rfl (abs_reset _ _) (g.trans ((WGood.ofW g.inv).trans (WGood.reset (WGood.ofW g.inv).inv)))

theorem WGood.closed {m : MWriter D} {h : Heap} {w : Writer D} : WGood m h ⟨w, none⟩ h :=
  ⟨by intro b hb; simp at hb, by rintro a ⟨b, hb, _⟩; simp at hb, fun _ _ => rfl, rfl⟩

theorem close_sim {m : MWriter D} {h : Heap} (i : m.Inv h) : WSim m h (m.close C h) ((m.abs h).close C) := by
  simp only [MWriter.close, Writer.close]
  rcases bwFlush_sim C i with ⟨f1, f2⟩ | ⟨f1, f2⟩ | ⟨a, m', h', f1, f2, g⟩
  · rw [f1, f2]; exact .panic
  · rw [f1, f2]; exact .timeout
  · rw [f1, f2]
    simp only []
    rw [show (m'.abs h').zlibOn = m'.w.zlibOn from rfl, show (m'.abs h').zlibW = m'.w.zlibW from rfl,
      show (m'.abs h').sink = m'.w.sink from rfl, show (m'.abs h').err = m'.w.err from rfl]
    cases m'.w.zlibOn with
    | false => exact .val rfl rfl (g.trans WGood.closed)
    | true =>
      simp only [if_true]
      cases m'.w.zlibW with
      | none => exact .panic
      | some z => exact .val rfl rfl (g.trans WGood.closed)

end Verif.Lineproto.Mem
