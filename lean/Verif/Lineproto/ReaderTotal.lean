import Verif.Lineproto.ReaderOps

/-!
# Termination of the reader

The reader runs with fuel.  Here: more fuel never changes a result, every call has enough fuel somewhere, and a
successful call uses up a part of the input.
-/

namespace Verif.Lineproto

variable {Z : Type} (I : Inflater Z)

/-- `b` is the same outcome as `a`, unless `a` ran out of fuel. -/
def Exec.Ext {α : Type u} (a b : Exec α) : Prop := a = .timeout ∨ a = b

theorem Exec.Ext.rfl' {α : Type u} (a : Exec α) : Exec.Ext a a := .inr rfl

theorem zFill_mono (want : Nat) : ∀ (f : Nat) (zr : ZRd Z) (b : Buf),
    Exec.Ext (zFill I want f zr b) (zFill I want (f + 1) zr b) := by
  intro f
  induction f with
  | zero => intro zr b; exact .inl rfl
  | succ f ih =>
    intro zr b
    rw [zFill, zFill]
    split
    · exact .inr rfl
    · split
      · exact .inr rfl
      · split
        · exact .inr rfl
        · exact .inr rfl
        · split
          · exact ih _ _
          · exact ih _ _
          · exact .inr rfl
          · exact .inr rfl

theorem zRead_mono (f n : Nat) (zr : ZRd Z) (b : Buf) :
    Exec.Ext (zRead I f n zr b) (zRead I (f + 1) n zr b) := by
  unfold zRead
  rcases zFill_mono I (max 1 (zr.sched.headD (1, false)).1) f zr b with h | h
  · left; rw [h]
  · right; rw [h]

theorem zPeek_mono (f : Nat) (zr : ZRd Z) (b : Buf) : Exec.Ext (zPeek I f zr b) (zPeek I (f + 1) zr b) := by
  unfold zPeek
  rcases zRead_mono I f readBuf zr b with h | h
  · left; rw [h]
  · right; rw [h]

theorem scan_mono (f : Nat) (r : Reader Z) (b : Buf) : Exec.Ext (r.scan I f b) (r.scan I (f + 1) b) := by
  unfold Reader.scan
  split
  · split
    · split
      · exact .inr rfl
      · rename_i zr _
        rcases zPeek_mono I f zr b with h | h
        · left; rw [h]
        · right; rw [h]
    · exact .inr rfl
  · exact .inr rfl

theorem readLoop_mono : ∀ (f : Nat) (line : Bytes) (r : Reader Z),
    Exec.Ext (r.readLoop I f line) (r.readLoop I (f + 1) line) := by
  intro f
  induction f with
  | zero => intro line r; exact .inl rfl
  | succ f ih =>
    intro line r
    rw [Reader.readLoop, Reader.readLoop]
    split
    · exact .inr rfl
    · rename_i b _
      split
      · exact .inr rfl
      · rcases scan_mono I f r b with h | h
        · left; rw [h]
        · rw [← h]
          split
          · exact .inr rfl
          · exact .inr rfl
          · split
            · exact ih _ _
            · dsimp only
              split
              · exact .inr rfl
              · split
                · exact ih _ _
                · split
                  · exact .inr rfl
                  · exact ih _ _
                  · exact .inr rfl

theorem readLine_mono (f : Nat) (r : Reader Z) : Exec.Ext (r.readLine I f) (r.readLine I (f + 1)) := by
  unfold Reader.readLine
  split
  · exact .inr rfl
  · exact readLoop_mono I f [] r

theorem curRead_mono (f n : Nat) (r : Reader Z) (b : Buf) :
    Exec.Ext (r.curRead I f n b) (r.curRead I (f + 1) n b) := by
  unfold Reader.curRead
  split
  · split
    · split
      · exact .inr rfl
      · rename_i zr _
        rcases zRead_mono I f n zr b with h | h
        · left; rw [h]
        · right; rw [h]
    · exact .inr rfl
  · exact .inr rfl

theorem read_mono (f n : Nat) (r : Reader Z) : Exec.Ext (r.read I f n) (r.read I (f + 1) n) := by
  unfold Reader.read
  split
  · exact .inr rfl
  · rename_i b _
    rcases curRead_mono I f n r b with h | h
    · left; rw [h]
    · right; rw [h]

theorem readFull_mono : ∀ (f n : Nat) (acc : Bytes) (b : Buf),
    Exec.Ext (b.readFull f n acc) (b.readFull (f + 1) n acc) := by
  intro f
  induction f with
  | zero => intro n acc b; cases n with
    | zero => exact .inr rfl
    | succ n => exact .inl rfl
  | succ f ih =>
    intro n acc b
    cases n with
    | zero => exact .inr rfl
    | succ n =>
      rw [Buf.readFull, Buf.readFull]
      split
      split
      · exact .inr rfl
      · split
        · exact .inr rfl
        · exact ih _ _ _

theorem enableZlib_mono (f : Nat) (sched : List (Nat × Bool)) (r : Reader Z) :
    Exec.Ext (r.enableZlib I f sched) (r.enableZlib I (f + 1) sched) := by
  unfold Reader.enableZlib
  split
  · exact .inr rfl
  · rename_i b _
    split
    · exact .inr rfl
    · rcases readFull_mono f 2 [] b with h | h
      · left; rw [h]
      · right; rw [h]

theorem binRead_mono (f n left : Nat) (r : Reader Z) :
    Exec.Ext (r.binRead I f n left) (r.binRead I (f + 1) n left) := by
  unfold Reader.binRead
  split
  · exact .inr rfl
  · rcases read_mono I f (min n left) r with h | h
    · left; rw [h]
    · right; rw [h]

theorem binClose_mono : ∀ (f left : Nat) (r : Reader Z),
    Exec.Ext (r.binClose I f left) (r.binClose I (f + 1) left) := by
  intro f
  induction f with
  | zero => intro left r; exact .inl rfl
  | succ f ih =>
    intro left r
    rw [Reader.binClose, Reader.binClose]
    rcases binRead_mono I f 8192 left r with h | h
    · left; rw [h]
    · rw [← h]
      split
      · exact .inr rfl
      · exact ih _ _
      · exact .inr rfl
      · exact .inr rfl

/-- A function of fuel has one outcome for all amounts of fuel that are large enough. -/
def Settles {α : Type u} (F : Nat → Exec α) : Prop := ∃ k x, x ≠ .timeout ∧ ∀ f ≥ k, F f = x

theorem settles_of {α : Type u} {F : Nat → Exec α} (hm : ∀ f, Exec.Ext (F f) (F (f + 1))) {k : Nat}
    (hk : F k ≠ .timeout) : Settles F := by
  refine ⟨k, F k, hk, ?_⟩
  intro f hf
  obtain ⟨d, rfl⟩ := Nat.exists_eq_add_of_le hf
  clear hf
  induction d with
  | zero => rfl
  | succ d ih =>
    rcases hm (k + d) with h | h
    · rw [ih] at h; exact absurd h hk
    · rw [← Nat.add_assoc, ← h, ih]

/-! ### Measure -/

theorem readByte_weight {b b' : Buf} {x} (h : b.readByte = .val (x, b')) :
    (∀ c, x = .inl c → b'.weight < b.weight) ∧ b'.weight ≤ b.weight := by
  obtain ⟨s, buf⟩ := b
  cases buf with
  | cons c cs =>
    simp only [Buf.readByte, Exec.val.injEq, Prod.mk.injEq] at h
    obtain ⟨_, rfl⟩ := h
    simp [Buf.weight]
  | nil =>
    rcases Buf.peek_spec s with ⟨h1, hp⟩ | ⟨e, s', h1, hp, _⟩ | ⟨d, s', hp, _, _, hw, _⟩
    · simp only [Buf.readByte, hp, Exec.val.injEq, Prod.mk.injEq] at h
      obtain ⟨rfl, rfl⟩ := h
      simp [Buf.weight, h1]
    · have hw : Src.weight s' ≤ Src.weight s := by
        have : (Src.read readBuf s).2.weight ≤ Src.weight s := by
          cases s with
          | nil => simp [Src.read]
          | cons ev s =>
            simp only [Src.read]
            split <;> simp only [Src.weight, List.length_drop] <;> omega
        have h2 : Buf.peek ⟨s, []⟩ = (some e, ⟨s', []⟩) := hp
        unfold Buf.peek at h2
        dsimp only at h2
        split at h2
        · rename_i hh
          simp only [Prod.mk.injEq, Buf.mk.injEq] at h2
          rw [hh] at this
          rw [← h2.2.1]; exact this
        · simp at h2
      simp only [Buf.readByte, hp, Exec.val.injEq, Prod.mk.injEq] at h
      obtain ⟨rfl, rfl⟩ := h
      simp [Buf.weight, hw]
    · cases d with
      | nil => simp [Buf.readByte, hp] at h
      | cons c d =>
        simp only [Buf.readByte, hp, Exec.val.injEq, Prod.mk.injEq] at h
        obtain ⟨rfl, rfl⟩ := h
        simp [Buf.weight] at hw ⊢; omega

theorem fetch_weight (s : Src) : s.fetch.2.weight ≤ s.weight ∧ ∀ c, s.fetch.1 = .inl c → s.fetch.2.weight < s.weight := by
  induction s with
  | nil => simp [Src.fetch, Src.weight]
  | cons ev s ih =>
    obtain ⟨d, e⟩ := ev
    match d, e with
    | [], none =>
      simp only [Src.fetch, Src.weight, List.length_nil]
      exact ⟨by omega, fun c h => by have := ih.2 c h; omega⟩
    | [], some e => simp [Src.fetch, Src.weight]
    | [c], e => simp [Src.fetch, Src.weight]
    | c :: d :: ds, e => simp [Src.fetch, Src.weight]; omega

theorem zByte_weight {n : Nat} {b b' : Buf} {x} (h : b.zByte n = .val (x, b')) :
    (∀ c, x = .inl c → b'.weight < b.weight) ∧ b'.weight ≤ b.weight := by
  unfold Buf.zByte at h
  split at h
  · split at h
    · rename_i hb; cases h; exact ⟨fun _ _ => (readByte_weight hb).1 _ rfl, (readByte_weight hb).2⟩
    · rename_i hb; cases h; exact ⟨by simp, (readByte_weight hb).2⟩
    · cases h
    · cases h
  · obtain ⟨s, buf⟩ := b
    cases buf with
    | cons c cs => cases h; simp [Buf.weight]
    | nil =>
      have := fetch_weight s
      simp only at h
      split at h
      · rename_i hb; rw [hb] at this; cases h; simpa [Buf.weight] using this.1
      · rename_i hb; rw [hb] at this; cases h; exact ⟨fun _ _ => by simpa [Buf.weight] using this.2 _ rfl, by simpa [Buf.weight] using this.1⟩

theorem zByte_total {n : Nat} {b : Buf} : b.zByte n ≠ .timeout := by
  unfold Buf.zByte
  split
  · split
    · simp
    · simp
    · simp
    · rename_i hb
      simp only [Buf.readByte] at hb
      split at hb
      · cases hb
      · split at hb
        · cases hb
        · split at hb <;> cases hb
  · split
    · simp
    · split <;> simp

theorem src_read_weight (n : Nat) (s : Src) : (s.read n).2.weight ≤ s.weight ∧
    (0 < n → ((s.read n).1.2 = none ∨ (s.read n).1.1 ≠ []) → (s.read n).2.weight + (s.read n).1.1.length < s.weight) := by
  cases s with
  | nil => simp [Src.read, Src.weight]
  | cons ev s =>
    simp only [Src.read]
    split
    · simp only [Src.weight]; constructor <;> intros <;> omega
    · simp only [Src.weight, List.length_drop, List.length_take]; constructor <;> intros <;> omega

theorem zFill_weight (want : Nat) : ∀ (f : Nat) {zr zr' : ZRd Z} {b b' : Buf},
    zFill I want f zr b = .val (zr', b') →
    b'.weight < b.weight ∨ b'.weight = b.weight ∧ zr'.pend = zr.pend := by
  intro f
  induction f with
  | zero => intro zr zr' b b' h; simp [zFill] at h
  | succ f ih =>
    intro zr zr' b b' h
    rw [zFill] at h
    split at h
    · simp only [Exec.val.injEq, Prod.mk.injEq] at h; obtain ⟨rfl, rfl⟩ := h; exact .inr ⟨rfl, rfl⟩
    · split at h
      · simp only [Exec.val.injEq, Prod.mk.injEq] at h; obtain ⟨rfl, rfl⟩ := h; exact .inr ⟨rfl, rfl⟩
      · split at h
        · simp only [Exec.val.injEq, Prod.mk.injEq] at h; obtain ⟨rfl, rfl⟩ := h; exact .inr ⟨rfl, rfl⟩
        · simp only [Exec.val.injEq, Prod.mk.injEq] at h; obtain ⟨rfl, rfl⟩ := h; exact .inr ⟨rfl, rfl⟩
        · split at h
          · rename_i hb
            have h1 := (zByte_weight hb).1 _ rfl
            rcases ih h with h2 | h2 <;> left <;> omega
          · rename_i hb
            have h1 := (zByte_weight hb).2
            rcases ih h with h2 | h2
            · left; omega
            · by_cases hw : b'.weight = b.weight
              · exact .inr ⟨hw, h2.2⟩
              · left; omega
          · cases h
          · cases h

theorem zFill_total (want : Nat) : ∀ (f : Nat) (zr : ZRd Z) (b : Buf),
    b.weight + 2 ≤ f + (if zr.zerr.isSome then 1 else 0) → 0 < f → zFill I want f zr b ≠ .timeout := by
  intro f
  induction f with
  | zero => intro zr b _ h; omega
  | succ f ih =>
    intro zr b hf _
    rw [zFill]
    split
    · simp
    · split
      · simp
      · rename_i hz
        simp only [hz, Bool.false_eq_true, if_false] at hf
        split
        · simp
        · simp
        · split
          · rename_i hb
            have h1 := (zByte_weight hb).1 _ rfl
            exact ih _ _ (by split <;> omega) (by omega)
          · rename_i hb
            have h1 := (zByte_weight hb).2
            exact ih _ _ (by simp; omega) (by omega)
          · simp
          · rename_i hb; exact absurd hb zByte_total

theorem zRead_total {f : Nat} (n : Nat) (zr : ZRd Z) {b : Buf} (h : b.weight + 2 ≤ f) :
    zRead I f n zr b ≠ .timeout := by
  have := zFill_total I (max 1 (zr.sched.headD (1, false)).1) f zr b (by omega) (by omega)
  unfold zRead
  split
  · split <;> simp
  · simp
  · rename_i h2; exact absurd h2 this

/-- What a read of the decompressor uses up. -/
theorem zRead_weight {f n : Nat} (hn : 0 < n) {zr zr' : ZRd Z} {b b' : Buf} {d : Bytes} {e : Option Err}
    (h : zRead I f n zr b = .val ((d, e), zr', b')) :
    (b'.weight < b.weight ∨ b'.weight = b.weight ∧ zr'.pend.length + d.length = zr.pend.length) ∧
      (d = [] → e ≠ none) := by
  unfold zRead at h
  split at h
  · rename_i z1 b1 hf
    have hw := zFill_weight I _ f hf
    split at h
    · rename_i hp
      simp only [Exec.val.injEq, Prod.mk.injEq] at h
      obtain ⟨⟨rfl, rfl⟩, rfl, rfl⟩ := h
      refine ⟨?_, by simp⟩
      rcases hw with hw | hw
      · exact .inl hw
      · exact .inr ⟨hw.1, by simp [hw.2]⟩
    · rename_i hp
      simp only [Exec.val.injEq, Prod.mk.injEq] at h
      obtain ⟨⟨rfl, _⟩, rfl, rfl⟩ := h
      refine ⟨?_, ?_⟩
      · rcases hw with hw | hw
        · exact .inl hw
        · refine .inr ⟨hw.1, ?_⟩
          rw [← hw.2]
          simp only [List.length_drop, List.length_take]; omega
      · intro h0
        exfalso
        cases hz : z1.pend with
        | nil => exact hp hz
        | cons c cs => rw [hz] at h0; cases n with
          | zero => omega
          | succ n => simp at h0
  · cases h
  · cases h

/-- Input left in the transport. -/
def Reader.w1 (r : Reader Z) : Nat := match r.orig with | some b => b.weight | none => 0

/-- Output of the decompressor that was not handed out yet. -/
def Reader.w2 (r : Reader Z) : Nat := (match r.zlib with | some z => z.pend.length | none => 0) + r.cbuf.length

def Reader.w3 (r : Reader Z) : Nat := if r.zlibOn then 1 else 0

/-- `r'` has less to read than `r`. -/
def Reader.Less (r' r : Reader Z) : Prop :=
  r'.w1 < r.w1 ∨ r'.w1 = r.w1 ∧ (r'.w2 < r.w2 ∨ r'.w2 = r.w2 ∧ r'.w3 < r.w3)

/-- `r'` has at most as much to read as `r`. -/
def Reader.Le (r' r : Reader Z) : Prop :=
  r'.w1 < r.w1 ∨ r'.w1 = r.w1 ∧ (r'.w2 < r.w2 ∨ r'.w2 = r.w2 ∧ r'.w3 ≤ r.w3)

theorem Reader.less_wf : WellFounded (Reader.Less (Z := Z)) := by
  have h : WellFounded (Prod.Lex (fun a b : Nat => a < b) (Prod.Lex (fun a b : Nat => a < b) (fun a b : Nat => a < b))) :=
    (Prod.lex Nat.lt_wfRel (Prod.lex Nat.lt_wfRel Nat.lt_wfRel)).wf
  refine Subrelation.wf ?_ (InvImage.wf (fun r : Reader Z => (r.w1, r.w2, r.w3)) h)
  intro a b hab
  rcases hab with h1 | ⟨h1, h2 | ⟨h2, h3⟩⟩
  · exact .left _ _ h1
  · show Prod.Lex _ _ (a.w1, a.w2, a.w3) (b.w1, b.w2, b.w3)
    rw [h1]; exact .right _ (.left _ _ h2)
  · show Prod.Lex _ _ (a.w1, a.w2, a.w3) (b.w1, b.w2, b.w3)
    rw [h1, h2]; exact .right _ (.right _ h3)

theorem Reader.Less.le {a b : Reader Z} (h : a.Less b) : a.Le b := by
  simp only [Reader.Less, Reader.Le] at *; omega

theorem Reader.Less.trans_le {a b c : Reader Z} (h : a.Less b) (h' : b.Le c) : a.Less c := by
  simp only [Reader.Less, Reader.Le] at *; omega

theorem Reader.Le.trans_less {a b c : Reader Z} (h : a.Le b) (h' : b.Less c) : a.Less c := by
  simp only [Reader.Less, Reader.Le] at *; omega

theorem Reader.Le.trans {a b c : Reader Z} (h : a.Le b) (h' : b.Le c) : a.Le c := by
  simp only [Reader.Le] at *; omega

theorem scanBuf_rest (d : Byte) (bs : Bytes) : (scanBuf d bs).2.2.length ≤ bs.length ∧
    (bs ≠ [] → (scanBuf d bs).2.2.length < bs.length) := by
  induction bs with
  | nil => simp [scanBuf]
  | cons c cs ih =>
    rcases hs : scanBuf d cs with ⟨p, m, rest⟩
    simp only [hs] at ih
    simp only [scanBuf, hs]
    split <;> simp <;> omega

theorem bufScan_weight {d : Byte} {b b' : Buf} {p : Bytes} {more : Bool} {e : Option Err}
    (h : b.scan d = ((p, more, e), b')) : b'.weight ≤ b.weight ∧ (e = none → b'.weight < b.weight) := by
  obtain ⟨s, buf⟩ := b
  have hr := src_read_weight readBuf s
  cases buf with
  | cons c cs =>
    have h1 := (scanBuf_rest d (c :: cs)).2 (by simp)
    rcases hs : scanBuf d (c :: cs) with ⟨p1, m1, rest⟩
    simp only [hs] at h1
    simp only [Buf.scan, hs, Prod.mk.injEq] at h
    obtain ⟨_, rfl⟩ := h
    simp only [Buf.weight]; omega
  | nil =>
    simp only [Buf.scan, Buf.peek] at h
    split at h
    · rename_i hx
      split at hx
      · rename_i hy
        simp only [Prod.mk.injEq] at h hx
        obtain ⟨⟨_, _, rfl⟩, rfl⟩ := h
        obtain ⟨_, rfl⟩ := hx
        rw [hy] at hr
        simp only [Buf.weight]; simp; simpa using hr.1
      · simp at hx
    · rename_i hx
      split at hx
      · simp at hx
      · rename_i d' e' s' hne hy
        simp only [Prod.mk.injEq] at hx
        obtain ⟨_, rfl⟩ := hx
        rcases hs : scanBuf d d' with ⟨p1, m1, rest⟩
        simp only [hs, Prod.mk.injEq] at h
        obtain ⟨_, rfl⟩ := h
        rw [hy] at hr
        have h2 := (scanBuf_rest d d').1
        simp only [hs] at h2
        have h3 := hr.2 (by decide) (by
          cases d' with
          | nil => cases e' with
            | none => exact .inl rfl
            | some e' => exact absurd rfl (hne e' rfl)
          | cons => exact .inr (by simp))
        simp only at h3
        simp only [Buf.weight, List.length_nil]; omega

theorem scan_total {f : Nat} (r : Reader Z) {b : Buf} (h : b.weight + 2 ≤ f) : r.scan I f b ≠ .timeout := by
  unfold Reader.scan
  split
  · split
    · split
      · simp
      · rename_i zr _
        have := zRead_total I readBuf zr h
        unfold zPeek
        split
        · simp
        · simp
        · simp
        · rename_i h2
          split at h2
          · cases h2
          · cases h2
          · cases h2
          · rename_i h3; exact absurd h3 this
    · simp
  · simp

/-- A scan uses up input, unless it fails. -/
theorem scan_less {f : Nat} {r r1 : Reader Z} {b : Buf} {p : Bytes} {more : Bool} {e : Option Err}
    (hb : r.orig = some b) (h : r.scan I f b = .val ((p, more, e), r1)) :
    r1.Le r ∧ (e = none → r1.Less r) ∧ r1.zlibOn = r.zlibOn ∧ (∃ b1, r1.orig = some b1) := by
  unfold Reader.scan at h
  split at h
  · split at h
    · rename_i hc
      split at h
      · cases h
      · rename_i zr hzr
        cases hp : zPeek I f zr b with
        | panic => rw [hp] at h; cases h
        | timeout => rw [hp] at h; cases h
        | val x =>
          obtain ⟨x, zr', b'⟩ := x
          unfold zPeek at hp
          cases hz : zRead I f readBuf zr b with
          | panic => rw [hz] at hp; cases hp
          | timeout => rw [hz] at hp; cases hp
          | val y =>
            obtain ⟨⟨d, e'⟩, zr2, b2⟩ := y
            have hw := zRead_weight I (by decide) hz
            rw [hz] at hp
            unfold zPeek at h
            rw [hz] at h
            cases d with
            | nil =>
              cases e' with
              | none => exact absurd rfl (hw.2 rfl)
              | some e' =>
                simp only [Exec.val.injEq, Prod.mk.injEq] at h
                obtain ⟨⟨_, _, rfl⟩, rfl⟩ := h
                refine ⟨?_, by simp, rfl, _, rfl⟩
                have := hw.1
                simp only [Reader.Le, Reader.w1, Reader.w2, Reader.w3, hb, hzr, List.length_nil] at this ⊢
                omega
            | cons c cs =>
              have h3 := (scanBuf_rest r.delim (c :: cs)).2 (by simp)
              rcases hs : scanBuf r.delim (c :: cs) with ⟨p1, m1, rest⟩
              simp only [hs, Exec.val.injEq, Prod.mk.injEq] at h
              obtain ⟨_, rfl⟩ := h
              simp only [hs] at h3
              have h4 : Reader.Less ({ r with zlib := some zr2, orig := some b2, cbuf := rest } : Reader Z) r := by
                have := hw.1
                simp only [Reader.Less, Reader.w1, Reader.w2, Reader.w3, hb, hzr] at this ⊢
                omega
              exact ⟨h4.le, fun _ => h4, rfl, _, rfl⟩
    · rename_i c cs hc
      have h3 := (scanBuf_rest r.delim (c :: cs)).2 (by simp)
      rcases hs : scanBuf r.delim (c :: cs) with ⟨p1, m1, rest⟩
      simp only [hs, Exec.val.injEq, Prod.mk.injEq] at h
      obtain ⟨_, rfl⟩ := h
      simp only [hs] at h3
      have h4 : Reader.Less ({ r with cbuf := rest } : Reader Z) r := by
        refine .inr ⟨rfl, .inl ?_⟩
        simp only [Reader.w2, hc]
        omega
      exact ⟨h4.le, fun _ => h4, rfl, _, hb⟩
  · simp only [Exec.val.injEq] at h
    cases hs : b.scan r.delim with
    | mk res b' =>
      rw [hs] at h
      simp only [Prod.mk.injEq] at h
      obtain ⟨rfl, rfl⟩ := h
      have hw := bufScan_weight hs
      refine ⟨?_, ?_, rfl, _, rfl⟩
      · have h1 : r.w1 = b.weight := by simp [Reader.w1, hb]
        by_cases he : b'.weight = b.weight
        · exact .inr ⟨by rw [h1]; exact he, .inr ⟨rfl, Nat.le_refl _⟩⟩
        · exact .inl (by rw [h1]; show b'.weight < _; omega)
      · intro he
        have h1 : r.w1 = b.weight := by simp [Reader.w1, hb]
        exact .inl (by rw [h1]; exact hw.2 he)

theorem readLoop_settles (r : Reader Z) : ∀ line, Settles fun f => r.readLoop I f line := by
  induction r using Reader.less_wf.induction with
  | _ r ih =>
    intro line
    cases hb : r.orig with
    | none =>
      exact settles_of (fun f => readLoop_mono I f line r) (k := 1) (by simp [Reader.readLoop, hb])
    | some b =>
      have hs0 := scan_total I (f := b.weight + 2) r (Nat.le_refl _)
      obtain ⟨k, x, hx, hk⟩ := settles_of (fun f => scan_mono I f r b) hs0
      by_cases hm : r.maxLine > 0 ∧ (line.length : Int) ≥ r.maxLine
      · exact settles_of (fun f => readLoop_mono I f line r) (k := 1) (by simp [Reader.readLoop, hb, hm])
      · cases x with
        | timeout => exact absurd rfl hx
        | panic =>
          exact settles_of (fun f => readLoop_mono I f line r) (k := k + 1)
            (by simp [Reader.readLoop, hb, hm, hk k (Nat.le_refl _)])
        | val y =>
          obtain ⟨⟨pref, more, err⟩, r1⟩ := y
          obtain ⟨hle, hless, hzl, b1, hb1⟩ := scan_less I hb (hk k (Nat.le_refl _))
          have step : ∀ {r2 : Reader Z} {line' : Bytes}, r2.Less r →
              (∀ f ≥ k, r.readLoop I (f + 1) line = r2.readLoop I f line') →
              Settles fun f => r.readLoop I f line := by
            intro r2 line' h2 heq
            obtain ⟨k2, x2, hx2, hk2⟩ := ih r2 h2 line'
            dsimp only at hk2
            refine settles_of (fun f => readLoop_mono I f line r) (k := max k k2 + 1) ?_
            rw [heq _ (Nat.le_max_left _ _), hk2 _ (Nat.le_max_right _ _)]
            exact hx2
          by_cases he : err = some .eof ∧ r1.zlibOn = true
          · refine step (r2 := { r1 with curZ := false, zlibOn := false }) (line' := line) ?_ ?_
            · have hz : r.zlibOn = true := hzl ▸ he.2
              simp only [Reader.Le, Reader.Less, Reader.w1, Reader.w2, Reader.w3, he.2, hz] at hle ⊢
              simp only [if_true, Bool.false_eq_true, if_false] at hle ⊢
              omega
            · intro f hf
              rw [Reader.readLoop]
              simp only [hb, hm, hk f hf, he, if_false, and_self, if_true]
          · cases err with
            | some e =>
              refine settles_of (fun f => readLoop_mono I f line r) (k := k + 1) ?_
              rw [Reader.readLoop]
              simp only [hb, hm, hk k (Nat.le_refl _), he, if_false]
              simp
            | none =>
              cases more with
              | true =>
                refine step (hless rfl) (line' := line ++ pref) ?_
                intro f hf
                rw [Reader.readLoop]
                simp only [hb, hm, hk f hf, he, if_false, if_true]
              | false =>
                cases hh : runHooks (line ++ pref) r1.onLine with
                | drop =>
                  refine step (hless rfl) (line' := []) ?_
                  intro f hf
                  rw [Reader.readLoop]
                  simp only [hb, hm, hk f hf, he, if_false, hh, Bool.false_eq_true]
                | accept =>
                  refine settles_of (fun f => readLoop_mono I f line r) (k := k + 1) ?_
                  rw [Reader.readLoop]
                  simp only [hb, hm, hk k (Nat.le_refl _), he, if_false, hh, Bool.false_eq_true]
                  simp
                | fail e =>
                  refine settles_of (fun f => readLoop_mono I f line r) (k := k + 1) ?_
                  rw [Reader.readLoop]
                  simp only [hb, hm, hk k (Nat.le_refl _), he, if_false, hh, Bool.false_eq_true]
                  simp

theorem readLine_settles (r : Reader Z) : Settles fun f => r.readLine I f := by
  unfold Reader.readLine
  cases hb : r.orig with
  | none => exact ⟨0, _, by simp, fun f _ => rfl⟩
  | some b => exact readLoop_settles I r []

/-- A line uses up input. -/
theorem readLoop_less : ∀ (f : Nat) {line l : Bytes} {r r' : Reader Z} {e : Option Err},
    r.readLoop I f line = .val ((l, e), r') → r'.Le r ∧ (e = none → r'.Less r) := by
  intro f
  induction f with
  | zero => intro line l r r' e h; simp [Reader.readLoop] at h
  | succ f ih =>
    intro line l r r' e h
    rw [Reader.readLoop] at h
    split at h
    · cases h
    · rename_i b hb
      split at h
      · simp only [Exec.val.injEq, Prod.mk.injEq] at h
        obtain ⟨⟨_, rfl⟩, rfl⟩ := h
        exact ⟨by simp [Reader.Le], by simp⟩
      · split at h
        · cases h
        · cases h
        · rename_i pref more err r1 hs
          obtain ⟨hle, hless, hzl, b1, hb1⟩ := scan_less I hb hs
          split at h
          · have hle2 : ({ r1 with curZ := false, zlibOn := false } : Reader Z).Le r := by
              simp only [Reader.Le, Reader.w1, Reader.w2, Reader.w3] at hle ⊢
              simp only [Bool.false_eq_true, if_false]
              omega
            have := ih h
            exact ⟨this.1.trans hle2, fun he => (this.2 he).trans_le hle2⟩
          · dsimp only at h
            split at h
            · simp only [Exec.val.injEq, Prod.mk.injEq] at h
              obtain ⟨⟨_, rfl⟩, rfl⟩ := h
              exact ⟨hle, by simp⟩
            · have hl := hless rfl
              split at h
              · have := ih h
                exact ⟨this.1.trans hle, fun he => (this.2 he).trans_le hle⟩
              · split at h
                · simp only [Exec.val.injEq, Prod.mk.injEq] at h
                  obtain ⟨⟨_, rfl⟩, rfl⟩ := h
                  exact ⟨hle, fun _ => hl⟩
                · have := ih h
                  exact ⟨this.1.trans hle, fun he => (this.2 he).trans_le hle⟩
                · simp only [Exec.val.injEq, Prod.mk.injEq] at h
                  obtain ⟨⟨_, rfl⟩, rfl⟩ := h
                  exact ⟨hle, by simp⟩

theorem readLine_less {f : Nat} {l : Bytes} {r r' : Reader Z} {e : Option Err}
    (h : r.readLine I f = .val ((l, e), r')) : r'.Le r ∧ (e = none → r'.Less r) := by
  unfold Reader.readLine at h
  split at h
  · simp only [Exec.val.injEq, Prod.mk.injEq] at h
    obtain ⟨⟨_, rfl⟩, rfl⟩ := h
    exact ⟨by simp [Reader.Le], by simp⟩
  · exact readLoop_less I f h

/-! ### `Read`, `EnableZlib` and binary sections -/

theorem bufRead_weight {n : Nat} {b b' : Buf} {d : Bytes} {e : Option Err} (h : b.read n = ((d, e), b')) :
    b'.weight ≤ b.weight ∧ (0 < n → e = none → b'.weight < b.weight) := by
  obtain ⟨s, buf⟩ := b
  cases buf with
  | nil =>
    have hr := src_read_weight n s
    simp only [Buf.read, Prod.mk.injEq] at h
    obtain ⟨h1, rfl⟩ := h
    simp only [Buf.weight, List.length_nil]
    refine ⟨hr.1, ?_⟩
    intro hn he
    have := hr.2 hn (.inl (by rw [h1]; exact he))
    omega
  | cons c cs =>
    simp only [Buf.read, Prod.mk.injEq] at h
    obtain ⟨_, rfl⟩ := h
    simp only [Buf.weight, List.length_drop, List.length_cons]
    constructor
    · omega
    · intro hn _; omega

theorem curRead_total {f : Nat} (n : Nat) (r : Reader Z) {b : Buf} (h : b.weight + 2 ≤ f) :
    r.curRead I f n b ≠ .timeout := by
  unfold Reader.curRead
  split
  · split
    · split
      · simp
      · rename_i zr _
        have := zRead_total I n zr h
        split
        · simp
        · simp
        · rename_i h2; exact absurd h2 this
    · simp
  · simp

theorem read_settles (n : Nat) (r : Reader Z) : Settles fun f => r.read I f n := by
  cases hb : r.orig with
  | none => exact settles_of (fun f => read_mono I f n r) (k := 0) (by unfold Reader.read; rw [hb]; simp)
  | some b =>
    refine settles_of (fun f => read_mono I f n r) (k := b.weight + 2) ?_
    have := curRead_total I (f := b.weight + 2) n r (b := b) (Nat.le_refl _)
    unfold Reader.read
    rw [hb]
    dsimp only
    split
    · simp
    · rename_i h2; exact absurd h2 this
    · split
      · split
        · simp
        · split <;> simp
      · simp

/-- A read that returns no error uses up input. -/
theorem read_less {f n : Nat} (hn : 0 < n) {d : Bytes} {r r' : Reader Z} {e : Option Err}
    (h : r.read I f n = .val ((d, e), r')) : r'.Le r ∧ (e = none → r'.Less r) := by
  unfold Reader.read at h
  split at h
  · simp only [Exec.val.injEq, Prod.mk.injEq] at h
    obtain ⟨⟨_, rfl⟩, rfl⟩ := h
    exact ⟨by simp [Reader.Le], by simp⟩
  · rename_i b hb
    split at h
    · cases h
    · cases h
    · rename_i d1 err r1 hc
      have key : r1.Le r ∧ (err = none ∨ d1 ≠ [] → r1.Less r) ∧ r1.zlibOn = r.zlibOn := by
        unfold Reader.curRead at hc
        split at hc
        · split at hc
          · rename_i hcb
            split at hc
            · cases hc
            · rename_i zr hzr
              split at hc
              · rename_i res zr' b' hz
                simp only [Exec.val.injEq, Prod.mk.injEq] at hc
                obtain ⟨rfl, rfl⟩ := hc
                have hw := zRead_weight I hn hz
                refine ⟨?_, ?_, rfl⟩
                · have := hw.1
                  simp only [Reader.Le, Reader.w1, Reader.w2, Reader.w3, hb, hzr] at this ⊢
                  omega
                · intro he
                  have hd : d1 ≠ [] := by
                    rcases he with rfl | he
                    · intro h0; exact hw.2 h0 rfl
                    · exact he
                  have h0 : 0 < d1.length := List.length_pos_iff.mpr hd
                  have := hw.1
                  simp only [Reader.Less, Reader.w1, Reader.w2, Reader.w3, hb, hzr] at this ⊢
                  omega
              · cases hc
              · cases hc
          · rename_i c cs hcb
            simp only [Exec.val.injEq, Prod.mk.injEq] at hc
            obtain ⟨_, rfl⟩ := hc
            have : Reader.Less ({ r with cbuf := (c :: cs).drop n } : Reader Z) r := by
              refine .inr ⟨rfl, .inl ?_⟩
              simp only [Reader.w2, hcb, List.length_drop, List.length_cons]
              omega
            exact ⟨this.le, fun _ => this, rfl⟩
        · cases hr : b.read n with
          | mk res b' =>
            rw [hr] at hc
            simp only [Exec.val.injEq, Prod.mk.injEq] at hc
            obtain ⟨rfl, rfl⟩ := hc
            have hw := bufRead_weight hr
            refine ⟨?_, ?_, rfl⟩
            · have h1 : r.w1 = b.weight := by simp [Reader.w1, hb]
              by_cases he : b'.weight = b.weight
              · exact .inr ⟨by rw [h1]; exact he, .inr ⟨rfl, Nat.le_refl _⟩⟩
              · exact .inl (by rw [h1]; show b'.weight < _; omega)
            · intro he
              have : b'.weight < b.weight := by
                rcases he with he | he
                · exact hw.2 hn he
                · obtain ⟨s, buf⟩ := b
                  cases buf with
                  | nil =>
                    simp only [Buf.read, Prod.mk.injEq] at hr
                    obtain ⟨h1, rfl⟩ := hr
                    have := (src_read_weight n s).2 hn (.inr (by rw [h1]; exact he))
                    simp only [Buf.weight, List.length_nil]; omega
                  | cons c cs =>
                    simp only [Buf.read, Prod.mk.injEq] at hr
                    obtain ⟨_, rfl⟩ := hr
                    simp only [Buf.weight, List.length_drop, List.length_cons]; omega
              have h1 : r.w1 = b.weight := by simp [Reader.w1, hb]
              exact .inl (by rw [h1]; exact this)
      split at h
      · have hle2 : ({ r1 with curZ := false, zlibOn := false } : Reader Z).Le r := by
          have := key.1
          simp only [Reader.Le, Reader.w1, Reader.w2, Reader.w3] at this ⊢
          simp only [Bool.false_eq_true, if_false]
          omega
        split at h
        · rename_i hd
          simp only [Exec.val.injEq, Prod.mk.injEq] at h
          obtain ⟨_, rfl⟩ := h
          refine ⟨hle2, fun _ => ?_⟩
          have := key.2.1 (.inr hd)
          have h4 : ({ r1 with curZ := false, zlibOn := false } : Reader Z).Le r1 := by
            simp only [Reader.Le, Reader.w1, Reader.w2, Reader.w3]
            simp
          exact h4.trans_less this
        · dsimp only at h
          split at h
          · cases h
          · rename_i b2 hb2
            cases hr : b2.read n with
            | mk res b3 =>
              rw [hr] at h
              simp only [Exec.val.injEq, Prod.mk.injEq] at h
              obtain ⟨rfl, rfl⟩ := h
              have hw := bufRead_weight hr
              simp only [Reader.Le, Reader.Less, Reader.w1, Reader.w2, Reader.w3, hb2] at hle2 ⊢
              simp only [Bool.false_eq_true, if_false] at hle2 ⊢
              refine ⟨by omega, fun he => ?_⟩
              have := hw.2 hn he
              omega
      · simp only [Exec.val.injEq, Prod.mk.injEq] at h
        obtain ⟨⟨_, rfl⟩, rfl⟩ := h
        exact ⟨key.1, fun he => key.2.1 (.inl he)⟩

theorem readFull_total : ∀ (f n : Nat) (acc : Bytes) (b : Buf), b.weight < f → b.readFull f n acc ≠ .timeout := by
  intro f
  induction f with
  | zero => intro n acc b h; omega
  | succ f ih =>
    intro n acc b h
    cases n with
    | zero => simp [Buf.readFull]
    | succ n =>
      rw [Buf.readFull]
      split
      rename_i d e b' hr
      have hw := bufRead_weight hr
      split
      · simp
      · split
        · simp
        · exact ih _ _ _ (by have := hw.2 (by omega) rfl; omega)

theorem enableZlib_settles (sched : List (Nat × Bool)) (r : Reader Z) : Settles fun f => r.enableZlib I f sched := by
  cases hb : r.orig with
  | none => exact settles_of (fun f => enableZlib_mono I f sched r) (k := 0) (by unfold Reader.enableZlib; rw [hb]; simp)
  | some b =>
    refine settles_of (fun f => enableZlib_mono I f sched r) (k := b.weight + 1) ?_
    have := readFull_total (b.weight + 1) 2 [] b (by omega)
    unfold Reader.enableZlib
    rw [hb]
    dsimp only
    split
    · simp
    · split
      · simp
      · rename_i h2; exact absurd h2 this
      · simp
      · split
        · split <;> simp
        · simp

theorem binRead_settles (n left : Nat) (r : Reader Z) : Settles fun f => r.binRead I f n left := by
  obtain ⟨k, x, hx, hk⟩ := read_settles I (min n left) r
  dsimp only at hk
  refine settles_of (fun f => binRead_mono I f n left r) (k := k) ?_
  unfold Reader.binRead
  split
  · simp
  · rw [hk k (Nat.le_refl _)]
    cases x with
    | timeout => exact absurd rfl hx
    | panic => simp
    | val y => simp

theorem binClose_settles (r : Reader Z) : ∀ left, Settles fun f => r.binClose I f left := by
  induction r using Reader.less_wf.induction with
  | _ r ih =>
    intro left
    obtain ⟨k, x, hx, hk⟩ := binRead_settles I 8192 left r
    dsimp only at hk
    cases x with
    | timeout => exact absurd rfl hx
    | panic =>
      refine settles_of (fun f => binClose_mono I f left r) (k := k + 1) ?_
      rw [Reader.binClose, hk k (Nat.le_refl _)]; simp
    | val y =>
      obtain ⟨⟨d, e⟩, left', r'⟩ := y
      cases e with
      | some e =>
        refine settles_of (fun f => binClose_mono I f left r) (k := k + 1) ?_
        rw [Reader.binClose, hk k (Nat.le_refl _)]; simp
      | none =>
        have hl : r'.Less r := by
          have h := hk k (Nat.le_refl _)
          unfold Reader.binRead at h
          split at h
          · simp at h
          · rename_i hl
            split at h
            · rename_i hr
              simp only [Exec.val.injEq, Prod.mk.injEq] at h
              obtain ⟨⟨_, rfl⟩, _, rfl⟩ := h
              exact (read_less I (by omega) hr).2 rfl
            · cases h
            · cases h
        obtain ⟨k2, x2, hx2, hk2⟩ := ih r' hl left'
        dsimp only at hk2
        refine settles_of (fun f => binClose_mono I f left r) (k := max k k2 + 1) ?_
        rw [Reader.binClose, hk _ (Nat.le_max_left _ _)]
        dsimp only
        rw [hk2 _ (Nat.le_max_right _ _)]
        exact hx2

end Verif.Lineproto
