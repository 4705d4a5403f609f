import Verif.Lineproto.ReaderSafe
import Verif.Props.LineReader

/-!
# C73, C74: the line reader always returns, and does not panic

Model: `Verif/Lineproto/Reader.lean`.
-/

namespace Verif.Props.LineReaderTotal

open Verif Verif.Lineproto

variable {Z : Type} (I : Inflater Z)

/-- A call of the API of the reader.  `binaryRead` and `binaryClose` are calls on the reader of a binary section
with `left` bytes left. -/
inductive Call where
  | readLine
  | read (n : Nat)
  | enableZlib (sched : List (Nat × Bool))
  | binaryRead (n left : Nat)
  | binaryClose (left : Nat)
  | setMaxLine (n : Int)
  | onLine (f : Bytes → Hook)
  | close

/-- What a call returns. -/
inductive Ret where
  | bytes (d : Bytes) (e : Option Err)
  | err (e : Option Err)
  | unit

/-- A call and its result, with `fuel` for its loops. -/
def call (fuel : Nat) (r : Reader Z) : Call → Exec (Ret × Reader Z)
  | .readLine => match r.readLine I fuel with
    | .val ((d, e), r') => .val (.bytes d e, r')
    | .panic => .panic
    | .timeout => .timeout
  | .read n => match r.read I fuel n with
    | .val ((d, e), r') => .val (.bytes d e, r')
    | .panic => .panic
    | .timeout => .timeout
  | .enableZlib sched => match r.enableZlib I fuel sched with
    | .val (e, r') => .val (.err e, r')
    | .panic => .panic
    | .timeout => .timeout
  | .binaryRead n left => match r.binRead I fuel n left with
    | .val ((d, e), _, r') => .val (.bytes d e, r')
    | .panic => .panic
    | .timeout => .timeout
  | .binaryClose left => match r.binClose I fuel left with
    | .val (e, r') => .val (.err e, r')
    | .panic => .panic
    | .timeout => .timeout
  | .setMaxLine n => .val (.unit, r.setMaxLine n)
  | .onLine f => .val (.unit, r.addHook f)
  | .close => .val (.unit, r.close)

/-- **C73.** Every call returns: for every state of the reader, every script of the transport and every hook there is
one outcome that is reached with any sufficient amount of work, and it is not "still running". -/
theorem calls_return (r : Reader Z) (c : Call) :
    ∃ enough outcome, outcome ≠ .timeout ∧ ∀ fuel ≥ enough, call I fuel r c = outcome := by
  cases c with
  | readLine =>
    obtain ⟨k, x, hx, hk⟩ := readLine_settles I r
    cases x with
    | timeout => exact absurd rfl hx
    | panic => exact ⟨k, .panic, by simp, fun f hf => by have := hk f hf; simp only at this; simp [call, this]⟩
    | val y => exact ⟨k, .val (.bytes y.1.1 y.1.2, y.2), by simp, fun f hf => by have := hk f hf; simp only at this; simp [call, this]⟩
  | read n =>
    obtain ⟨k, x, hx, hk⟩ := read_settles I n r
    cases x with
    | timeout => exact absurd rfl hx
    | panic => exact ⟨k, .panic, by simp, fun f hf => by have := hk f hf; simp only at this; simp [call, this]⟩
    | val y => exact ⟨k, .val (.bytes y.1.1 y.1.2, y.2), by simp, fun f hf => by have := hk f hf; simp only at this; simp [call, this]⟩
  | enableZlib sched =>
    obtain ⟨k, x, hx, hk⟩ := enableZlib_settles I sched r
    cases x with
    | timeout => exact absurd rfl hx
    | panic => exact ⟨k, .panic, by simp, fun f hf => by have := hk f hf; simp only at this; simp [call, this]⟩
    | val y => exact ⟨k, .val (.err y.1, y.2), by simp, fun f hf => by have := hk f hf; simp only at this; simp [call, this]⟩
  | binaryRead n left =>
    obtain ⟨k, x, hx, hk⟩ := binRead_settles I n left r
    cases x with
    | timeout => exact absurd rfl hx
    | panic => exact ⟨k, .panic, by simp, fun f hf => by have := hk f hf; simp only at this; simp [call, this]⟩
    | val y => exact ⟨k, .val (.bytes y.1.1 y.1.2, y.2.2), by simp, fun f hf => by have := hk f hf; simp only at this; simp [call, this]⟩
  | binaryClose left =>
    obtain ⟨k, x, hx, hk⟩ := binClose_settles I r left
    cases x with
    | timeout => exact absurd rfl hx
    | panic => exact ⟨k, .panic, by simp, fun f hf => by have := hk f hf; simp only at this; simp [call, this]⟩
    | val y => exact ⟨k, .val (.err y.1, y.2), by simp, fun f hf => by have := hk f hf; simp only at this; simp [call, this]⟩
  | setMaxLine n => exact ⟨0, _, by simp, fun _ _ => rfl⟩
  | onLine f => exact ⟨0, _, by simp, fun _ _ => rfl⟩
  | close => exact ⟨0, _, by simp, fun _ _ => rfl⟩

/-- A hook that drops everything does not make `ReadLine` run for ever: the stream ends. -/
example : ∃ r', call LineReader.toy 10
    ((newReader [⟨b!"a|b", none⟩, ⟨[], none⟩, ⟨b!"|", none⟩] 124 : Reader Bool).addHook fun _ => .drop) .readLine =
      .val (.bytes [] (some .eof), r') := ⟨_, rfl⟩

/-- **C73 (progress).** A line that `ReadLine` returns, and data that `Read` returns without error into a buffer that
is not empty, are taken from what is left to read: such calls cannot succeed for ever. `Reader.Less` is a
well-founded order. -/
theorem calls_progress : WellFounded (Reader.Less (Z := Z)) ∧
    (∀ (r r' : Reader Z) (fuel : Nat) (d : Bytes), call I fuel r .readLine = .val (.bytes d none, r') → r'.Less r) ∧
    ∀ (r r' : Reader Z) (fuel n : Nat) (d : Bytes), 0 < n → call I fuel r (.read n) = .val (.bytes d none, r') → r'.Less r := by
  refine ⟨Reader.less_wf, ?_, ?_⟩
  · intro r r' fuel d h
    simp only [call] at h
    split at h
    · rename_i hr
      simp only [Exec.val.injEq, Prod.mk.injEq, Ret.bytes.injEq] at h
      obtain ⟨⟨rfl, rfl⟩, rfl⟩ := h
      exact (readLine_less I hr).2 rfl
    · cases h
    · cases h
  · intro r r' fuel n d hn h
    simp only [call] at h
    split at h
    · rename_i hr
      simp only [Exec.val.injEq, Prod.mk.injEq, Ret.bytes.injEq] at h
      obtain ⟨⟨rfl, rfl⟩, rfl⟩ := h
      exact (read_less I hn hr).2 rfl
    · cases h
    · cases h

/-- A history: each call comes with the amount of work its loops are given. -/
def history : List (Nat × Call) → Reader Z → Exec (Reader Z)
  | [], r => .val r
  | (fuel, c) :: cs, r => match call I fuel r c with
    | .val (_, r') => history cs r'
    | .panic => .panic
    | .timeout => .timeout

/-- The outcome is not a panic, and the reader it leaves is sound. -/
def Good (x : Exec (Reader Z)) : Prop := x ≠ .panic ∧ ∀ r, x = .val r → r.Sound

/-- No panic, and the reader stays sound. -/
theorem history_sound : ∀ (cs : List (Nat × Call)) (r : Reader Z), r.Sound →
    ((∀ b, r.orig = some b → b.src.NoEmpty) ∨ (r.curZ = false ∧ ∀ c ∈ cs, ∀ sched, c.2 ≠ .enableZlib sched)) →
    Good (history I cs r) := by
  intro cs
  induction cs with
  | nil => intro r hs _; exact ⟨by simp [history], fun r' h => by simp only [history, Exec.val.injEq] at h; exact h ▸ hs⟩
  | cons c cs ih =>
    intro r hs hr
    obtain ⟨fuel, c⟩ := c
    have step : ∀ r1 : Reader Z, r1.Sound → r.Keeps' r1 → Good (history I cs r1) := by
      intro r1 h1 h2
      refine ih r1 h1 ?_
      rcases hr with hr | hr
      · exact .inl (h2.1 hr)
      · refine .inr ⟨?_, fun c hc => hr.2 c (by simp [hc])⟩
        cases hz : r1.curZ with
        | false => rfl
        | true => rw [h2.2 hz] at hr; exact absurd hr.1 (by simp)
    cases c with
    | readLine =>
      have := readLine_safe I fuel hs
      simp only [history, call]
      rcases hx : r.readLine I fuel with ⟨⟨⟨d, e⟩, r'⟩⟩ | _ | _
      · exact step _ (this.2 _ _ hx).1 (this.2 _ _ hx).2
      · exact absurd hx this.1
      · exact ⟨by simp, by simp⟩
    | read n =>
      have := read_safe I fuel n hs
      simp only [history, call]
      rcases hx : r.read I fuel n with ⟨⟨⟨d, e⟩, r'⟩⟩ | _ | _
      · exact step _ (this.2 _ _ hx).1 (this.2 _ _ hx).2
      · exact absurd hx this.1
      · exact ⟨by simp, by simp⟩
    | enableZlib sched =>
      rcases hr with hr | hr
      · have := enableZlib_safe I fuel sched hs hr
        simp only [history, call]
        rcases hx : r.enableZlib I fuel sched with ⟨⟨e, r'⟩⟩ | _ | _
        · exact ih _ (this.2 _ _ hx).1 (.inl (this.2 _ _ hx).2)
        · exact absurd hx this.1
        · exact ⟨by simp, by simp⟩
      · exact absurd rfl (hr.2 (fuel, .enableZlib sched) (by simp) sched)
    | binaryRead n left =>
      have := binRead_safe I fuel n left hs
      simp only [history, call]
      rcases hx : r.binRead I fuel n left with ⟨⟨⟨d, e⟩, l, r'⟩⟩ | _ | _
      · exact step _ (this.2 _ _ _ hx).1 (this.2 _ _ _ hx).2
      · exact absurd hx this.1
      · exact ⟨by simp, by simp⟩
    | binaryClose left =>
      have := binClose_safe I fuel left hs
      simp only [history, call]
      rcases hx : r.binClose I fuel left with ⟨⟨e, r'⟩⟩ | _ | _
      · exact step _ (this.2 _ _ hx).1 (this.2 _ _ hx).2
      · exact absurd hx this.1
      · exact ⟨by simp, by simp⟩
    | setMaxLine n => exact step _ hs ⟨fun h => h, fun h => h⟩
    | onLine f => exact step _ hs ⟨fun h => h, fun h => h⟩
    | close =>
      refine step _ ⟨by simp [Reader.close], .inl rfl⟩ ⟨by simp [Reader.close], by simp [Reader.close]⟩

/-- **C74 (partial: the transport must not return `(0, nil)`, or decompression must not be used).**  No history of calls makes
the reader panic, whatever the transport delivers. -/
theorem no_panic_partial (s : Src) (delim : Byte) (cs : List (Nat × Call))
    (h : s.NoEmpty ∨ ∀ c ∈ cs, ∀ sched, c.2 ≠ .enableZlib sched) :
    history I cs (newReader s delim : Reader Z) ≠ .panic := by
  refine (history_sound I cs _ ⟨by simp [newReader], .inl rfl⟩ ?_).1
  rcases h with h | h
  · left; intro b hb; cases hb; exact h
  · right; exact ⟨rfl, h⟩

/-- A history in which every kind of call is made, over a transport that fails in the middle of a compressed section. -/
example : Src.NoEmpty [⟨b!"a|xz", none⟩, ⟨b!"b", none⟩, ⟨[], some .unexpectedEOF⟩] ∧
    ∃ r, history LineReader.toy [(20, .readLine), (20, .enableZlib []), (20, .read 1), (20, .setMaxLine 5),
      (20, .readLine), (20, .binaryRead 2 2), (20, .binaryClose 2), (20, .close), (20, .readLine)]
      (newReader [⟨b!"a|xz", none⟩, ⟨b!"b", none⟩, ⟨[], some .unexpectedEOF⟩] 124) = .val r :=
  ⟨by simp [Src.NoEmpty], _, rfl⟩

/-- **Finding.** When decompression is on and the transport returns `(0, nil)`, which `io.Reader` discourages but allows,
the reader panics: `bufReader.ReadByte` indexes an empty buffer. -/
theorem empty_read_panics : history LineReader.toy [(20, .enableZlib []), (20, .readLine)]
    (newReader [⟨b!"xz", none⟩, ⟨[], none⟩, ⟨b!"a|", none⟩] 124) = .panic := rfl

/-- Without decompression the same transport does no harm. -/
theorem empty_read_harmless : ∃ r, call LineReader.toy 20 (newReader [⟨b!"xz", none⟩, ⟨[], none⟩, ⟨b!"a|", none⟩] 124) .readLine =
    .val (.bytes b!"xza|" none, r) := ⟨_, rfl⟩

end Verif.Props.LineReaderTotal
