import Verif.Lineproto.HookedMemory
import Verif.Props.LineMemory

/-!
# C105: hooks of the line reader that write to the line

Model: `Verif/Lineproto/HookedMemory.lean`.

The specification is the program a user would write without hooks: call `ReadLine`, do with the line what the hooks do, one after the
other, and call `ReadLine` again when one of them wants the line to be dropped.  It is a program as in `Verif.Props.LineMemory`: it
knows some arrays, the lines it got among them, and writes to them what it likes.
-/

namespace Verif.Props.LineHooksMemory

open Verif Verif.Lineproto Verif.Lineproto.Mem Verif.Props.LineMemory Verif.Props.LineReaderTotal

variable {σ Z : Type} (I : Inflater Z) (W : World) (P : Event → Prop)

/-! ### The specification -/

/-- What the state of the program refers to: some arrays. -/
structure Knows (knows : σ → List Nat) (s : σ) (st : State Z) : Prop where
  all : ∀ a ∈ knows s, a ∈ st.known

/-- The hook gives an answer for the line `l`; meanwhile the steps `es` are done, which are of the kind `P`. -/
structure Acts (f : LineHook σ Z) (l : Slice) (s : σ) (st : State Z) (a : Hook) (s' : σ) (es : List Event) (st' : State Z) : Prop where
  val : ∃ fuel, f fuel l s st.r st.h = .val (a, s', st'.r, st'.h)
  runs : Runs I W st es st'
  only : ∀ e ∈ es, P e

/-- The line is shown to the hooks, one after the other, up to the first that does not accept it. -/
inductive ShownTo : List (LineHook σ Z) → Slice → σ → State Z → Hook → σ → List Event → State Z → Prop
  | nil (l : Slice) (s : σ) (st : State Z) : ShownTo [] l s st .accept s [] st
  | next {f : LineHook σ Z} {fs : List (LineHook σ Z)} {l : Slice} {s s1 s2 : σ} {st st1 st2 : State Z} {a : Hook} {es es' : List Event}
      (h1 : Acts I W P f l s st .accept s1 es st1) (t : ShownTo fs l s1 st1 a s2 es' st2) : ShownTo (f :: fs) l s st a s2 (es ++ es') st2
  | stop {f : LineHook σ Z} {fs : List (LineHook σ Z)} {l : Slice} {s s1 : σ} {st st1 : State Z} {a : Hook} {es : List Event}
      (h1 : Acts I W P f l s st a s1 es st1) (ha : a ≠ .accept) : ShownTo (f :: fs) l s st a s1 es st1

/-- A call of `ReadLine` that returns this slice and this error. -/
def Reads (st : State Z) (l : Option Slice) (e : Option Err) (ev : Event) (st' : State Z) : Prop :=
  ∃ fuel, mcall I W fuel st.r st.h .readLine = .val (.line l e, st'.r, st'.h) ∧ st' = st.after (.line l e) st'.r st'.h ∧
    ev = .call fuel .readLine (.bytes (deref st'.h l) e)

/-- A call of `ReadLine` done by hand, on a reader without hooks. -/
inductive ByHand (fs : List (LineHook σ Z)) : σ → State Z → Option Slice × Option Err → σ → List Event → State Z → Prop
  /-- `ReadLine` fails -/
  | failed {s : σ} {st st1 : State Z} {l : Option Slice} {e : Err} {ev : Event} (h : Reads I W st l (some e) ev st1) :
      ByHand fs s st (l, some e) s [ev] st1
  | accepted {s s1 : σ} {st st1 st2 : State Z} {l : Slice} {ev : Event} {es : List Event} (h : Reads I W st (some l) none ev st1)
      (hh : ShownTo I W P fs l s st1 .accept s1 es st2) : ByHand fs s st (some l, none) s1 (ev :: es) st2
  | refused {s s1 : σ} {st st1 st2 : State Z} {l : Slice} {e : Err} {ev : Event} {es : List Event} (h : Reads I W st (some l) none ev st1)
      (hh : ShownTo I W P fs l s st1 (.fail e) s1 es st2) : ByHand fs s st (none, some e) s1 (ev :: es) st2
  | dropped {s s1 s2 : σ} {st st1 st2 st3 : State Z} {l : Slice} {res : Option Slice × Option Err} {ev : Event} {es es' : List Event}
      (h : Reads I W st (some l) none ev st1) (hh : ShownTo I W P fs l s st1 .drop s1 es st2) (t : ByHand fs s1 st2 res s2 es' st3) :
      ByHand fs s st res s2 (ev :: es ++ es') st3

/-- The hook does what a program can do, in steps of the kind `P`: it uses the line, the arrays its state refers to, those it makes, and the
calls of the reader.  When it is done its state refers only to arrays the program knows then. -/
def Program (knows : σ → List Nat) (f : LineHook σ Z) : Prop :=
  ∀ fuel (l : Slice) s (st : State Z) a s' r' h', Knows knows s st → l.arr ∈ st.known → f fuel l s st.r st.h = .val (a, s', r', h') →
    ∃ es st', Runs I W st es st' ∧ (∀ e ∈ es, P e) ∧ st'.r = r' ∧ st'.h = h' ∧ Knows knows s' st'

/-- The hook does not close the reader, nor register hooks. -/
def KeepsOpen (f : LineHook σ Z) : Prop :=
  ∀ fuel l s (r : MReader Z) h a s' r' h', r.orig.isSome = true → r.onLine = [] → f fuel l s r h = .val (a, s', r', h') →
    r'.orig.isSome = true ∧ r'.onLine = []

/-- More fuel does not change what the hook does. -/
def Steady (f : LineHook σ Z) : Prop := ∀ fuel l s r h, Exec.Ext (f fuel l s r h) (f (fuel + 1) l s r h)

/-- `ReadLine` of the reader with hooks. -/
def HookedReads (fs : List (LineHook σ Z)) (s : σ) (r : MReader Z) (h : Heap) (res : Option Slice × Option Err) (s' : σ) (r' : MReader Z)
    (h' : Heap) : Prop :=
  ∃ k, ∀ fuel ≥ k, r.hookedLine I W fs fuel s h = .val (res, s', r', h')

/-- One of the hooks panics. -/
inductive HookPanics : List (LineHook σ Z) → Slice → σ → State Z → Prop
  | here {f : LineHook σ Z} {fs : List (LineHook σ Z)} {l : Slice} {s : σ} {st : State Z} {fuel : Nat} (h : f fuel l s st.r st.h = .panic) :
      HookPanics (f :: fs) l s st
  | next {f : LineHook σ Z} {fs : List (LineHook σ Z)} {l : Slice} {s s1 : σ} {st st1 : State Z} {es : List Event}
      (h1 : Acts I W P f l s st .accept s1 es st1) (t : HookPanics fs l s1 st1) : HookPanics (f :: fs) l s st

/-- A call done by hand panics: `ReadLine` of the reader without hooks does, or one of the hooks. -/
inductive HandPanics (fs : List (LineHook σ Z)) : σ → State Z → Prop
  | read {s : σ} {st : State Z} {fuel : Nat} (h : mcall I W fuel st.r st.h .readLine = .panic) : HandPanics fs s st
  | hook {s : σ} {st st1 : State Z} {l : Slice} {ev : Event} (h : Reads I W st (some l) none ev st1) (hh : HookPanics I W P fs l s st1) :
      HandPanics fs s st
  | later {s s1 : σ} {st st1 st2 : State Z} {l : Slice} {ev : Event} {es : List Event}
      (h : Reads I W st (some l) none ev st1) (hh : ShownTo I W P fs l s st1 .drop s1 es st2) (t : HandPanics fs s1 st2) : HandPanics fs s st

/-! ### The loop -/

theorem scan_keeps {fuel : Nat} {r : MReader Z} {b : MSrc} {h : Heap} {x : Bytes × Bool × Option Err} {r' : MReader Z} {h' : Heap}
    (hs : r.scan I W fuel b h = .val (x, r', h')) : r'.onLine = r.onLine ∧ (r.orig = some b → r'.orig.isSome = true) := by
  unfold MReader.scan at hs
  split at hs
  · split at hs
    · cases hs
    · split at hs
      · split at hs
        · cases hs
        · split at hs
          · cases hs
          · cases hs
          · split at hs
            · simp only [Exec.val.injEq, Prod.mk.injEq] at hs; rw [← hs.2.1]; simp_all
            · simp only [Exec.val.injEq, Prod.mk.injEq] at hs; rw [← hs.2.1]; simp_all
      · simp only [Exec.val.injEq, Prod.mk.injEq] at hs; rw [← hs.2.1]; simp_all
  · split at hs
    · split at hs
      · simp only [Exec.val.injEq, Prod.mk.injEq] at hs; rw [← hs.2.1]; simp_all
      · simp only [Exec.val.injEq, Prod.mk.injEq] at hs; rw [← hs.2.1]; simp_all
    · simp only [Exec.val.injEq, Prod.mk.injEq] at hs; rw [← hs.2.1]; simp_all

/-- What the loop does after a line is complete. -/
def afterLine (fs : List (LineHook σ Z)) (fuel : Nat) (s : σ) :
    Exec ((Option Slice × Option Err) × MReader Z × Heap) → Exec ((Option Slice × Option Err) × σ × MReader Z × Heap)
  | .panic => .panic
  | .timeout => .timeout
  | .val ((l, some e), r, h) => .val ((l, some e), s, r, h)
  | .val ((none, none), r, h) => .val ((none, none), s, r, h)
  | .val ((some l, none), r, h) =>
    match runLineHooks fuel l fs s r h with
    | .panic => .panic
    | .timeout => .timeout
    | .val (.accept, s3, r3, h3) => .val ((some l, none), s3, r3, h3)
    | .val (.drop, s3, r3, h3) => MReader.hookedLoop I W fs fuel s3 { r3 with line.len := 0 } h3
    | .val (.fail e, s3, r3, h3) => .val ((none, some e), s3, r3, h3)

theorem loop_split (fs : List (LineHook σ Z)) (s : σ) : ∀ (fuel : Nat) (r : MReader Z) (h : Heap), r.onLine = [] →
    ∃ fuel' ≤ fuel - 1, r.hookedLoop I W fs fuel s h = afterLine I W fs fuel' s (r.readLoop I W fuel h) := by
  intro fuel
  induction fuel with
  | zero => intro r h _; exact ⟨0, by omega, rfl⟩
  | succ fuel ih =>
    intro r h ho
    have up : ∀ (r : MReader Z) (h : Heap), r.onLine = [] →
        ∃ fuel' ≤ fuel + 1 - 1, r.hookedLoop I W fs fuel s h = afterLine I W fs fuel' s (r.readLoop I W fuel h) := by
      intro r h ho
      obtain ⟨f', h1, h2⟩ := ih r h ho
      exact ⟨f', by omega, h2⟩
    rw [MReader.hookedLoop, MReader.readLoop]
    cases hb : r.orig with
    | none => exact ⟨0, by omega, rfl⟩
    | some b =>
      dsimp only
      by_cases hm : r.maxLine > 0 ∧ (r.line.len : Int) ≥ r.maxLine
      · rw [if_pos hm, if_pos hm]; exact ⟨0, by omega, rfl⟩
      · rw [if_neg hm, if_neg hm]
        cases hs : r.scan I W fuel b h with
        | panic => exact ⟨0, by omega, rfl⟩
        | timeout => exact ⟨0, by omega, rfl⟩
        | val v =>
          obtain ⟨⟨pref, more, err⟩, r1, h1⟩ := v
          have hr1 : r1.onLine = [] := (scan_keeps I W hs).1.trans ho
          dsimp only
          by_cases he : err = some .eof ∧ r1.zlibOn = true
          · rw [if_pos he, if_pos he]; exact up _ _ hr1
          · rw [if_neg he, if_neg he]
            cases err with
            | some e => exact ⟨0, by omega, rfl⟩
            | none =>
              dsimp only
              cases more with
              | true => exact up _ _ hr1
              | false =>
                refine ⟨fuel, by omega, ?_⟩
                rw [hr1]
                rfl

/-- A result of the loop without hooks: the hooks are as before, the reader is open, and a line without an error is not nil. -/
theorem readLoop_keeps : ∀ (fuel : Nat) (r : MReader Z) (h : Heap) {l : Option Slice} {e : Option Err} {r' : MReader Z} {h' : Heap},
    r.onLine = [] → r.readLoop I W fuel h = .val ((l, e), r', h') → r'.onLine = [] ∧ r'.orig.isSome = true ∧ (e = none → l.isSome = true) := by
  intro fuel
  induction fuel with
  | zero => intro r h l e r' h' _ hv; cases hv
  | succ fuel ih =>
    intro r h l e r' h' ho hv
    rw [MReader.readLoop] at hv
    cases hb : r.orig with
    | none => rw [hb] at hv; cases hv
    | some b =>
      rw [hb] at hv
      dsimp only at hv
      split at hv
      · simp only [Exec.val.injEq, Prod.mk.injEq] at hv
        obtain ⟨⟨rfl, rfl⟩, rfl, rfl⟩ := hv
        exact ⟨ho, by simp [hb], by simp⟩
      · cases hs : r.scan I W fuel b h with
        | panic => rw [hs] at hv; cases hv
        | timeout => rw [hs] at hv; cases hv
        | val v =>
          obtain ⟨⟨pref, more, err⟩, r1, h1⟩ := v
          obtain ⟨k1, k2⟩ := scan_keeps I W hs
          have hr1 : r1.onLine = [] := k1.trans ho
          have ho1 := k2 hb
          rw [hs] at hv
          dsimp only at hv
          split at hv
          · exact (ih _ _ · hv) hr1
          · cases err with
            | some e =>
              simp only [Exec.val.injEq, Prod.mk.injEq] at hv
              obtain ⟨⟨rfl, rfl⟩, rfl, rfl⟩ := hv
              exact ⟨hr1, ho1, by simp⟩
            | none =>
              dsimp only at hv
              cases more with
              | true => exact (ih _ _ · hv) hr1
              | false =>
                rw [hr1] at hv
                simp only [runHooks, Bool.false_eq_true, if_false, Exec.val.injEq, Prod.mk.injEq] at hv
                obtain ⟨⟨rfl, rfl⟩, rfl, rfl⟩ := hv
                exact ⟨rfl, ho1, by simp⟩

/-! ### Steps of the program -/

theorem runs_known {st st' : State Z} {es : List Event} (h : Runs I W st es st') {a : Nat} (ha : a ∈ st.known) : a ∈ st'.known := by
  induction h with
  | nil => exact ha
  | snoc _ hd ih => exact hd.known I W ih

theorem reads_does {st st' : State Z} {l : Option Slice} {e : Option Err} {ev : Event} (h : Reads I W st l e ev st') : Does I W st ev st' := by
  obtain ⟨fuel, h1, h2, rfl⟩ := h
  have := Does.call (I := I) (W := W) (st := st) fuel .readLine (by simp [MCall.dest]) h1
  rw [← h2] at this
  exact this

theorem runs_cons {st st1 st2 : State Z} {e : Event} {es : List Event} (h : Does I W st e st1) (h2 : Runs I W st1 es st2) :
    Runs I W st (e :: es) st2 := Runs.append I W (.snoc (es := []) .nil h) h2

theorem shown_runs {fs : List (LineHook σ Z)} {l : Slice} {s s' : σ} {st st' : State Z} {a : Hook} {es : List Event}
    (h : ShownTo I W P fs l s st a s' es st') : Runs I W st es st' := by
  induction h with
  | nil => exact .nil
  | next h1 _ ih => exact Runs.append I W h1.runs ih
  | stop h1 _ => exact h1.runs

/-- What is done by hand is a program that uses a reader without hooks. -/
theorem byHand_runs {fs : List (LineHook σ Z)} {s s' : σ} {st st' : State Z} {res : Option Slice × Option Err} {es : List Event}
    (h : ByHand I W P fs s st res s' es st') : Runs I W st es st' := by
  induction h with
  | failed h => exact runs_cons I W (reads_does I W h) .nil
  | accepted h hh => exact runs_cons I W (reads_does I W h) (shown_runs I W P hh)
  | refused h hh => exact runs_cons I W (reads_does I W h) (shown_runs I W P hh)
  | dropped h hh _ ih => exact runs_cons I W (reads_does I W h) (Runs.append I W (shown_runs I W P hh) ih)

variable {knows : σ → List Nat}

theorem shown_of_run (fuel : Nat) (l : Slice) : ∀ (fs : List (LineHook σ Z)) (s : σ) (st : State Z) {a : Hook} {s' : σ} {r' : MReader Z} {h' : Heap},
    (∀ f ∈ fs, Program I W P knows f) → Knows knows s st → l.arr ∈ st.known → runLineHooks fuel l fs s st.r st.h = .val (a, s', r', h') →
    ∃ es st', ShownTo I W P fs l s st a s' es st' ∧ st'.r = r' ∧ st'.h = h' ∧ Knows knows s' st' := by
  intro fs
  induction fs with
  | nil =>
    intro s st a s' r' h' _ hk hl hv
    simp only [runLineHooks, Exec.val.injEq, Prod.mk.injEq] at hv
    obtain ⟨rfl, rfl, rfl, rfl⟩ := hv
    exact ⟨[], st, .nil _ _ _, rfl, rfl, hk⟩
  | cons f fs ih =>
    intro s st a s' r' h' hp hk hl hv
    rw [runLineHooks] at hv
    cases hf : f fuel l s st.r st.h with
    | panic => rw [hf] at hv; cases hv
    | timeout => rw [hf] at hv; cases hv
    | val v =>
      obtain ⟨a1, s1, r1, h1⟩ := v
      obtain ⟨es, st1, g1, g0, rfl, rfl, g4⟩ := hp f (by simp) fuel l s st a1 s1 r1 h1 hk hl hf
      rw [hf] at hv
      have act : Acts I W P f l s st a1 s1 es st1 := ⟨⟨fuel, hf⟩, g1, g0⟩
      cases a1 with
      | accept =>
        obtain ⟨es', st', t1, t2⟩ := ih s1 st1 (fun f hf => hp f (by simp [hf])) g4 (runs_known I W g1 hl) hv
        exact ⟨_, st', .next act t1, t2⟩
      | drop =>
        simp only [Exec.val.injEq, Prod.mk.injEq] at hv
        obtain ⟨rfl, rfl, rfl, rfl⟩ := hv
        exact ⟨_, _, .stop act (by simp), rfl, rfl, g4⟩
      | fail e =>
        simp only [Exec.val.injEq, Prod.mk.injEq] at hv
        obtain ⟨rfl, rfl, rfl, rfl⟩ := hv
        exact ⟨_, _, .stop act (by simp), rfl, rfl, g4⟩

theorem panics_of_run (fuel : Nat) (l : Slice) : ∀ (fs : List (LineHook σ Z)) (s : σ) (st : State Z),
    (∀ f ∈ fs, Program I W P knows f) → Knows knows s st → l.arr ∈ st.known → runLineHooks fuel l fs s st.r st.h = .panic →
    HookPanics I W P fs l s st := by
  intro fs
  induction fs with
  | nil => intro s st _ _ _ hv; cases hv
  | cons f fs ih =>
    intro s st hp hk hl hv
    rw [runLineHooks] at hv
    cases hf : f fuel l s st.r st.h with
    | panic => exact .here hf
    | timeout => rw [hf] at hv; cases hv
    | val v =>
      obtain ⟨a1, s1, r1, h1⟩ := v
      obtain ⟨es, st1, g1, g0, rfl, rfl, g4⟩ := hp f (by simp) fuel l s st a1 s1 r1 h1 hk hl hf
      rw [hf] at hv
      cases a1 with
      | accept => exact .next ⟨⟨fuel, hf⟩, g1, g0⟩ (ih s1 st1 (fun f hf => hp f (by simp [hf])) g4 (runs_known I W g1 hl) hv)
      | drop => cases hv
      | fail e => cases hv

theorem run_keeps (fuel : Nat) (l : Slice) : ∀ (fs : List (LineHook σ Z)) (s : σ) (r : MReader Z) (h : Heap) {a : Hook} {s' : σ} {r' : MReader Z} {h' : Heap},
    (∀ f ∈ fs, KeepsOpen f) → r.orig.isSome = true → r.onLine = [] → runLineHooks fuel l fs s r h = .val (a, s', r', h') →
    r'.orig.isSome = true ∧ r'.onLine = [] := by
  intro fs
  induction fs with
  | nil =>
    intro s r h a s' r' h' _ h1 h2 hv
    simp only [runLineHooks, Exec.val.injEq, Prod.mk.injEq] at hv
    obtain ⟨rfl, rfl, rfl, rfl⟩ := hv
    exact ⟨h1, h2⟩
  | cons f fs ih =>
    intro s r h a s' r' h' hp h1 h2 hv
    rw [runLineHooks] at hv
    cases hf : f fuel l s r h with
    | panic => rw [hf] at hv; cases hv
    | timeout => rw [hf] at hv; cases hv
    | val v =>
      obtain ⟨a1, s1, r1, g1⟩ := v
      have := hp f (by simp) fuel l s r h a1 s1 r1 g1 h1 h2 hf
      rw [hf] at hv
      cases a1 with
      | accept => exact ih s1 r1 g1 (fun f hf => hp f (by simp [hf])) this.1 this.2 hv
      | drop =>
        simp only [Exec.val.injEq, Prod.mk.injEq] at hv
        obtain ⟨rfl, rfl, rfl, rfl⟩ := hv
        exact this
      | fail e =>
        simp only [Exec.val.injEq, Prod.mk.injEq] at hv
        obtain ⟨rfl, rfl, rfl, rfl⟩ := hv
        exact this

/-! ### The theorems -/

theorem reads_of {st : State Z} {fuel : Nat} {l : Option Slice} {e : Option Err} {r : MReader Z} {h : Heap}
    (hv : st.r.readLine I W fuel st.h = .val ((l, e), r, h)) :
    Reads I W st l e (.call fuel .readLine (.bytes (deref h l) e)) (st.after (.line l e) r h) := by
  have h1 : (st.after (.line l e) r h).r = r := by unfold State.after; split <;> rfl
  have h2 : (st.after (.line l e) r h).h = h := by unfold State.after; split <;> rfl
  refine ⟨fuel, ?_, by rw [h1, h2], by rw [h2]⟩
  rw [h1, h2]
  simp [mcall, hv]

theorem after_r {st : State Z} {l : Option Slice} {e : Option Err} {r : MReader Z} {h : Heap} :
    (st.after (.line l e) r h).r = r ∧ (st.after (.line l e) r h).h = h := by
  unfold State.after; split <;> exact ⟨rfl, rfl⟩

theorem Knows.after {s : σ} {st : State Z} (hk : Knows knows s st) {l : Option Slice} {e : Option Err} {r : MReader Z} {h : Heap} :
    Knows knows s (st.after (.line l e) r h) := by
  refine ⟨fun a ha => ?_⟩
  unfold State.after; split
  · exact List.mem_cons_of_mem _ (hk.all a ha)
  · exact hk.all a ha

/-- What one call of the reader with hooks does, for any amount of fuel. -/
theorem call_by_hand {fs : List (LineHook σ Z)} (hp : ∀ f ∈ fs, Program I W P knows f) (ho : ∀ f ∈ fs, KeepsOpen f) : ∀ (fuel : Nat) {s : σ} {st : State Z},
    st.r.onLine = [] → Knows knows s st →
    (∀ {res : Option Slice × Option Err} {s' : σ} {r' : MReader Z} {h' : Heap}, st.r.hookedLine I W fs fuel s st.h = .val (res, s', r', h') →
      ∃ es st', ByHand I W P fs s st res s' es st' ∧ st'.r = r' ∧ st'.h = h' ∧ Knows knows s' st' ∧ r'.onLine = []) ∧
    (st.r.hookedLine I W fs fuel s st.h = .panic → HandPanics I W P fs s st) := by
  intro fuel
  induction fuel using Nat.strongRecOn with
  | ind fuel ih =>
    intro s st hon hk
    cases hb : st.r.orig with
    | none =>
      constructor
      · intro res s' r' h' hv
        simp only [MReader.hookedLine, hb, Exec.val.injEq, Prod.mk.injEq] at hv
        obtain ⟨rfl, rfl, rfl, rfl⟩ := hv
        have hr : st.r.readLine I W 0 st.h = .val ((none, some .readerClosed), st.r, st.h) := by simp [MReader.readLine, hb]
        exact ⟨_, _, .failed (reads_of I W hr), after_r.1, after_r.2, hk.after, hon⟩
      · intro hv
        simp [MReader.hookedLine, hb] at hv
    | some b =>
      have e1 : st.r.hookedLine I W fs fuel s st.h = MReader.hookedLoop I W fs fuel s { st.r with line.len := 0 } st.h := by
        simp [MReader.hookedLine, hb]
      have e2 : st.r.readLine I W fuel st.h = MReader.readLoop I W fuel { st.r with line.len := 0 } st.h := by
        simp [MReader.readLine, hb]
      obtain ⟨fuel', hlt, hsp⟩ := loop_split I W fs s fuel { st.r with line.len := 0 } st.h hon
      rw [e1, hsp, ← e2]
      cases hv : st.r.readLine I W fuel st.h with
      | panic => exact ⟨(by intro _ _ _ _ h; cases h), fun _ => .read (fuel := fuel) (by simp [mcall, hv])⟩
      | timeout => exact ⟨(by intro _ _ _ _ h; cases h), by intro h; cases h⟩
      | val v =>
        obtain ⟨⟨l, e⟩, r1, h1⟩ := v
        obtain ⟨k1, k2, k3⟩ := readLoop_keeps I W fuel { st.r with line.len := 0 } st.h hon (e2 ▸ hv)
        have hrd := reads_of I W hv
        cases e with
        | some e =>
          refine ⟨?_, (by intro h; cases h)⟩
          intro res s' r' h' hx
          simp only [afterLine, Exec.val.injEq, Prod.mk.injEq] at hx
          obtain ⟨rfl, rfl, rfl, rfl⟩ := hx
          exact ⟨_, _, .failed hrd, after_r.1, after_r.2, hk.after, k1⟩
        | none =>
          cases l with
          | none => simp at k3
          | some l =>
            have hf : 0 < fuel := by
              rcases Nat.eq_zero_or_pos fuel with h0 | h0
              · rw [h0, MReader.readLine, hb] at hv; cases hv
              · exact h0
            have hl : l.arr ∈ (st.after (.line (some l) none) r1 h1).known := by simp [State.after]
            have hk1 : Knows knows s (st.after (.line (some l) none) r1 h1) := hk.after
            dsimp only [afterLine]
            cases hh : runLineHooks fuel' l fs s r1 h1 with
            | panic =>
              refine ⟨(by intro _ _ _ _ h; cases h), fun _ => .hook hrd ?_⟩
              exact panics_of_run I W P fuel' l fs s _ hp hk1 hl (by rw [after_r.1, after_r.2]; exact hh)
            | timeout => exact ⟨(by intro _ _ _ _ h; cases h), by intro h; cases h⟩
            | val w =>
              obtain ⟨a, s3, r3, h3⟩ := w
              obtain ⟨es, st', g1, rfl, rfl, g4⟩ := shown_of_run I W P fuel' l fs s (st.after (.line (some l) none) r1 h1) hp hk1 hl
                (by rw [after_r.1, after_r.2]; exact hh)
              obtain ⟨o1, o2⟩ := run_keeps fuel' l fs s r1 h1 ho k2 k1 hh
              cases a with
              | accept =>
                refine ⟨?_, (by intro h; cases h)⟩
                intro res s' r' h' hx
                simp only [Exec.val.injEq, Prod.mk.injEq] at hx
                obtain ⟨rfl, rfl, rfl, rfl⟩ := hx
                exact ⟨_, _, .accepted hrd g1, rfl, rfl, g4, o2⟩
              | fail e =>
                refine ⟨?_, (by intro h; cases h)⟩
                intro res s' r' h' hx
                simp only [Exec.val.injEq, Prod.mk.injEq] at hx
                obtain ⟨rfl, rfl, rfl, rfl⟩ := hx
                exact ⟨_, _, .refused hrd g1, rfl, rfl, g4, o2⟩
              | drop =>
                have e3 : MReader.hookedLoop I W fs fuel' s3 { st'.r with line.len := 0 } st'.h = st'.r.hookedLine I W fs fuel' s3 st'.h := by
                  cases h : st'.r.orig with
                  | none => rw [h] at o1; cases o1
                  | some b => simp [MReader.hookedLine, h]
                dsimp only
                rw [e3]
                obtain ⟨i1, i2⟩ := ih fuel' (by omega) (s := s3) (st := st') o2 g4
                refine ⟨?_, fun hx => .later hrd g1 (i2 hx)⟩
                intro res s' r' h' hx
                obtain ⟨es', st'', j1, j2⟩ := i1 hx
                exact ⟨_, _, .dropped hrd g1 j1, j2⟩

/-! ### Fuel -/

theorem zFill_mono (want : Nat) : ∀ (f : Nat) (zr : ZRd Z) (b : MSrc) (h : Heap),
    Exec.Ext (Mem.zFill I W want f zr b h) (Mem.zFill I W want (f + 1) zr b h) := by
  intro f
  induction f with
  | zero => intro zr b h; exact .inl rfl
  | succ f ih =>
    intro zr b h
    rw [Mem.zFill, Mem.zFill]
    split
    · exact .inr rfl
    · split
      · exact .inr rfl
      · split
        · exact .inr rfl
        · exact .inr rfl
        · split
          · exact ih _ _ _
          · exact ih _ _ _
          · exact .inr rfl
          · exact .inr rfl

theorem zRead_mono (f n : Nat) (zr : ZRd Z) (b : MSrc) (h : Heap) :
    Exec.Ext (Mem.zRead I W f n zr b h) (Mem.zRead I W (f + 1) n zr b h) := by
  unfold Mem.zRead
  rcases zFill_mono I W (max 1 (zr.sched.headD (1, false)).1) f zr b h with h | h
  · left; rw [h]
  · right; rw [h]

theorem scan_mono (f : Nat) (r : MReader Z) (b : MSrc) (h : Heap) : Exec.Ext (r.scan I W f b h) (r.scan I W (f + 1) b h) := by
  unfold MReader.scan
  split
  · split
    · exact .inr rfl
    · split
      · split
        · exact .inr rfl
        · rename_i zr _
          rcases zRead_mono I W f readBuf zr b h with h | h
          · left; rw [h]
          · right; rw [h]
      · exact .inr rfl
  · exact .inr rfl

theorem settle {α : Type} {f : Nat → Exec α} (hf : ∀ n, Exec.Ext (f n) (f (n + 1))) {n : Nat} {x : Exec α} (h : f n = x) (hx : x ≠ .timeout) :
    ∀ m ≥ n, f m = x := by
  intro m hm
  induction hm with
  | refl => exact h
  | step _ ih =>
    rcases hf _ with e | e
    · rw [ih] at e; exact absurd e hx
    · rw [← e, ih]

theorem runLineHooks_mono {fs : List (LineHook σ Z)} (hst : ∀ f ∈ fs, Steady f) (n : Nat) (l : Slice) :
    ∀ (s : σ) (r : MReader Z) (h : Heap), Exec.Ext (runLineHooks n l fs s r h) (runLineHooks (n + 1) l fs s r h) := by
  induction fs with
  | nil => intro s r h; exact .inr rfl
  | cons f fs ih =>
    intro s r h
    rw [runLineHooks, runLineHooks]
    rcases hst f (by simp) n l s r h with e | e
    · left; rw [e]
    · rw [← e]
      split
      · exact .inr rfl
      · exact .inr rfl
      · exact ih (fun f hf => hst f (by simp [hf])) _ _ _
      · exact .inr rfl
      · exact .inr rfl

theorem hookedLoop_mono {fs : List (LineHook σ Z)} (hst : ∀ f ∈ fs, Steady f) : ∀ (n : Nat) (s : σ) (r : MReader Z) (h : Heap),
    Exec.Ext (r.hookedLoop I W fs n s h) (r.hookedLoop I W fs (n + 1) s h) := by
  intro n
  induction n with
  | zero => intro s r h; exact .inl rfl
  | succ n ih =>
    intro s r h
    rw [MReader.hookedLoop, MReader.hookedLoop]
    cases hb : r.orig with
    | none => exact .inr rfl
    | some b =>
      dsimp only
      split
      · exact .inr rfl
      · rcases scan_mono I W n r b h with e | e
        · left; rw [e]
        · rw [← e]
          cases r.scan I W n b h with
          | panic => exact .inr rfl
          | timeout => exact .inr rfl
          | val v =>
            obtain ⟨⟨pref, more, err⟩, r1, h1⟩ := v
            dsimp only
            split
            · exact ih _ _ _
            · cases err with
              | some e => exact .inr rfl
              | none =>
                dsimp only
                split
                · exact ih _ _ _
                · rcases runLineHooks_mono hst n (append W h1 r1.line pref).1 s { r1 with line := (append W h1 r1.line pref).1 }
                    (append W h1 r1.line pref).2 with e | e
                  · left; rw [e]
                  · rw [← e]
                    split
                    · exact .inr rfl
                    · exact .inr rfl
                    · exact .inr rfl
                    · exact ih _ _ _
                    · exact .inr rfl

theorem loop_long (fs : List (LineHook σ Z)) (s : σ) (m : Nat) : ∀ (n : Nat) (r : MReader Z) (h : Heap)
    {x : (Option Slice × Option Err) × MReader Z × Heap}, r.onLine = [] → r.readLoop I W n h = .val x →
    ∃ m' ≥ m, r.hookedLoop I W fs (n + m) s h = afterLine I W fs m' s (.val x) := by
  intro n
  induction n with
  | zero => intro r h x _ hv; cases hv
  | succ n ih =>
    intro r h x ho hv
    rw [MReader.readLoop] at hv
    rw [show n + 1 + m = (n + m) + 1 by omega, MReader.hookedLoop]
    cases hb : r.orig with
    | none => rw [hb] at hv; cases hv
    | some b =>
      rw [hb] at hv
      dsimp only at hv ⊢
      by_cases hm : r.maxLine > 0 ∧ (r.line.len : Int) ≥ r.maxLine
      · rw [if_pos hm] at hv ⊢
        refine ⟨m, Nat.le_refl _, ?_⟩
        cases hv; rfl
      · rw [if_neg hm] at hv ⊢
        cases hs : r.scan I W n b h with
        | panic => rw [hs] at hv; cases hv
        | timeout => rw [hs] at hv; cases hv
        | val v =>
          rw [settle (fun k => scan_mono I W k r b h) hs (by simp) (n + m) (by omega)]
          obtain ⟨⟨pref, more, err⟩, r1, h1⟩ := v
          have hr1 : r1.onLine = [] := (scan_keeps I W hs).1.trans ho
          rw [hs] at hv
          dsimp only at hv ⊢
          by_cases he : err = some .eof ∧ r1.zlibOn = true
          · rw [if_pos he] at hv ⊢
            exact (ih _ _ · hv) hr1
          · rw [if_neg he] at hv ⊢
            cases err with
            | some e =>
              refine ⟨m, Nat.le_refl _, ?_⟩
              cases hv; rfl
            | none =>
              dsimp only at hv ⊢
              cases more with
              | true => exact (ih _ _ · hv) hr1
              | false =>
                refine ⟨n + m, by omega, ?_⟩
                rw [hr1] at hv ⊢
                cases hv
                rfl

theorem run_of_shown {fs : List (LineHook σ Z)} {l : Slice} {s s' : σ} {st st' : State Z} {a : Hook} {es : List Event}
    (h : ShownTo I W P fs l s st a s' es st') (hst : ∀ f ∈ fs, Steady f) :
    ∃ k, ∀ n ≥ k, runLineHooks n l fs s st.r st.h = .val (a, s', st'.r, st'.h) := by
  induction h with
  | nil => exact ⟨0, fun _ _ => rfl⟩
  | @next f fs l s s1 s2 st st1 st2 a es es' h1 _ ih =>
    obtain ⟨k, hk⟩ := ih fun f hf => hst f (by simp [hf])
    obtain ⟨n0, hn⟩ := h1.val
    have := settle (fun k => hst f (by simp) k l s st.r st.h) hn (by simp)
    refine ⟨max k n0, fun n hn => ?_⟩
    rw [runLineHooks, this n (by omega)]
    exact hk n (by omega)
  | @stop f fs l s s1 st st1 a es h1 ha =>
    obtain ⟨n0, hn⟩ := h1.val
    have := settle (fun k => hst f (by simp) k l s st.r st.h) hn (by simp)
    refine ⟨n0, fun n hn => ?_⟩
    rw [runLineHooks, this n hn]
    cases a with
    | accept => exact absurd rfl ha
    | drop => rfl
    | fail e => rfl

/-- The call by hand, as a call of the reader with hooks. -/
theorem hooked_of_hand {fs : List (LineHook σ Z)} (hst : ∀ f ∈ fs, Steady f) (ho : ∀ f ∈ fs, KeepsOpen f) {s s' : σ} {st st' : State Z}
    {res : Option Slice × Option Err} {es : List Event} (h : ByHand I W P fs s st res s' es st') (hon : st.r.onLine = []) :
    HookedReads I W fs s st.r st.h res s' st'.r st'.h := by
  have up : ∀ {s s' : σ} {st st' : State Z} {res : Option Slice × Option Err} {n : Nat},
      st.r.hookedLine I W fs n s st.h = .val (res, s', st'.r, st'.h) → HookedReads I W fs s st.r st.h res s' st'.r st'.h := by
    intro s s' st st' res n hn
    refine ⟨n, settle (fun k => ?_) hn (by simp)⟩
    unfold MReader.hookedLine
    cases st.r.orig with
    | none => exact .inr rfl
    | some b => exact hookedLoop_mono I W hst k s _ _
  -- a line that is shown to the hooks
  have key : ∀ {s : σ} {st st1 : State Z} {l : Slice} {ev : Event}, Reads I W st (some l) none ev st1 → st.r.onLine = [] →
      st1.r.orig.isSome = true ∧ st1.r.onLine = [] ∧
      ∀ k, ∃ n, ∃ m ≥ k, st.r.hookedLine I W fs n s st.h = afterLine I W fs m s (.val ((some l, none), st1.r, st1.h)) := by
    intro s st st1 l ev hr hon
    obtain ⟨n, h1, -, -⟩ := hr
    have hv : st.r.readLine I W n st.h = .val ((some l, none), st1.r, st1.h) := by
      simp only [mcall] at h1
      split at h1
      · next h2 => rw [h2]; simp only [Exec.val.injEq, Prod.mk.injEq, MRet.line.injEq] at h1; obtain ⟨⟨rfl, rfl⟩, rfl, rfl⟩ := h1; rfl
      · cases h1
      · cases h1
    cases hb : st.r.orig with
    | none => simp [MReader.readLine, hb] at hv
    | some b =>
      have e2 : st.r.readLine I W n st.h = MReader.readLoop I W n { st.r with line.len := 0 } st.h := by simp [MReader.readLine, hb]
      rw [e2] at hv
      obtain ⟨k1, k2, -⟩ := readLoop_keeps I W n { st.r with line.len := 0 } st.h hon hv
      refine ⟨k2, k1, fun k => ?_⟩
      obtain ⟨m, hm, h⟩ := loop_long I W fs s k n { st.r with line.len := 0 } st.h hon hv
      exact ⟨n + k, m, hm, by simpa [MReader.hookedLine, hb] using h⟩
  induction h with
  | @failed s st st1 l e ev hr =>
    obtain ⟨n, h1, -, -⟩ := hr
    have hv : st.r.readLine I W n st.h = .val ((l, some e), st1.r, st1.h) := by
      simp only [mcall] at h1
      split at h1
      · next h2 => rw [h2]; simp only [Exec.val.injEq, Prod.mk.injEq, MRet.line.injEq] at h1; obtain ⟨⟨rfl, rfl⟩, rfl, rfl⟩ := h1; rfl
      · cases h1
      · cases h1
    cases hb : st.r.orig with
    | none =>
      refine up (n := 0) ?_
      simp only [MReader.readLine, hb, Exec.val.injEq, Prod.mk.injEq] at hv
      obtain ⟨⟨rfl, h2⟩, h3, h4⟩ := hv
      rw [← h3, ← h4, ← h2]
      simp [MReader.hookedLine, hb]
    | some b =>
      have e2 : st.r.readLine I W n st.h = MReader.readLoop I W n { st.r with line.len := 0 } st.h := by simp [MReader.readLine, hb]
      rw [e2] at hv
      obtain ⟨m, hm, h⟩ := loop_long I W fs s 0 n { st.r with line.len := 0 } st.h hon hv
      refine up (n := n + 0) ?_
      simpa [MReader.hookedLine, hb, afterLine] using h
  | accepted hr hh =>
    obtain ⟨k, hk⟩ := run_of_shown I W P hh hst
    obtain ⟨-, -, h⟩ := key hr hon
    obtain ⟨n, m, hm, h⟩ := h k
    refine up (n := n) ?_
    rw [h, afterLine, hk m hm]
  | refused hr hh =>
    obtain ⟨k, hk⟩ := run_of_shown I W P hh hst
    obtain ⟨-, -, h⟩ := key hr hon
    obtain ⟨n, m, hm, h⟩ := h k
    refine up (n := n) ?_
    rw [h, afterLine, hk m hm]
  | dropped hr hh _ ih =>
    obtain ⟨k, hk⟩ := run_of_shown I W P hh hst
    obtain ⟨o1, o2, h⟩ := key hr hon
    obtain ⟨q1, q2⟩ := run_keeps k _ fs _ _ _ ho o1 o2 (hk k (Nat.le_refl _))
    obtain ⟨k2, hk2⟩ := ih q2
    obtain ⟨n, m, hm, h⟩ := h (max k k2)
    refine up (n := n) ?_
    rw [h, afterLine, hk m (by omega)]
    have := hk2 m (by omega)
    rw [← this]
    generalize hx : State.r _ = x at q1 ⊢
    cases h : x.orig with
    | none => rw [h] at q1; cases q1
    | some b => simp [MReader.hookedLine, h]

/-- `ReadLine` of a reader with hooks does what the program does that calls `ReadLine` of a reader without hooks and shows the lines to
the hooks, and nothing else: results, reader, state and memory are the same. -/
theorem line_by_hand {fs : List (LineHook σ Z)} (hp : ∀ f ∈ fs, Program I W P knows f) (ho : ∀ f ∈ fs, KeepsOpen f) (hst : ∀ f ∈ fs, Steady f)
    {s : σ} {st : State Z} (hon : st.r.onLine = []) (hk : Knows knows s st) (res : Option Slice × Option Err) (s' : σ) (r' : MReader Z) (h' : Heap) :
    HookedReads I W fs s st.r st.h res s' r' h' ↔ ∃ es st', ByHand I W P fs s st res s' es st' ∧ st'.r = r' ∧ st'.h = h' := by
  constructor
  · rintro ⟨k, hv⟩
    obtain ⟨es, st', h1, h2, h3, -⟩ := (call_by_hand I W P hp ho k hon hk).1 (hv k (Nat.le_refl _))
    exact ⟨es, st', h1, h2, h3⟩
  · rintro ⟨es, st', h1, rfl, rfl⟩
    exact hooked_of_hand I W P hst ho h1 hon

/-- It panics only where the program would. -/
theorem panics_by_hand {fs : List (LineHook σ Z)} (hp : ∀ f ∈ fs, Program I W P knows f) (ho : ∀ f ∈ fs, KeepsOpen f) {s : σ} {st : State Z}
    (hon : st.r.onLine = []) (hk : Knows knows s st) (fuel : Nat) (hv : st.r.hookedLine I W fs fuel s st.h = .panic) : HandPanics I W P fs s st :=
  (call_by_hand I W P hp ho fuel hon hk).2 hv

/-- A program that uses a reader with hooks.  Between the calls of `ReadLine` it does what it likes, also with the state the hooks use. -/
inductive Uses (knows : σ → List Nat) (fs : List (LineHook σ Z)) : σ → State Z → List Event → σ → State Z → Prop
  | nil {s : σ} {st : State Z} : Uses knows fs s st [] s st
  | step {s s1 s2 : σ} {st st1 st2 : State Z} {es : List Event} {e : Event} (t : Uses knows fs s st es s1 st1) (hd : Does I W st1 e st2)
      (hr : ∀ fuel x, e ≠ .call fuel .readLine x) (hl : ∀ fuel f x, e ≠ .call fuel (.onLine f) x) (hk : Knows knows s2 st2) :
      Uses knows fs s st (es ++ [e]) s2 st2
  | line {s s1 s2 : σ} {st st1 : State Z} {es : List Event} {fuel : Nat} {l : Option Slice} {e : Option Err} {r : MReader Z} {h : Heap}
      (t : Uses knows fs s st es s1 st1) (hv : st1.r.hookedLine I W fs fuel s1 st1.h = .val ((l, e), s2, r, h)) :
      Uses knows fs s st (es ++ [.call fuel .readLine (.bytes (deref h l) e)]) s2 ((st1.after (.line l e) r h))

/-- The program without hooks: instead of every call of `ReadLine` there is what is done by hand. -/
inductive Expands (fs : List (LineHook σ Z)) : List Event → List Event → Prop
  | nil : Expands fs [] []
  | same {es es' : List Event} (e : Event) (t : Expands fs es es') : Expands fs (es ++ [e]) (es' ++ [e])
  | line {es es' hand : List Event} {s s' : σ} {st st' : State Z} {l : Option Slice} {e : Option Err} (fuel : Nat) (t : Expands fs es es')
      (h : ByHand I W P fs s st (l, e) s' hand st') :
      Expands fs (es ++ [.call fuel .readLine (.bytes (deref st'.h l) e)]) (es' ++ hand)

/-- The same reader and memory; the second program knows more arrays. -/
structure Sub (st st2 : State Z) : Prop where
  r : st2.r = st.r
  h : st2.h = st.h
  known : ∀ a ∈ st.known, a ∈ st2.known

theorem does_sub {st st' st2 : State Z} {e : Event} (hd : Does I W st e st') (hs : Sub st st2) : ∃ st2', Does I W st2 e st2' ∧ Sub st' st2' := by
  obtain ⟨r2, h2, known2, last2⟩ := st2
  obtain ⟨h1, h2, h3⟩ := hs
  dsimp only at h1 h2
  subst h1 h2
  cases hd with
  | call fuel c hd hc =>
    refine ⟨_, .call fuel c (fun a ha => h3 a (hd a ha)) hc, ?_⟩
    unfold State.after
    split
    · exact ⟨rfl, rfl, fun a ha => by simp only [List.mem_cons] at ha ⊢; exact ha.imp id (h3 a)⟩
    · exact ⟨rfl, rfl, h3⟩
  | make v => exact ⟨_, .make v, rfl, rfl, fun a ha => by simp only [List.mem_cons] at ha ⊢; exact ha.imp id (h3 a)⟩
  | write a v ha => exact ⟨_, .write a v (h3 a ha), rfl, rfl, h3⟩

theorem curRead_onLine {fuel n : Nat} {r : MReader Z} {b : MSrc} {h : Heap} {x : Bytes × Option Err} {r' : MReader Z} {h' : Heap}
    (hv : r.curRead I W fuel n b h = .val (x, r', h')) : r'.onLine = r.onLine := by
  unfold MReader.curRead at hv
  repeat' split at hv
  all_goals first | (cases hv; rfl) | cases hv

theorem readBytes_onLine {fuel n : Nat} {r : MReader Z} {h : Heap} {x : Bytes × Option Err} {r' : MReader Z} {h' : Heap}
    (hv : r.readBytes I W fuel n h = .val (x, r', h')) : r'.onLine = r.onLine := by
  unfold MReader.readBytes at hv
  split at hv
  · cases hv; rfl
  · split at hv
    · cases hv
    · cases hv
    · next hc =>
      have := curRead_onLine I W hc
      dsimp only at hv
      repeat' split at hv
      all_goals first | (cases hv; exact this) | cases hv

theorem enableZlib_onLine {fuel : Nat} {sched : List (Nat × Bool)} {r : MReader Z} {h : Heap} {x : Option Err} {r' : MReader Z} {h' : Heap}
    (hv : r.enableZlib I fuel sched h = .val (x, r', h')) : r'.onLine = r.onLine := by
  unfold MReader.enableZlib at hv
  repeat' split at hv
  all_goals first | (cases hv; rfl) | cases hv

theorem binRead_onLine {fuel n left : Nat} {r : MReader Z} {h : Heap} {x : Bytes × Option Err} {left' : Nat} {r' : MReader Z} {h' : Heap}
    (hv : r.binRead I W fuel n left h = .val (x, left', r', h')) : r'.onLine = r.onLine := by
  unfold MReader.binRead at hv
  split at hv
  · cases hv; rfl
  · split at hv
    · next hc => cases hv; exact readBytes_onLine I W hc
    all_goals cases hv

theorem binClose_onLine : ∀ (fuel left : Nat) {r : MReader Z} {h : Heap} {x : Option Err} {r' : MReader Z} {h' : Heap},
    r.binClose I W fuel left h = .val (x, r', h') → r'.onLine = r.onLine := by
  intro fuel
  induction fuel with
  | zero => intro left r h x r' h' hv; cases hv
  | succ fuel ih =>
    intro left r h x r' h' hv
    rw [MReader.binClose] at hv
    split at hv
    · next hc => cases hv; exact binRead_onLine I W hc
    · next hc => exact (ih _ hv).trans (binRead_onLine I W hc)
    all_goals cases hv

theorem does_onLine {st st' : State Z} {e : Event} (hd : Does I W st e st') (hr : ∀ fuel x, e ≠ .call fuel .readLine x)
    (hl : ∀ fuel f x, e ≠ .call fuel (.onLine f) x) (ho : st.r.onLine = []) : st'.r.onLine = [] := by
  cases hd with
  | make v => exact ho
  | write a v ha => exact ho
  | @call fuel c ret r h hd hc =>
    have key : r.onLine = [] → (st.after ret r h).r.onLine = [] := by
      intro hh; unfold State.after; split <;> exact hh
    apply key
    cases c with
    | readLine => exact absurd rfl (hr _ _)
    | onLine f => exact absurd rfl (hl _ _ _)
    | close => cases hc; rfl
    | setMaxLine n => cases hc; exact ho
    | read a off n =>
      simp only [mcall] at hc
      split at hc
      · next hx => cases hc; exact (readBytes_onLine I W hx).trans ho
      all_goals cases hc
    | enableZlib sched =>
      simp only [mcall] at hc
      split at hc
      · next hx => cases hc; exact (enableZlib_onLine I hx).trans ho
      all_goals cases hc
    | binaryRead a off n left =>
      simp only [mcall] at hc
      split at hc
      · next hx => cases hc; exact (binRead_onLine I W hx).trans ho
      all_goals cases hc
    | binaryClose left =>
      simp only [mcall] at hc
      split at hc
      · next hx => cases hc; exact (binClose_onLine I W _ _ hx).trans ho
      all_goals cases hc

theorem reads_known {st st' : State Z} {l : Slice} {e : Option Err} {ev : Event} (h : Reads I W st (some l) e ev st') : l.arr ∈ st'.known := by
  obtain ⟨fuel, -, h2, -⟩ := h
  rw [h2]; simp [State.after]

/-- The array of the line that is returned is one the program knows. -/
theorem byHand_known {fs : List (LineHook σ Z)} {s s' : σ} {st st' : State Z} {res : Option Slice × Option Err} {es : List Event}
    (h : ByHand I W P fs s st res s' es st') {l : Slice} (hl : res.1 = some l) : l.arr ∈ st'.known := by
  induction h with
  | failed h => cases hl; exact reads_known I W h
  | accepted h hh => cases hl; exact runs_known I W (shown_runs I W P hh) (reads_known I W h)
  | refused h hh => cases hl
  | dropped h hh _ ih => exact ih hl

/-- A program that uses a reader with hooks does what a program does that uses a reader without hooks: instead of every call of `ReadLine`
there is what is done by hand.  The results of the calls that are made then are those of the model of values. -/
theorem program_by_hand {fs : List (LineHook σ Z)} (hp : ∀ f ∈ fs, Program I W P knows f) (ho : ∀ f ∈ fs, KeepsOpen f)
    (src : Src) (delim : Byte) (h : Heap) (known : List Nat) (hlt : ∀ a ∈ known, a < h.next) {s s' : σ} {st : State Z} {es : List Event}
    (hk : Knows knows s (start src delim h known : State Z)) (hu : Uses I W knows fs s (start src delim h known) es s' st) :
    ∃ es' st', Runs I W (start src delim h known) es' st' ∧ Sub st st' ∧ Expands I W P fs es es' ∧
      ∃ r, values I (calls es') (Lineproto.newReader src delim) = .val (results es', r) := by
  have main : ∃ es' st', Runs I W (start src delim h known) es' st' ∧ Sub st st' ∧ Expands I W P fs es es' ∧ Knows knows s' st' ∧ st'.r.onLine = [] := by
    generalize hs : (start src delim h known : State Z) = st0 at hu
    have h0 : st0.r.onLine = [] := by rw [← hs]; rfl
    rw [hs] at hk
    clear hs
    induction hu with
    | nil => exact ⟨[], _, .nil, ⟨rfl, rfl, fun _ h => h⟩, .nil, hk, h0⟩
    | step t hd hr hl hk2 ih =>
      obtain ⟨es', st', h1, h2, h3, h4, h5⟩ := ih hk h0
      obtain ⟨st2', g1, g2⟩ := does_sub I W hd h2
      exact ⟨_, st2', .snoc h1 g1, g2, .same _ h3, ⟨fun a ha => g2.known a (hk2.all a ha)⟩, does_onLine I W g1 hr hl h5⟩
    | line t hv ih =>
      obtain ⟨es', st', h1, h2, h3, h4, h5⟩ := ih hk h0
      rw [← h2.r, ← h2.h] at hv
      obtain ⟨es2, st2, g1, rfl, rfl, g4, g5⟩ := (call_by_hand I W P hp ho _ h5 h4).1 hv
      refine ⟨_, st2, Runs.append I W h1 (byHand_runs I W P g1), ?_, .line _ h3 g1, g4, g5⟩
      refine ⟨after_r.1.symm, after_r.2.symm, fun a ha => ?_⟩
      have hold : ∀ b, b ∈ State.known _ → b ∈ st2.known := fun b hb => runs_known I W (byHand_runs I W P g1) (h2.known b hb)
      unfold State.after at ha
      split at ha
      · next hl =>
        simp only [MRet.line.injEq] at hl
        simp only [List.mem_cons] at ha
        rcases ha with rfl | ha
        · exact byHand_known I W P g1 hl.1
        · exact hold a ha
      · exact hold a ha
  obtain ⟨es', st', h1, h2, h3, -, -⟩ := main
  exact ⟨es', st', h1, h2, h3, results_are_values I W src delim h known hlt h1⟩

/-! ### Hooks that only write -/

/-- The steps of a hook that makes no calls of the reader: it makes arrays, and writes to those it knows. -/
def Silent : Event → Prop
  | .call _ _ _ => False
  | _ => True

theorem silent_calls {es : List Event} (h : ∀ e ∈ es, Silent e) : calls es = [] ∧ results es = [] := by
  induction es with
  | nil => exact ⟨rfl, rfl⟩
  | cons e es ih =>
    have := ih fun e he => h e (by simp [he])
    have h1 := h e (by simp)
    cases e with
    | call _ _ _ => cases h1
    | make => exact this
    | write a => exact this

theorem shown_only {fs : List (LineHook σ Z)} {l : Slice} {s s' : σ} {st st' : State Z} {a : Hook} {es : List Event}
    (h : ShownTo I W P fs l s st a s' es st') : ∀ e ∈ es, P e := by
  induction h with
  | nil => simp
  | next h1 _ ih =>
    intro e he
    rcases List.mem_append.1 he with he | he
    · exact h1.only e he
    · exact ih e he
  | stop h1 _ => exact h1.only

theorem reads_length {st st' : State Z} (ok : Ok st) {l : Slice} {e : Option Err} {ev : Event} (h : Reads I W st (some l) e ev st') :
    (l.bytes st'.h).length = l.len := by
  obtain ⟨fuel, h1, -, -⟩ := h
  rcases (call_sim I W fuel ok .readLine (by simp [MCall.dest])).cases with ⟨g1, g2⟩ | ⟨g1, g2⟩ | ⟨x, y, g1, g2, rfl, g3, g4, g5, g6⟩
  · rw [g1] at h1; cases h1
  · rw [g1] at h1; cases h1
  · rw [g1] at h1; cases h1
    exact (g5 l e rfl).2.2

/-- What a call returns that gets `last` from the stream as its last line: an error of the stream, an error of a hook, or the line; then it is
in an array, and its bytes are what the hooks have left there. -/
def Returns (last : Bytes × Option Err) (h' : Heap) (res : Option Slice × Option Err) : Prop :=
  (∃ e, last.2 = some e ∧ res.2 = some e ∧ deref h' res.1 = last.1) ∨ (last.2 = none ∧ res.1 = none ∧ res.2.isSome = true) ∨
    (last.2 = none ∧ res.2 = none ∧ ∃ l, res.1 = some l ∧ l.len = last.1.length)

theorem hand_lines {fs : List (LineHook σ Z)} {s s' : σ} {st st' : State Z} {res : Option Slice × Option Err} {es : List Event}
    (h : ByHand I W Silent fs s st res s' es st') (ok : Ok st) :
    ∃ (fuels : List Nat) (dropped : List Bytes) (last : Bytes × Option Err), calls es = fuels.map (·, Call.readLine) ∧
      results es = dropped.map (Ret.bytes · none) ++ [.bytes last.1 last.2] ∧ Returns last st'.h res := by
  induction h with
  | @failed s st st1 l e ev h =>
    obtain ⟨fuel, -, -, rfl⟩ := h
    exact ⟨[fuel], [], (deref st1.h l, some e), rfl, rfl, .inl ⟨e, rfl, rfl, rfl⟩⟩
  | accepted h hh =>
    have hlen := reads_length I W ok h
    obtain ⟨fuel, -, -, rfl⟩ := h
    obtain ⟨c1, c2⟩ := silent_calls (shown_only I W Silent hh)
    refine ⟨[fuel], [], (_, none), ?_, ?_, .inr (.inr ⟨rfl, rfl, _, rfl, hlen.symm⟩)⟩
    · simp [calls, c1, MCall.plain]
    · simp only [results, c2]; rfl
  | @refused s s1 st st1 st2 l e ev es h hh =>
    obtain ⟨fuel, -, -, rfl⟩ := h
    obtain ⟨c1, c2⟩ := silent_calls (shown_only I W Silent hh)
    refine ⟨[fuel], [], (deref st1.h (some l), none), ?_, ?_, .inr (.inl ⟨rfl, rfl, rfl⟩)⟩
    · simp [calls, c1, MCall.plain]
    · simp only [results, c2]; rfl
  | @dropped s s1 s2 st st1 st2 st3 l res ev es es' h hh _ ih =>
    have ok2 := (run_ok I W (runs_cons I W (reads_does I W h) (shown_runs I W Silent hh)) ok).1
    obtain ⟨fuels, dropped, last, h1, h2, h3⟩ := ih ok2
    obtain ⟨fuel, -, -, rfl⟩ := h
    obtain ⟨c1, c2⟩ := silent_calls (shown_only I W Silent hh)
    refine ⟨fuel :: fuels, deref st1.h (some l) :: dropped, last, ?_, ?_, h3⟩
    · simp [calls, calls_append, c1, h1, MCall.plain]
    · simp only [List.cons_append, results, results_append, c2, h2, List.map_cons, List.nil_append]

/-- Hooks that write what they like, but make no calls: the lines they get, and the last of them that is returned, are those a reader
without hooks returns, whatever was written to the lines before. -/
theorem lines_of_stream {fs : List (LineHook σ Z)} (hp : ∀ f ∈ fs, Program I W Silent knows f) (ho : ∀ f ∈ fs, KeepsOpen f)
    (src : Src) (delim : Byte) (h : Heap) (known : List Nat) (hlt : ∀ a ∈ known, a < h.next) {st : State Z} {es : List Event}
    (hr : Runs I W (start src delim h known) es st) (hon : st.r.onLine = []) {r : Reader Z}
    (hv : values I (calls es) (Lineproto.newReader src delim) = .val (results es, r)) {s : σ} (hk : Knows knows s st) {fuel : Nat}
    {res : Option Slice × Option Err} {s' : σ} {r' : MReader Z} {h' : Heap} (hl : st.r.hookedLine I W fs fuel s st.h = .val (res, s', r', h')) :
    ∃ (fuels : List Nat) (dropped : List Bytes) (last : Bytes × Option Err) (r2 : Reader Z),
      values I (fuels.map (·, Call.readLine)) r = .val (dropped.map (Ret.bytes · none) ++ [.bytes last.1 last.2], r2) ∧ Returns last h' res := by
  obtain ⟨ok, hv2⟩ := run_ok I W hr (start_ok src delim h known hlt)
  rw [start_abs, hv] at hv2
  cases hv2
  obtain ⟨es2, st2, g1, rfl, rfl, -, -⟩ := (call_by_hand I W Silent hp ho fuel hon hk).1 hl
  obtain ⟨fuels, dropped, last, h1, h2, h3⟩ := hand_lines I W g1 ok
  obtain ⟨-, hv3⟩ := run_ok I W (byHand_runs I W Silent g1) ok
  exact ⟨fuels, dropped, last, _, by rw [← h1, hv3, h2], h3⟩

/-! ### Examples -/

/-- A hook that writes zeros over a line with a `#` at its beginning and drops it. -/
def scrub : LineHook (List Slice) Z := fun _ l s r h =>
  if (h.mem l.arr).head? = some c!"#" then .val (.drop, s, r, h.set l.arr (List.replicate (h.mem l.arr).length 0)) else .val (.accept, s, r, h)

/-- A hook that changes the letters of the line in place and keeps the line. -/
def upper : LineHook (List Slice) Z := fun _ l s r h =>
  .val (.accept, l :: s, r, h.set l.arr ((h.mem l.arr).map fun c => if c!"a" ≤ c ∧ c ≤ c!"z" then c - 32 else c))

/-- The arrays of the lines that are kept. -/
def kept (s : List Slice) : List Nat := s.map (·.arr)

theorem scrub_program : Program I W Silent kept (scrub : LineHook (List Slice) Z) := by
  intro fuel l s st a s' r' h' hk hl hv
  unfold scrub at hv
  split at hv
  · cases hv
    exact ⟨[.write l.arr], _, .snoc (es := []) .nil (.write l.arr _ hl), by simp [Silent], rfl, rfl, ⟨hk.all⟩⟩
  · cases hv
    exact ⟨[], st, .nil, by simp, rfl, rfl, hk⟩

theorem upper_program : Program I W Silent kept (upper : LineHook (List Slice) Z) := by
  intro fuel l s st a s' r' h' hk hl hv
  cases hv
  refine ⟨[.write l.arr], _, .snoc (es := []) .nil (.write l.arr _ hl), by simp [Silent], rfl, rfl, ⟨?_⟩⟩
  intro a ha
  simp only [kept, List.map_cons, List.mem_cons] at ha
  rcases ha with rfl | ha
  · exact hl
  · exact hk.all a ha

theorem hooks_ok : (∀ f ∈ [scrub, (upper : LineHook (List Slice) Z)], Program I W Silent kept f) ∧ (∀ f ∈ [scrub, (upper : LineHook (List Slice) Z)], KeepsOpen f) ∧
    ∀ f ∈ [scrub, (upper : LineHook (List Slice) Z)], Steady f := by
  refine ⟨?_, ?_, ?_⟩ <;> intro f hf <;> simp only [List.mem_cons, List.not_mem_nil, or_false] at hf <;> rcases hf with rfl | rfl
  · exact scrub_program I W
  · exact upper_program I W
  · intro fuel l s r h a s' r' h' h1 h2 hv
    unfold scrub at hv
    split at hv <;> cases hv <;> exact ⟨h1, h2⟩
  · intro fuel l s r h a s' r' h' h1 h2 hv
    cases hv
    exact ⟨h1, h2⟩
  · intro fuel l s r h; exact .inr rfl
  · intro fuel l s r h; exact .inr rfl

/-- The lines that `n` calls return, and the array of the lines at the end. -/
def hookedLines (fs : List (LineHook (List Slice) Bool)) (src : Src) : Nat → Option (List (Bytes × Option Err))
  | n =>
    let rec go : Nat → List Slice → MReader Bool → Heap → Option (List (Bytes × Option Err))
      | 0, _, _, _ => some []
      | n + 1, s, r, h => match r.hookedLine LineReader.toy world0 fs 30 s h with
        | .val ((l, e), s', r', h') => (go n s' r' h').map ((deref h' l, e) :: ·)
        | _ => none
    match (Mem.newReader src 124 mem0 : MReader Bool × Heap) with
    | (r, h) => go n [] r h

/-- What a hook writes to a line is returned, and is not in the lines after it. -/
example : hookedLines [scrub, upper] [⟨b!"#a|bc", none⟩, ⟨b!"|#defg|h|", none⟩] 3 = some [(b!"BC|", none), (b!"H|", none), ([], some .eof)] := rfl

/-- The other way round nothing is dropped before it is changed. -/
example : hookedLines [upper, scrub] [⟨b!"#a|bc", none⟩, ⟨b!"|#defg|h|", none⟩] 3 = some [(b!"BC|", none), (b!"H|", none), ([], some .eof)] := rfl

/-- A new reader and these hooks meet the assumptions of the theorems. -/
example (src : Src) (h : Heap) : Knows kept [] (start src 124 h [] : State Z) ∧ (start src 124 h [] : State Z).r.onLine = [] := ⟨⟨by simp [kept]⟩, rfl⟩

end Verif.Props.LineHooksMemory
