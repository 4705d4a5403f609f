import Verif.Lineproto.WriterMemoryLemmas
import Verif.Props.LineWriter

/-!
# C102: lines given to a writer can be used again at once

Model: `Verif/Lineproto/WriterMemory.lean`, where slices are windows on arrays.

A program that uses a writer knows some arrays: those it had before, those it makes, and those of the messages its callbacks have seen.
Between calls it writes to arrays it knows whatever it likes, and so do its callbacks within `WriteLine`.
-/

namespace Verif.Props.LineWriterMemory

open Verif Verif.Lineproto Verif.Lineproto.Mem

variable {D : Type} (C : Deflater D) (W : World)

/-! ### Specification: calls on values -/

/-- A call without memory.  `line a l`: the callbacks have answered `a`, and when they were done the line was `l`. -/
inductive VCall where
  | line (a : Hook) (l : Bytes)
  | flush
  | write (p : Bytes)
  | enable (lvl : Int)
  | disable
  | close

/-- The call in the model of values.  A line that is not accepted is not written; the error of a callback is kept. -/
def vcall (w : Writer D) : VCall → Exec ((Nat × Option Err) × Writer D)
  | .line .accept l => w.step C (.line l)
  | .line .drop _ => .val ((0, w.err), w)
  | .line (.fail e) _ => match w.err with
    | some e' => .val ((0, some e'), w)
    | none => .val ((0, some e), { w with err := some e })
  | .flush => w.step C .flush
  | .write p => w.step C (.write p)
  | .enable lvl => w.step C (.enable lvl)
  | .disable => w.step C .disable
  | .close => w.step C .close

/-- A history of calls on values with their results. -/
def values : List VCall → Writer D → Exec (List (Nat × Option Err) × Writer D)
  | [], w => .val ([], w)
  | c :: cs, w => match vcall C w c with
    | .panic => .panic
    | .timeout => .timeout
    | .val (r, w') => match values cs w' with
      | .panic => .panic
      | .timeout => .timeout
      | .val (rs, w'') => .val (r :: rs, w'')

/-! ### Programs -/

/-- The writer, the memory, and the arrays the program knows. -/
structure State (D : Type) where
  o : MOut D
  h : Heap
  known : List Nat

/-- What a call means at the time it is made: slices are replaced by what is in them when the callbacks are done. -/
def seen (st : State D) : MOp → VCall
  | .msg hooks l => match append W st.h { st.o.mbuf with len := 0 } l with
    | (s, h) => .line (runMHooks h hooks).1 (Win.bytes (runMHooks h hooks).2 ⟨s.arr, 0, s.len⟩)
  | .line hooks p => .line (runMHooks st.h hooks).1 (p.bytes (runMHooks st.h hooks).2)
  | .flush => .flush
  | .write p => .write (p.bytes st.h)
  | .enable lvl => .enable lvl
  | .disable => .disable
  | .close => .close

/-- Callbacks write to arrays in `known`, and do not change the length of an array. -/
def HooksOk (known : List Nat) (h : Heap) (hooks : List HookRun) : Prop :=
  ∀ x ∈ hooks, ∀ w ∈ x.writes, w.1 ∈ known ∧ w.2.length = (h.mem w.1).length

/-- Calls a program can make: slices and callbacks use arrays it knows.  The callbacks of a message also know the array of the message. -/
def Legal (st : State D) : MOp → Prop
  | .msg hooks l => match append W st.h { st.o.mbuf with len := 0 } l with
    | (s, h) => HooksOk (s.arr :: st.known) h hooks
  | .line hooks p => HooksOk st.known st.h hooks ∧ p.arr ∈ st.known ∧ p.off + p.len ≤ (st.h.mem p.arr).length
  | .write p => p.arr ∈ st.known ∧ p.off + p.len ≤ (st.h.mem p.arr).length
  | _ => True

/-- The arrays the program knows after a call. -/
def knownAfter (st : State D) (o : MOut D) : MOp → List Nat
  | .msg _ _ => o.mbuf.arr :: st.known
  | _ => st.known

/-- What happens: a call, as it is at the time, with its result; or something the program does with arrays of its own. -/
inductive Event where
  | call (op : MOp) (c : VCall) (r : Nat × Option Err)
  | make
  | write (a : Nat)

/-- One step of the program. -/
inductive Does : State D → Event → State D → Prop
  | call {st : State D} (op : MOp) {r : Nat × Option Err} {o : MOut D} {h : Heap} (hl : Legal W st op)
      (hc : st.o.step C W op st.h = .val (r, o, h)) : Does st (.call op (seen W st op) r) ⟨o, h, knownAfter st o op⟩
  | make {st : State D} (v : Bytes) : Does st .make { st with h := (st.h.alloc v).2, known := (st.h.alloc v).1 :: st.known }
  | write {st : State D} (a : Nat) (v : Bytes) (hd : a ∈ st.known) (hv : v.length = (st.h.mem a).length) :
      Does st (.write a) { st with h := st.h.set a v }

/-- The steps of the program. -/
inductive Runs : State D → List Event → State D → Prop
  | nil {st : State D} : Runs st [] st
  | snoc {st st' st'' : State D} {es : List Event} {e : Event} : Runs st es st' → Does C W st' e st'' → Runs st (es ++ [e]) st''

/-- A new writer, in a memory where the program knows some arrays; the message buffer is nil. -/
def start (size : Int) (tmo : List (Option Err)) (s : Sink) (h : Heap) (known : List Nat) : State D :=
  match newMWriter size tmo s h with
  | (m, h1) => match h1.alloc [] with
    | (a, h2) => ⟨⟨m, ⟨a, 0, 0⟩⟩, h2, known⟩

/-- The calls in a list of events. -/
def calls : List Event → List VCall
  | [] => []
  | .call _ c _ :: es => c :: calls es
  | _ :: es => calls es

/-- What the calls return. -/
def results : List Event → List (Nat × Option Err)
  | [] => []
  | .call _ _ r :: es => r :: results es
  | _ :: es => results es

/-- The arrays written by the callbacks of a call. -/
def hookWrites : MOp → List Nat
  | .msg hooks _ => hooks.flatMap fun x => x.writes.map (·.1)
  | .line hooks _ => hooks.flatMap fun x => x.writes.map (·.1)
  | _ => []

/-- The arrays the program and its callbacks write to. -/
def written : List Event → List Nat
  | [] => []
  | .call op _ _ :: es => hookWrites op ++ written es
  | .write a :: es => a :: written es
  | .make :: es => written es

/-! ### Proofs -/

/-- What is true at any time. -/
structure Ok (st : State D) : Prop where
  inv : st.o.m.Inv st.h
  own : ∀ a, st.o.m.Own a → a < st.h.next
  lt : ∀ a ∈ st.known, a < st.h.next
  priv : ∀ a ∈ st.known, ¬ st.o.m.Own a
  mbuf : ¬ st.o.m.Own st.o.mbuf.arr
  mlt : st.o.mbuf.arr < st.h.next

theorem start_ok (size : Int) (tmo : List (Option Err)) (s : Sink) (h : Heap) (known : List Nat) (hk : ∀ a ∈ known, a < h.next) :
    Ok (start size tmo s h known : State D) := by
  simp only [start, newMWriter, Heap.alloc]
  refine ⟨?_, ?_, ?_, ?_, ?_, ?_⟩
  · intro b hb; cases hb; simp
  · rintro a ⟨b, hb, rfl⟩; cases hb; simp only; omega
  · intro a ha; have := hk a ha; simp only; omega
  · rintro a ha ⟨b, hb, rfl⟩; cases hb; have := hk _ ha; simp at this
  · rintro ⟨b, hb, he⟩; cases hb; simp at he
  · simp

theorem start_abs (size : Int) (tmo : List (Option Err)) (s : Sink) (h : Heap) (known : List Nat) :
    (start size tmo s h known : State D).o.m.abs (start size tmo s h known : State D).h = newWriter size tmo s := by
  simp [start, newMWriter, Heap.alloc, MWriter.abs, newWriter]

theorem abs_congr {m : MWriter D} {h h' : Heap} (e : ∀ a, m.Own a → h'.mem a = h.mem a) : m.abs h' = m.abs h := by
  obtain ⟨w, bw⟩ := m
  cases bw with
  | none => rfl
  | some b => simp only [MWriter.abs, Option.map_some]; rw [e b.arr ⟨b, rfl, rfl⟩]

theorem inv_congr {m : MWriter D} {h h' : Heap} (e : ∀ a, m.Own a → h'.mem a = h.mem a) (i : m.Inv h) : m.Inv h' := by
  intro b hb
  rw [e b.arr ⟨b, hb, rfl⟩]
  exact i b hb

theorem sets_next (ws : List (Nat × Bytes)) (h : Heap) : (h.sets ws).next = h.next := by
  induction ws generalizing h with
  | nil => rfl
  | cons w ws ih => exact ih _

theorem sets_frame (ws : List (Nat × Bytes)) (h : Heap) (a : Nat) (ha : ∀ w ∈ ws, w.1 ≠ a) : (h.sets ws).mem a = h.mem a := by
  induction ws generalizing h with
  | nil => rfl
  | cons w ws ih =>
    rw [show h.sets (w :: ws) = (h.set w.1 w.2).sets ws from rfl, ih _ fun x hx => ha x (by simp [hx]), set_mem]
    rw [if_neg fun e => ha w (by simp) e.symm]

theorem sets_len (ws : List (Nat × Bytes)) (h h0 : Heap) (a : Nat) (e : ∀ x, (h.mem x).length = (h0.mem x).length)
    (hw : ∀ w ∈ ws, w.2.length = (h0.mem w.1).length) : ((h.sets ws).mem a).length = (h0.mem a).length := by
  induction ws generalizing h with
  | nil => exact e a
  | cons w ws ih =>
    refine ih (h := h.set w.1 w.2) ?_ fun x hx => hw x (by simp [hx])
    intro x
    rw [set_mem]
    split
    · rename_i e'; rw [e']; exact hw w (by simp)
    · exact e x

theorem hooks_next (hs : List HookRun) (h : Heap) : (runMHooks h hs).2.next = h.next := by
  induction hs generalizing h with
  | nil => rfl
  | cons x xs ih =>
    simp only [runMHooks]
    split
    · rw [ih, sets_next]
    · exact sets_next _ _

theorem hooks_frame (hs : List HookRun) (h : Heap) (a : Nat) (ha : a ∉ hs.flatMap fun x => x.writes.map (·.1)) :
    (runMHooks h hs).2.mem a = h.mem a := by
  induction hs generalizing h with
  | nil => rfl
  | cons x xs ih =>
    simp only [List.flatMap_cons, List.mem_append, not_or] at ha
    have e := sets_frame x.writes h a fun w hw e => ha.1 (e ▸ List.mem_map_of_mem hw)
    simp only [runMHooks]
    split
    · rw [ih _ ha.2, e]
    · exact e

theorem hooks_len (hs : List HookRun) (h h0 : Heap) (a : Nat) (e : ∀ x, (h.mem x).length = (h0.mem x).length)
    (hw : ∀ x ∈ hs, ∀ w ∈ x.writes, w.2.length = (h0.mem w.1).length) : ((runMHooks h hs).2.mem a).length = (h0.mem a).length := by
  induction hs generalizing h with
  | nil => exact e a
  | cons x xs ih =>
    have s : ∀ y, ((h.sets x.writes).mem y).length = (h0.mem y).length := fun y => sets_len _ _ _ _ e (hw x (by simp))
    simp only [runMHooks]
    split
    · exact ih _ s fun y hy => hw y (by simp [hy])
    · exact s a

theorem writes_known {known : List Nat} {h : Heap} {hs : List HookRun} (ok : HooksOk known h hs) {a : Nat}
    (ha : a ∈ hs.flatMap fun x => x.writes.map (·.1)) : a ∈ known := by
  simp only [List.mem_flatMap, List.mem_map] at ha
  obtain ⟨x, hx, w, hw, rfl⟩ := ha
  exact (ok x hx w hw).1

/-- What a call may do to memory: its own array and those in `ws`, and arrays that were not there. -/
structure Fine (ws : List Nat) (m : MWriter D) (h : Heap) (m' : MWriter D) (h' : Heap) : Prop where
  inv : m'.Inv h'
  own : ∀ a, m'.Own a → m.Own a
  frame : ∀ a, ¬ m.Own a → a ∉ ws → h'.mem a = h.mem a
  next : h'.next = h.next

/-- `WriteLine` in the two models. -/
theorem line_sim {m : MWriter D} {h : Heap} {hs : List HookRun} {p : Win} {known : List Nat} (i : m.Inv h) (ok : HooksOk known h hs)
    (pr : ∀ a ∈ known, ¬ m.Own a) (hp : p.arr ∈ known) (hin : p.off + p.len ≤ (h.mem p.arr).length) :
    (m.writeLine C hs p h = .panic ∧ vcall C (m.abs h) (.line (runMHooks h hs).1 (p.bytes (runMHooks h hs).2)) = .panic)
    ∨ (m.writeLine C hs p h = .timeout ∧ vcall C (m.abs h) (.line (runMHooks h hs).1 (p.bytes (runMHooks h hs).2)) = .timeout)
    ∨ ∃ e m' h', m.writeLine C hs p h = .val (e, m', h')
        ∧ vcall C (m.abs h) (.line (runMHooks h hs).1 (p.bytes (runMHooks h hs).2)) = .val ((0, e), m'.abs h')
        ∧ Fine (hs.flatMap fun x => x.writes.map (·.1)) m h m' h' := by
  have hm : ∀ a, m.Own a → (runMHooks h hs).2.mem a = h.mem a := fun a ha =>
    hooks_frame _ _ _ fun hh => pr a (writes_known ok hh) ha
  have fr : ∀ a, ¬ m.Own a → a ∉ (hs.flatMap fun x => x.writes.map (·.1)) → (runMHooks h hs).2.mem a = h.mem a :=
    fun a _ hh => hooks_frame _ _ _ hh
  have nx := hooks_next hs h
  have i' := inv_congr hm i
  have ab := abs_congr hm
  have ln : p.In (runMHooks h hs).2 := by
    simp only [Win.In]
    rw [hooks_len hs h h p.arr (fun _ => rfl) fun x hx w hw => (ok x hx w hw).2]
    exact hin
  cases he : m.w.err with
  | some e =>
    refine .inr (.inr ⟨some e, m, h, by simp [MWriter.writeLine, he], ?_, ⟨i, fun _ x => x, fun _ _ _ => rfl, rfl⟩⟩)
    have e1 : (m.abs h).err = some e := he
    cases (runMHooks h hs).1 with
    | accept => simp [vcall, Writer.step, Writer.writeLine, e1]
    | drop => simp [vcall, e1]
    | fail x => simp [vcall, e1]
  | none =>
    have e1 : (m.abs h).err = none := he
    cases hr : runMHooks h hs with
    | mk a h1 =>
    rw [hr] at hm fr nx i' ab ln
    simp only at hm fr nx i' ab ln
    cases a with
    | fail x =>
      refine .inr (.inr ⟨some x, { m with w.err := some x }, h1, by simp [MWriter.writeLine, he, hr], ?_, ⟨i', fun _ x => x, fr, nx⟩⟩)
      simp only [vcall, e1]
      rw [← ab]; rfl
    | drop =>
      refine .inr (.inr ⟨none, m, h1, by simp [MWriter.writeLine, he, hr], ?_, ⟨i', fun _ x => x, fr, nx⟩⟩)
      simp only [vcall, e1, ab]
    | accept =>
      have w1 : m.writeLine C hs p h = m.writeLine C [] p h1 := by simp [MWriter.writeLine, he, hr, runMHooks]
      have core := lineCore_sim C i' (pr _ hp) ln
      rw [w1, ← ab]
      simp only [vcall, Writer.step]
      rcases core with ⟨f1, f2⟩ | ⟨f1, f2⟩ | ⟨e, m', h', f1, f2, g⟩
      · rw [f1, f2]; exact .inl ⟨rfl, rfl⟩
      · rw [f1, f2]; exact .inr (.inl ⟨rfl, rfl⟩)
      · rw [f1, f2]
        refine .inr (.inr ⟨e, m', h', rfl, rfl, ⟨g.inv, g.own, ?_, g.next.trans nx⟩⟩)
        intro a no hw
        rw [g.frame a no, fr a no hw]

/-- `append` to the empty message buffer. -/
theorem append_ok {h : Heap} {s : Slice} {l : Bytes} (hs : s.arr < h.next) :
    let r := append W h { s with len := 0 } l
    (r.1.arr = s.arr ∨ r.1.arr = h.next) ∧ r.1.arr < r.2.next ∧ h.next ≤ r.2.next ∧ r.1.len = l.length
      ∧ (r.2.mem r.1.arr).take l.length = l ∧ (∀ a, a < h.next → a ≠ s.arr → r.2.mem a = h.mem a) := by
  simp only [append, Nat.zero_add, List.take_zero, List.nil_append]
  split
  · refine ⟨.inl rfl, hs, Nat.le_refl _, rfl, ?_, ?_⟩
    · simp [set_mem]
    · intro a _ ha; simp [set_mem, ha]
  · refine ⟨.inr rfl, by simp [Heap.alloc], by simp [Heap.alloc], rfl, by simp [Heap.alloc], ?_⟩
    intro a h1 _
    simp only [Heap.alloc]
    rw [if_neg (by omega)]

/-- A call in the two models. -/
def CallRel (st : State D) (op : MOp) (x : Exec ((Nat × Option Err) × MOut D × Heap)) (y : Exec ((Nat × Option Err) × Writer D)) : Prop :=
  (x = .panic ∧ y = .panic) ∨ (x = .timeout ∧ y = .timeout)
    ∨ ∃ r o h, x = .val (r, o, h) ∧ y = .val (r, o.m.abs h) ∧ Ok ⟨o, h, knownAfter st o op⟩
        ∧ (∀ a ∈ st.known, a ≠ st.o.mbuf.arr → a ∉ hookWrites op → h.mem a = st.h.mem a)
        ∧ (o.mbuf.arr = st.o.mbuf.arr ∨ st.h.next ≤ o.mbuf.arr) ∧ st.h.next ≤ h.next

theorem fine_rel {st : State D} (ok : Ok st) (op : MOp) (hk : ∀ o, knownAfter st o op = st.known) {r : Nat × Option Err} {m : MWriter D}
    {h : Heap} {x : Exec ((Nat × Option Err) × MOut D × Heap)} {y : Exec ((Nat × Option Err) × Writer D)}
    (ex : x = .val (r, { st.o with m }, h)) (ey : y = .val (r, m.abs h)) (g : Fine (hookWrites op) st.o.m st.h m h) :
    CallRel st op x y := by
  refine .inr (.inr ⟨r, _, h, ex, ey, ⟨g.inv, ?_, ?_, ?_, ?_, ?_⟩, ?_, .inl rfl, Nat.le_of_eq g.next.symm⟩)
  · intro a ha; simp only [g.next]; exact ok.own a (g.own a ha)
  · intro a ha; simp only [g.next]; rw [hk] at ha; exact ok.lt a ha
  · intro a ha ho; rw [hk] at ha; exact ok.priv a ha (g.own a ho)
  · intro ho; exact ok.mbuf (g.own _ ho)
  · simp only [g.next]; exact ok.mlt
  · intro a ha _ hw; exact g.frame a (ok.priv a ha) hw

theorem Fine.ofGood {ws : List Nat} {m m' : MWriter D} {h h' : Heap} (g : Mem.WGood m h m' h') : Fine ws m h m' h' :=
  ⟨g.inv, g.own, fun a no _ => g.frame a no, g.next⟩

theorem call_sim {st : State D} (ok : Ok st) (op : MOp) (hl : Legal W st op) :
    CallRel st op (st.o.step C W op st.h) (vcall C (st.o.m.abs st.h) (seen W st op)) := by
  cases op with
  | flush =>
    simp only [MOut.step, seen, vcall, Writer.step]
    rcases flush_sim C ok.inv with ⟨f1, f2⟩ | ⟨f1, f2⟩ | ⟨e, m', h', f1, f2, g⟩
    · rw [f1, f2]; exact .inl ⟨rfl, rfl⟩
    · rw [f1, f2]; exact .inr (.inl ⟨rfl, rfl⟩)
    · rw [f1, f2]; exact fine_rel ok _ (fun _ => rfl) rfl rfl (.ofGood g)
  | enable lvl =>
    simp only [MOut.step, seen, vcall, Writer.step]
    rcases enable_sim C (lvl := lvl) ok.inv with ⟨f1, f2⟩ | ⟨f1, f2⟩ | ⟨e, m', h', f1, f2, g⟩
    · rw [f1, f2]; exact .inl ⟨rfl, rfl⟩
    · rw [f1, f2]; exact .inr (.inl ⟨rfl, rfl⟩)
    · rw [f1, f2]; exact fine_rel ok _ (fun _ => rfl) rfl rfl (.ofGood g)
  | disable =>
    simp only [MOut.step, seen, vcall, Writer.step]
    rcases disable_sim C ok.inv with ⟨f1, f2⟩ | ⟨f1, f2⟩ | ⟨e, m', h', f1, f2, g⟩
    · rw [f1, f2]; exact .inl ⟨rfl, rfl⟩
    · rw [f1, f2]; exact .inr (.inl ⟨rfl, rfl⟩)
    · rw [f1, f2]; exact fine_rel ok _ (fun _ => rfl) rfl rfl (.ofGood g)
  | close =>
    simp only [MOut.step, seen, vcall, Writer.step]
    rcases close_sim C ok.inv with ⟨f1, f2⟩ | ⟨f1, f2⟩ | ⟨e, m', h', f1, f2, g⟩
    · rw [f1, f2]; exact .inl ⟨rfl, rfl⟩
    · rw [f1, f2]; exact .inr (.inl ⟨rfl, rfl⟩)
    · rw [f1, f2]; exact fine_rel ok _ (fun _ => rfl) rfl rfl (.ofGood g)
  | write p =>
    simp only [MOut.step, seen, vcall, Writer.step]
    rcases write_sim C (p := p) ok.inv (ok.priv _ hl.1) with ⟨f1, f2⟩ | ⟨f1, f2⟩ | ⟨e, m', h', f1, f2, g⟩
    · rw [f1, f2]; exact .inl ⟨rfl, rfl⟩
    · rw [f1, f2]; exact .inr (.inl ⟨rfl, rfl⟩)
    · rw [f1, f2]; exact fine_rel ok _ (fun _ => rfl) rfl rfl (.ofGood g)
  | line hooks p =>
    simp only [MOut.step, seen]
    obtain ⟨h1, h2, h3⟩ := hl
    rcases line_sim C ok.inv h1 ok.priv h2 h3 with ⟨f1, f2⟩ | ⟨f1, f2⟩ | ⟨e, m', h', f1, f2, g⟩
    · rw [f1, f2]; exact .inl ⟨rfl, rfl⟩
    · rw [f1, f2]; exact .inr (.inl ⟨rfl, rfl⟩)
    · rw [f1, f2]; exact fine_rel ok _ (fun _ => rfl) rfl rfl g
  | msg hooks l =>
    obtain ⟨a1, a2, a3, a4, a5, a6⟩ := append_ok W (h := st.h) (s := st.o.mbuf) (l := l) ok.mlt
    simp only [MOut.step, MOut.writeMsg, seen]
    simp only [Legal] at hl
    cases ha : append W st.h { st.o.mbuf with len := 0 } l with
    | mk s h0 =>
    rw [ha] at hl a1 a2 a3 a4 a5 a6
    simp only at hl a1 a2 a3 a4 a5 a6 ⊢
    have ne : ∀ a, st.o.m.Own a → a ≠ st.o.mbuf.arr := fun a o e => ok.mbuf (e ▸ o)
    have hm : ∀ a, st.o.m.Own a → h0.mem a = st.h.mem a := fun a o => a6 a (ok.own a o) (ne a o)
    have i0 := inv_congr hm ok.inv
    have sn : ¬ st.o.m.Own s.arr := by
      intro o
      rcases a1 with e | e
      · exact ne _ o e
      · have := ok.own _ o; omega
    have pr : ∀ a ∈ s.arr :: st.known, ¬ st.o.m.Own a := by
      intro a ha
      simp only [List.mem_cons] at ha
      rcases ha with rfl | ha
      · exact sn
      · exact ok.priv a ha
    have inn : 0 + s.len ≤ (h0.mem s.arr).length := by
      have := congrArg List.length a5
      simp only [List.length_take] at this
      omega
    have sim := line_sim C (p := ⟨s.arr, 0, s.len⟩) i0 hl pr (by simp) inn
    rw [abs_congr hm] at sim
    rcases sim with ⟨f1, f2⟩ | ⟨f1, f2⟩ | ⟨e, m', h', f1, f2, g⟩
    · rw [f1, f2]; exact .inl ⟨rfl, rfl⟩
    · rw [f1, f2]; exact .inr (.inl ⟨rfl, rfl⟩)
    · rw [f1, f2]
      refine .inr (.inr ⟨_, _, _, rfl, rfl, ⟨g.inv, ?_, ?_, ?_, ?_, ?_⟩, ?_, ?_, ?_⟩)
      · intro a ho; have := ok.own a (g.own a ho); simp only [g.next]; omega
      · intro a ha
        simp only [knownAfter, List.mem_cons] at ha
        simp only [g.next]
        rcases ha with rfl | ha
        · exact a2
        · have := ok.lt a ha; omega
      · intro a ha ho
        exact pr a ha (g.own a ho)
      · intro ho; exact sn (g.own _ ho)
      · simp only [g.next]; exact a2
      · intro a ha hne hw
        rw [g.frame a (ok.priv a ha) hw]
        exact a6 a (ok.lt a ha) hne
      · rcases a1 with e | e
        · exact .inl e
        · exact .inr (by simp only [e]; exact Nat.le_refl _)
      · rw [g.next]; exact a3

theorem set_ok {st : State D} (ok : Ok st) {a : Nat} (ha : a ∈ st.known) (v : Bytes) :
    Ok { st with h := st.h.set a v } ∧ st.o.m.abs (st.h.set a v) = st.o.m.abs st.h := by
  have hm : ∀ x, st.o.m.Own x → (st.h.set a v).mem x = st.h.mem x := fun x hx => by
    rw [set_mem, if_neg]
    rintro rfl
    exact ok.priv _ ha hx
  exact ⟨⟨inv_congr hm ok.inv, ok.own, ok.lt, ok.priv, ok.mbuf, ok.mlt⟩, abs_congr hm⟩

theorem alloc_ok {st : State D} (ok : Ok st) (v : Bytes) :
    Ok { st with h := (st.h.alloc v).2, known := (st.h.alloc v).1 :: st.known } ∧ st.o.m.abs (st.h.alloc v).2 = st.o.m.abs st.h := by
  have hm : ∀ x, x < st.h.next → (st.h.alloc v).2.mem x = st.h.mem x := fun x hx => by
    simp only [Heap.alloc]
    rw [if_neg (by omega)]
  have nx : (st.h.alloc v).2.next = st.h.next + 1 := rfl
  refine ⟨⟨inv_congr (fun a o => hm a (ok.own a o)) ok.inv, ?_, ?_, ?_, ok.mbuf, ?_⟩, abs_congr fun a o => hm a (ok.own a o)⟩
  · intro a o; have := ok.own a o; simp only [nx]; omega
  · intro a ha
    simp only [List.mem_cons, nx] at ha ⊢
    rcases ha with rfl | ha
    · simp [Heap.alloc]
    · have := ok.lt a ha; omega
  · intro a ha o
    simp only [List.mem_cons] at ha
    rcases ha with rfl | ha
    · have := ok.own _ o; simp [Heap.alloc] at this
    · exact ok.priv a ha o
  · have := ok.mlt; simp only [nx]; omega

theorem does_ok {st st' : State D} {e : Event} (ok : Ok st) (d : Does C W st e st') :
    Ok st' ∧ (st'.o.mbuf.arr = st.o.mbuf.arr ∨ st.h.next ≤ st'.o.mbuf.arr) ∧ st.h.next ≤ st'.h.next
      ∧ (∀ a ∈ st.known, a ∈ st'.known)
      ∧ (∀ a ∈ st.known, a ≠ st.o.mbuf.arr → a ∉ written [e] → st'.h.mem a = st.h.mem a) := by
  cases d with
  | call op hl hc =>
    rcases call_sim C W ok op hl with ⟨f1, _⟩ | ⟨f1, _⟩ | ⟨r, o, h, f1, f2, f3, f4, f5, f6⟩
    · rw [hc] at f1; simp at f1
    · rw [hc] at f1; simp at f1
    · rw [hc] at f1
      simp only [Exec.val.injEq, Prod.mk.injEq] at f1
      obtain ⟨rfl, rfl, rfl⟩ := f1
      refine ⟨f3, f5, f6, ?_, fun a ha hn hw => f4 a ha hn (by simpa [written] using hw)⟩
      intro a ha
      cases op <;> simp [knownAfter, ha]
  | make v =>
    refine ⟨(alloc_ok ok v).1, .inl rfl, by simp [Heap.alloc], fun a ha => by simp [ha], ?_⟩
    intro a ha _ _
    have := ok.lt a ha
    simp only [Heap.alloc]
    rw [if_neg (by omega)]
  | write a v hd hv =>
    refine ⟨(set_ok ok hd v).1, .inl rfl, Nat.le_refl _, fun _ h => h, ?_⟩
    intro x _ _ hw
    simp only [written, List.mem_singleton] at hw
    rw [set_mem, if_neg hw]

theorem runs_ok {st st' : State D} {es : List Event} (ok : Ok st) (r : Runs C W st es st') : Ok st' := by
  induction r with
  | nil => exact ok
  | snoc _ d ih => exact (does_ok C W ih d).1

theorem calls_append (es es' : List Event) : calls (es ++ es') = calls es ++ calls es' := by
  induction es with
  | nil => rfl
  | cons e es ih => cases e <;> simp [calls, ih]

theorem results_append (es es' : List Event) : results (es ++ es') = results es ++ results es' := by
  induction es with
  | nil => rfl
  | cons e es ih => cases e <;> simp [results, ih]

theorem written_append (es es' : List Event) : written (es ++ es') = written es ++ written es' := by
  induction es with
  | nil => rfl
  | cons e es ih => cases e <;> simp [written, ih]

theorem values_snoc {cs : List VCall} {c : VCall} {w w' w'' : Writer D} {rs : List (Nat × Option Err)} {r : Nat × Option Err}
    (h1 : values C cs w = .val (rs, w')) (h2 : vcall C w' c = .val (r, w'')) : values C (cs ++ [c]) w = .val (rs ++ [r], w'') := by
  induction cs generalizing w rs with
  | nil =>
    simp only [values, Exec.val.injEq, Prod.mk.injEq] at h1
    obtain ⟨rfl, rfl⟩ := h1
    simp [values, h2]
  | cons c' cs ih =>
    simp only [values, List.cons_append] at h1 ⊢
    cases hc : vcall C w c' with
    | panic => rw [hc] at h1; simp at h1
    | timeout => rw [hc] at h1; simp at h1
    | val x =>
      obtain ⟨r0, w0⟩ := x
      rw [hc] at h1
      simp only at h1 ⊢
      cases hv : values C cs w0 with
      | panic => rw [hv] at h1; simp at h1
      | timeout => rw [hv] at h1; simp at h1
      | val y =>
        obtain ⟨rs0, w1⟩ := y
        rw [hv] at h1
        simp only [Exec.val.injEq, Prod.mk.injEq] at h1
        obtain ⟨rfl, rfl⟩ := h1
        rw [ih hv]
        rfl

theorem runs_values {st st' : State D} {es : List Event} (ok : Ok st) (r : Runs C W st es st') :
    values C (calls es) (st.o.m.abs st.h) = .val (results es, st'.o.m.abs st'.h) := by
  induction r with
  | nil => rfl
  | snoc r d ih =>
    have ok' := runs_ok C W ok r
    rw [calls_append, results_append]
    cases d with
    | call op hl hc =>
      rcases call_sim C W ok' op hl with ⟨f1, _⟩ | ⟨f1, _⟩ | ⟨r, o, h, f1, f2, _⟩
      · rw [hc] at f1; simp at f1
      · rw [hc] at f1; simp at f1
      · rw [hc] at f1
        simp only [Exec.val.injEq, Prod.mk.injEq] at f1
        obtain ⟨rfl, rfl, rfl⟩ := f1
        exact values_snoc C ih f2
    | make v =>
      simp only [calls, results, List.append_nil]
      rw [ih, (alloc_ok ok' v).2]
    | write a v hd hv =>
      simp only [calls, results, List.append_nil]
      rw [ih, (set_ok ok' hd v).2]

/-! ### Theorems -/

/-- **C102.** Whatever the program and its callbacks do with their memory, before a call, within it and after it: the results of all calls
and all that the transport gets are those of the calls on values, each slice replaced by what was in it when its call was made (for a line:
when the callbacks were done). -/
theorem calls_are_values (size : Int) (tmo : List (Option Err)) (s : Sink) (h : Heap) (known : List Nat) (hk : ∀ a ∈ known, a < h.next)
    {es : List Event} {st : State D} (r : Runs C W (start size tmo s h known) es st) :
    ∃ w, values C (calls es) (newWriter size tmo s) = .val (results es, w) ∧ st.o.m.w.sink = w.sink := by
  have := runs_values C W (start_ok size tmo s h known hk) r
  rw [start_abs] at this
  exact ⟨_, this, rfl⟩

/-- **C102.** The next call panics exactly when it does in the model of values. -/
theorem panics_are_values (size : Int) (tmo : List (Option Err)) (s : Sink) (h : Heap) (known : List Nat) (hk : ∀ a ∈ known, a < h.next)
    {es : List Event} {st : State D} (r : Runs C W (start size tmo s h known) es st) (op : MOp) (hl : Legal W st op) :
    st.o.step C W op st.h = .panic ↔
      ∃ w, values C (calls es) (newWriter size tmo s) = .val (results es, w) ∧ vcall C w (seen W st op) = .panic := by
  have ok := start_ok (D := D) size tmo s h known hk
  have v := runs_values C W ok r
  rw [start_abs] at v
  have cs := call_sim C W (runs_ok C W ok r) op hl
  constructor
  · intro hp
    refine ⟨_, v, ?_⟩
    rcases cs with ⟨_, f2⟩ | ⟨f1, _⟩ | ⟨_, _, _, f1, _⟩
    · exact f2
    · rw [hp] at f1; simp at f1
    · rw [hp] at f1; simp at f1
  · rintro ⟨w, e, hp⟩
    rw [v] at e
    simp only [Exec.val.injEq, Prod.mk.injEq, true_and] at e
    subst e
    rcases cs with ⟨f1, _⟩ | ⟨_, f2⟩ | ⟨_, _, _, _, f2, _⟩
    · exact f1
    · rw [hp] at f2; simp at f2
    · rw [hp] at f2; simp at f2

/-- **C102.** The writer never writes to memory of the program: an array the program had changes only if the program or a callback writes
to it.  (The arrays of messages shown to callbacks are not of this kind: `next_message_overwrites`.) -/
theorem array_kept {st st' : State D} (ok : Ok st) {es : List Event} (r : Runs C W st es st') (a : Nat) (ha : a ∈ st.known)
    (hm : a ≠ st.o.mbuf.arr) (hw : a ∉ written es) : st'.h.mem a = st.h.mem a := by
  have key : a ∈ st'.known ∧ a ≠ st'.o.mbuf.arr ∧ st.h.next ≤ st'.h.next ∧ st'.h.mem a = st.h.mem a := by
    induction r with
    | nil => exact ⟨ha, hm, Nat.le_refl _, rfl⟩
    | snoc r d ih =>
      simp only [written_append, List.mem_append, not_or] at hw
      obtain ⟨i1, i2, i3, i4⟩ := ih hw.1
      have ok' := runs_ok C W ok r
      obtain ⟨d1, d2, d3, d4, d5⟩ := does_ok C W ok' d
      refine ⟨d4 a i1, ?_, Nat.le_trans i3 d3, (d5 a i1 i2 hw.2).trans i4⟩
      rcases d2 with e | e
      · rw [e]; exact i2
      · have := ok'.lt a i1; omega
  exact key.2.2.2

/-- The arrays a program has when it makes the writer are kept in this sense. -/
theorem callers_memory_kept (size : Int) (tmo : List (Option Err)) (s : Sink) (h : Heap) (known : List Nat) (hk : ∀ a ∈ known, a < h.next)
    {es : List Event} {st : State D} (r : Runs C W (start size tmo s h known) es st) (a : Nat) (ha : a ∈ known) (hw : a ∉ written es) :
    st.h.mem a = h.mem a := by
  have := hk a ha
  rw [array_kept C W (start_ok size tmo s h known hk) r a ha (by simp [start, newMWriter, Heap.alloc]; omega) hw]
  have e1 : ¬ a = h.next + 1 := by omega
  have e2 : ¬ a = h.next := by omega
  simp [start, newMWriter, Heap.alloc, e1, e2]

/-- Lines that are all accepted, in the model of values. -/
theorem values_lines (ls : List Bytes) (w : Writer D) :
    values C (ls.map (VCall.line .accept) ++ [.flush]) w = Writer.run C (ls.map WOp.line ++ [.flush]) w := by
  induction ls generalizing w with
  | nil =>
    simp only [List.map_nil, List.nil_append, values, Writer.run, vcall]
    cases w.step C .flush <;> rfl
  | cons l ls ih =>
    simp only [List.map_cons, List.cons_append, values, Writer.run, vcall]
    cases w.step C (.line l) with
    | panic => rfl
    | timeout => rfl
    | val x =>
      simp only [ih]
      cases Writer.run C (ls.map WOp.line ++ [.flush]) x.2 <;> rfl

/-- **C102.** One buffer can be used for all lines: if a program writes lines out of any arrays, changes the arrays as it likes between
the calls, and flushes, and all calls succeed, then the transport has the lines as they were when they were written. -/
theorem buffer_used_again {Z : Type} {I : Inflater Z} (law : C.Law I) (size : Int) (tmo : List (Option Err)) (script : List SEv) (h : Heap)
    (known : List Nat) (hk : ∀ a ∈ known, a < h.next) {es : List Event} {st : State D}
    (r : Runs C W (start size tmo ⟨[], script⟩ h known) es st) (ls : List Bytes)
    (hc : calls es = ls.map (VCall.line .accept) ++ [.flush]) (hr : ∀ x ∈ results es, x = (0, none)) : st.o.m.w.sink.sent = ls.flatten := by
  obtain ⟨w, v, e⟩ := calls_are_values C W size tmo ⟨[], script⟩ h known hk r
  rw [hc, values_lines] at v
  obtain ⟨rs, w', h1, _, h2⟩ := LineWriter.sent_prefix C law size tmo script (ls.map WOp.line ++ [.flush]) (by
    intro op hop
    simp only [List.mem_append, List.mem_map, List.mem_singleton] at hop
    rcases hop with ⟨l, _, rfl⟩ | rfl <;> trivial)
  rw [v] at h1
  simp only [Exec.val.injEq, Prod.mk.injEq] at h1
  obtain ⟨rfl, rfl⟩ := h1
  have len := LineWriter.run_length C v
  simp only [List.length_append, List.length_map, List.length_singleton] at len
  have last : (results es).getLast? = some (0, none) := by
    rw [List.getLast?_eq_some_getLast (by intro e; rw [e] at len; simp at len)]
    exact congrArg some (hr _ (List.getLast_mem _))
  rw [e, h2 _ rfl last]
  have : ∀ (ls : List Bytes) (rs : List (Nat × Option Err)), rs.length = ls.length + 1 → (∀ x ∈ rs, x = (0, none)) →
      LineWriter.offered [] (ls.map WOp.line ++ [.flush]) rs = ls.flatten := by
    intro ls
    induction ls with
    | nil =>
      intro rs hl hn
      match rs, hl with
      | [x], _ => rw [hn x (by simp)]; simp [LineWriter.offered]
    | cons l ls ih =>
      intro rs hl hn
      match rs, hl with
      | x :: rs, hl =>
        rw [hn x (by simp)]
        have := ih rs (by simpa using hl) fun y hy => hn y (by simp [hy])
        simp [LineWriter.offered, runHooks, this]
  exact this ls _ len hr

/-- **C102, the other side.** A callback must not keep the line of a message: if the next message fits into the message buffer it is
encoded into the same array. -/
theorem next_message_overwrites (size : Int) (tmo : List (Option Err)) (s : Sink) (h0 : Heap) (known : List Nat)
    (hk : ∀ a ∈ known, a < h0.next) {es : List Event} {st : State D} (run : Runs C W (start size tmo s h0 known) es st)
    {l : Bytes} {r : Nat × Option Err} {o : MOut D} {h : Heap}
    (hf : l.length ≤ st.o.mbuf.cap) (hc : st.o.step C W (.msg [] l) st.h = .val (r, o, h)) :
    o.mbuf.arr = st.o.mbuf.arr ∧ (h.mem st.o.mbuf.arr).take l.length = l := by
  have ok := runs_ok C W (start_ok size tmo s h0 known hk) run
  obtain ⟨a1, a2, a3, a4, a5, a6⟩ := append_ok W (h := st.h) (s := st.o.mbuf) (l := l) ok.mlt
  have ap : (append W st.h { st.o.mbuf with len := 0 } l).1.arr = st.o.mbuf.arr := by simp [append, hf]
  simp only [MOut.step, MOut.writeMsg] at hc
  cases ha : append W st.h { st.o.mbuf with len := 0 } l with
  | mk s h0 =>
  rw [ha] at hc a1 a2 a3 a4 a5 a6 ap
  simp only at hc a1 a2 a3 a4 a5 a6 ap
  have hm : ∀ a, st.o.m.Own a → h0.mem a = st.h.mem a := fun a o => a6 a (ok.own a o) fun e => ok.mbuf (e ▸ o)
  have inn : 0 + s.len ≤ (h0.mem s.arr).length := by
    have := congrArg List.length a5
    simp only [List.length_take] at this
    omega
  rcases line_sim C (p := ⟨s.arr, 0, s.len⟩) (known := [s.arr]) (hs := []) (inv_congr hm ok.inv) (by intro x hx; simp at hx)
      (by intro a ha; simp only [List.mem_singleton] at ha; rw [ha, ap]; exact ok.mbuf) (by simp) inn with
    ⟨f1, _⟩ | ⟨f1, _⟩ | ⟨e, m', h', f1, _, g⟩
  · rw [f1] at hc; simp at hc
  · rw [f1] at hc; simp at hc
  · rw [f1] at hc
    simp only [Exec.val.injEq, Prod.mk.injEq] at hc
    obtain ⟨_, rfl, rfl⟩ := hc
    refine ⟨ap, ?_⟩
    rw [g.frame _ ok.mbuf (by simp), ← ap]
    exact a5

/-! ### Instances -/

instance (known : List Nat) (h : Heap) (hooks : List HookRun) : Decidable (HooksOk known h hooks) := by unfold HooksOk; infer_instance

instance (st : State D) (op : MOp) : Decidable (Legal W st op) := by
  cases op <;> simp only [Legal] <;> infer_instance

/-- A step a program may try. -/
inductive Step where
  | call (op : MOp)
  | make (v : Bytes)
  | write (a : Nat) (v : Bytes)

/-- The steps in order, as long as they are legal and no call panics. -/
def exec : List Step → State D → Option (List Event × State D)
  | [], st => some ([], st)
  | .call op :: ps, st =>
    if Legal W st op then
      match st.o.step C W op st.h with
      | .val (r, o, h) => (exec ps ⟨o, h, knownAfter st o op⟩).map fun x => (.call op (seen W st op) r :: x.1, x.2)
      | _ => none
    else none
  | .make v :: ps, st =>
    (exec ps { st with h := (st.h.alloc v).2, known := (st.h.alloc v).1 :: st.known }).map fun x => (.make :: x.1, x.2)
  | .write a v :: ps, st =>
    if a ∈ st.known ∧ v.length = (st.h.mem a).length then
      (exec ps { st with h := st.h.set a v }).map fun x => (.write a :: x.1, x.2)
    else none

theorem Runs.cons {st st' st'' : State D} {e : Event} {es : List Event} (d : Does C W st e st') (r : Runs C W st' es st'') :
    Runs C W st (e :: es) st'' := by
  induction r with
  | nil => exact Runs.snoc .nil d
  | snoc _ d' ih => exact Runs.snoc ih d'

theorem exec_runs (ps : List Step) (st : State D) {es : List Event} {st' : State D} (h : exec C W ps st = some (es, st')) :
    Runs C W st es st' := by
  induction ps generalizing st es with
  | nil =>
    simp only [exec, Option.some.injEq, Prod.mk.injEq] at h
    obtain ⟨rfl, rfl⟩ := h
    exact .nil
  | cons p ps ih =>
    cases p with
    | call op =>
      simp only [exec] at h
      split at h
      · rename_i hl
        split at h
        · rename_i hc
          simp only [Option.map_eq_some_iff] at h
          obtain ⟨⟨es', st''⟩, h1, h2⟩ := h
          simp only [Prod.mk.injEq] at h2
          obtain ⟨rfl, rfl⟩ := h2
          exact Runs.cons C W (.call op hl hc) (ih _ h1)
        · simp at h
      · simp at h
    | make v =>
      simp only [exec, Option.map_eq_some_iff] at h
      obtain ⟨⟨es', st''⟩, h1, h2⟩ := h
      simp only [Prod.mk.injEq] at h2
      obtain ⟨rfl, rfl⟩ := h2
      exact Runs.cons C W (.make v) (ih _ h1)
    | write a v =>
      simp only [exec] at h
      split at h
      · rename_i hl
        simp only [Option.map_eq_some_iff] at h
        obtain ⟨⟨es', st''⟩, h1, h2⟩ := h
        simp only [Prod.mk.injEq] at h2
        obtain ⟨rfl, rfl⟩ := h2
        exact Runs.cons C W (.write a v hl.1 hl.2) (ih _ h1)
      · simp at h

/-- A memory with one array of 7 bytes, known to the program. -/
def mem0 : Heap := ⟨fun _ => b!"ab|....", 1⟩

/-- New arrays are twice as large as needed. -/
def world0 : World := ⟨fun _ => [], fun n => 2 * n⟩

/-- A writer with a buffer of 4 bytes. -/
def start0 : State Bool := start 4 [] ⟨[], []⟩ mem0 [0]

/-- Lines out of one array, which is overwritten between the calls and before `Flush`; a callback changes the second line, and one drops
the third. -/
def prog0 : List Step :=
  [.call (.line [] ⟨0, 0, 3⟩), .write 0 b!"12cde|9", .call (.line [⟨[(0, b!"12CDE|9")], .accept⟩] ⟨0, 2, 4⟩), .write 0 b!"xyz|...",
    .call (.line [⟨[], .drop⟩] ⟨0, 0, 4⟩), .write 0 b!"!!!!!!!", .call .flush]

/-- The hypotheses of `calls_are_values` are met by this program. -/
example : ∃ (es : List Event) (st : State Bool), Runs LineWriter.stored world0 start0 es st ∧
    results es = [(0, none), (0, none), (0, none), (0, none)] ∧ st.o.m.w.sink.sent = b!"ab|CDE|" ∧ st.h.mem 0 = b!"!!!!!!!" := by
  have : ((exec LineWriter.stored world0 prog0 start0).map fun x => (results x.1, x.2.o.m.w.sink.sent, x.2.h.mem 0)) =
      some ([(0, none), (0, none), (0, none), (0, none)], b!"ab|CDE|", b!"!!!!!!!") := by decide +kernel
  simp only [Option.map_eq_some_iff, Prod.mk.injEq] at this
  obtain ⟨⟨es, st⟩, h1, h2, h3, h4⟩ := this
  exact ⟨es, st, exec_runs _ _ _ _ h1, h2, h3, h4⟩

/-- What the transport has, what is in the first array, and what is in the array of the messages. -/
def outcome (ps : List Step) : Option (Bytes × Bytes × Bytes) :=
  (exec LineWriter.stored world0 ps start0).map fun x => (x.2.o.m.w.sink.sent, x.2.h.mem 0, x.2.h.mem 3)

/-- Two messages; the callback of the first knows its array, which is the array 3, and the program writes to it before `Flush`. -/
example : outcome [.call (.msg [⟨[(3, b!"AB|")], .accept⟩] b!"ab|"), .call (.msg [] b!"cde|"), .write 3 b!"????", .call .flush]
    = some (b!"AB|cde|", b!"ab|....", b!"????") := by decide +kernel

/-- Compression on and off again, raw data, and `Close`. -/
example : (outcome [.call (.line [] ⟨0, 0, 3⟩), .call (.enable 0), .call (.line [] ⟨0, 0, 2⟩), .write 0 b!"-------", .call .disable,
    .call (.write ⟨0, 0, 2⟩), .call (.line [] ⟨0, 0, 1⟩), .call .close]).map (·.1) = some (b!"ab|" ++ [120, 1, 1, 97, 1, 98, 0] ++ b!"---") := by
  decide +kernel

/-- The writer's own array cannot be named: a program that tries to write to it is not legal. -/
example : outcome [.write 1 b!"...."] = none ∧ outcome [.call (.line [⟨[(1, b!"....")], .accept⟩] ⟨0, 0, 3⟩)] = none := by decide +kernel

/-- **A kept message is lost**: the array of the first message has the second one in it. -/
theorem kept_message_changes : (outcome [.call (.msg [] b!"ab|")]).map (·.2.2) = some b!"ab|" ∧
    (outcome [.call (.msg [] b!"ab|"), .call (.msg [] b!"cde|")]).map (·.2.2) = some b!"cde|" := by decide +kernel

end Verif.Props.LineWriterMemory
