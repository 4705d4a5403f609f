import Verif.Lineproto.MemoryLemmas
import Verif.Props.LineReaderTotal

/-!
# C79: who owns the lines and the buffers of the line reader

Model: `Verif/Lineproto/Memory.lean`, where slices are windows on arrays.

A program that uses a reader knows some arrays: those it had before, those it makes, and those of the lines that `ReadLine` returns.
It writes to arrays it knows whatever it likes, and gives them to `Read`.  All this is interleaved with calls of the reader.
-/

namespace Verif.Props.LineMemory

open Verif Verif.Lineproto Verif.Lineproto.Mem Verif.Props.LineReaderTotal

variable {Z : Type} (I : Inflater Z) (W : World)

/-- A call of the API.  `read a off n` is `Read(p)` where `p` are the `n` bytes from `off` of the array `a`. -/
inductive MCall where
  | readLine
  | read (a off n : Nat)
  | enableZlib (sched : List (Nat × Bool))
  | binaryRead (a off n left : Nat)
  | binaryClose (left : Nat)
  | setMaxLine (n : Int)
  | onLine (f : Bytes → Hook)
  | close

/-- The call without its addresses. -/
def MCall.plain : MCall → Call
  | .readLine => .readLine
  | .read _ _ n => .read n
  | .enableZlib sched => .enableZlib sched
  | .binaryRead _ _ n left => .binaryRead n left
  | .binaryClose left => .binaryClose left
  | .setMaxLine n => .setMaxLine n
  | .onLine f => .onLine f
  | .close => .close

/-- The array a call is asked to write to. -/
def MCall.dest : MCall → Option Nat
  | .read a _ _ => some a
  | .binaryRead a _ _ _ => some a
  | _ => none

/-- What a call returns: `ReadLine` returns a slice or nil. -/
inductive MRet where
  | line (s : Option Slice) (e : Option Err)
  | plain (x : Ret)

/-- What the caller sees if it looks at the result in the memory `h`. -/
def MRet.seen (h : Heap) : MRet → Ret
  | .line s e => .bytes (deref h s) e
  | .plain x => x

/-- A call on memory.  `Read` copies the data to its argument, and may use more of it as scratch space. -/
def mcall (fuel : Nat) (r : MReader Z) (h : Heap) : MCall → Exec (MRet × MReader Z × Heap)
  | .readLine => match r.readLine I W fuel h with
    | .val ((s, e), r', h') => .val (.line s e, r', h')
    | .panic => .panic
    | .timeout => .timeout
  | .read a off n => match r.readBytes I W fuel n h with
    | .val ((d, e), r', h') => .val (.plain (.bytes d e), r', h'.copyTo a off (d ++ W.junk h'))
    | .panic => .panic
    | .timeout => .timeout
  | .enableZlib sched => match r.enableZlib I fuel sched h with
    | .val (e, r', h') => .val (.plain (.err e), r', h')
    | .panic => .panic
    | .timeout => .timeout
  | .binaryRead a off n left => match r.binRead I W fuel n left h with
    | .val ((d, e), _, r', h') => .val (.plain (.bytes d e), r', h'.copyTo a off (d ++ W.junk h'))
    | .panic => .panic
    | .timeout => .timeout
  | .binaryClose left => match r.binClose I W fuel left h with
    | .val (e, r', h') => .val (.plain (.err e), r', h')
    | .panic => .panic
    | .timeout => .timeout
  | .setMaxLine n => .val (.plain .unit, { r with maxLine := n }, h)
  | .onLine f => .val (.plain .unit, { r with onLine := r.onLine ++ [f] }, h)
  | .close => .val (.plain .unit, r.close, h)

/-- The reader, the memory, the arrays the program knows, and the array of the last line it got. -/
structure State (Z : Type) where
  r : MReader Z
  h : Heap
  known : List Nat
  last : Option Nat

/-- What happens: a call with its result as the caller sees it, or something the program does with arrays of its own. -/
inductive Event where
  | call (fuel : Nat) (c : MCall) (seen : Ret)
  | make
  | write (a : Nat)

/-- The state after a call. -/
def State.after (st : State Z) (ret : MRet) (r : MReader Z) (h : Heap) : State Z :=
  match ret with
  | .line (some s) _ => ⟨r, h, s.arr :: st.known, some s.arr⟩
  | _ => ⟨r, h, st.known, st.last⟩

/-- One step of the program. -/
inductive Does : State Z → Event → State Z → Prop
  | call {st : State Z} (fuel : Nat) (c : MCall) {ret : MRet} {r : MReader Z} {h : Heap} (hd : ∀ a, c.dest = some a → a ∈ st.known)
      (hc : mcall I W fuel st.r st.h c = .val (ret, r, h)) : Does st (.call fuel c (ret.seen h)) (st.after ret r h)
  | make {st : State Z} (v : Bytes) : Does st .make { st with h := (st.h.alloc v).2, known := (st.h.alloc v).1 :: st.known }
  | write {st : State Z} (a : Nat) (v : Bytes) (hd : a ∈ st.known) : Does st (.write a) { st with h := st.h.set a v }

/-- The steps of the program. -/
inductive Runs : State Z → List Event → State Z → Prop
  | nil {st : State Z} : Runs st [] st
  | snoc {st st' st'' : State Z} {es : List Event} {e : Event} : Runs st es st' → Does I W st' e st'' → Runs st (es ++ [e]) st''

/-- A new reader, in a memory where the program knows some arrays. -/
def start (s : Src) (delim : Byte) (h : Heap) (known : List Nat) : State Z :=
  ⟨(Mem.newReader s delim h).1, (Mem.newReader (Z := Z) s delim h).2, known, none⟩

/-- The calls in a list of events. -/
def calls : List Event → List (Nat × Call)
  | [] => []
  | .call fuel c _ :: es => (fuel, c.plain) :: calls es
  | _ :: es => calls es

/-- What the calls return. -/
def results : List Event → List Ret
  | [] => []
  | .call _ _ x :: es => x :: results es
  | _ :: es => results es

/-- The results of a list of calls in the model of values, where there is no memory and nothing is shared. -/
def values : List (Nat × Call) → Reader Z → Exec (List Ret × Reader Z)
  | [], r => .val ([], r)
  | (fuel, c) :: cs, r => match LineReaderTotal.call I fuel r c with
    | .val (x, r') => match values cs r' with
      | .val (xs, r'') => .val (x :: xs, r'')
      | .panic => .panic
      | .timeout => .timeout
    | .panic => .panic
    | .timeout => .timeout

/-- What is true at any time. -/
structure Ok (st : State Z) : Prop where
  inv : Mem.Inv st.h st.r
  lt : ∀ a ∈ st.known, a < st.h.next
  priv : ∀ a ∈ st.known, a ∉ st.r.priv
  last : st.r.orig.isSome = true → st.r.line.arr ∈ st.known → st.last = some st.r.line.arr
  lastIn : ∀ a, st.last = some a → a ∈ st.known

theorem Ok.lastLt {st : State Z} (ok : Ok st) (a : Nat) (h : st.last = some a) : a < st.h.next := ok.lt a (ok.lastIn a h)

theorem start_ok (s : Src) (delim : Byte) (h : Heap) (known : List Nat) (hk : ∀ a ∈ known, a < h.next) :
    Ok (start s delim h known : State Z) := by
  refine ⟨⟨?_, ?_, ?_, rfl⟩, ?_, ?_, ?_, by simp [start]⟩
  · intro b hb; cases hb
    exact ⟨by simp [Mem.newReader, start, Heap.alloc]; omega, by simp [MBuf.Fits]⟩
  · intro c hc; cases hc
  · intro _
    simp [Mem.newReader, start, Heap.alloc, MReader.priv]
  · intro a ha
    have := hk a ha
    simp [Mem.newReader, start, Heap.alloc]
    omega
  · intro a ha
    have := hk a ha
    simp [Mem.newReader, start, Heap.alloc, MReader.priv]
    omega
  · intro _ ha
    have := hk _ ha
    simp [Mem.newReader, start, Heap.alloc] at this
    omega

theorem start_abs (s : Src) (delim : Byte) (h : Heap) (known : List Nat) :
    (start s delim h known : State Z).r.abs (start s delim h known : State Z).h = Lineproto.newReader s delim := by
  simp [start, Mem.newReader, MReader.abs, MSrc.abs, MBuf.view, Lineproto.newReader]

/-- What a call does, in terms of the model of values. -/
def CallRel (st : State Z) (c : MCall) (x : MRet × MReader Z × Heap) (y : Ret × Reader Z) : Prop :=
  y = (x.1.seen x.2.2, x.2.1.abs x.2.2) ∧ Ok (st.after x.1 x.2.1 x.2.2) ∧
  (∀ a ∈ st.known, c.dest ≠ some a → (c = .readLine → st.last ≠ some a) → x.2.2.mem a = st.h.mem a) ∧
  (∀ s e, x.1 = .line (some s) e → s = x.2.1.line ∧ x.2.1.orig.isSome = true ∧ (s.bytes x.2.2).length = s.len) ∧
  (x.2.1.orig.isSome = true → st.r.orig.isSome = true ∧ (x.2.1.line.arr = st.r.line.arr ∨ st.h.next ≤ x.2.1.line.arr))

theorem quiet_ok {st : State Z} (ok : Ok st) {r : MReader Z} {h : Heap} (q : Quiet st.r st.h r h) :
    Ok ⟨r, h, st.known, st.last⟩ ∧ ∀ a ∈ st.known, h.mem a = st.h.mem a := by
  refine ⟨⟨q.inv, ?_, ?_, ?_, ok.lastIn⟩, ?_⟩
  · intro a ha
    exact Nat.lt_of_lt_of_le (ok.lt a ha) q.grow.1
  · intro a ha hp
    have := ok.lt a ha
    rcases q.priv a hp with e | e
    · exact ok.priv a ha e
    · omega
  · intro h1 h2
    simp only [q.line] at h2 ⊢
    exact ok.last (by rw [← q.opened]; exact h1) h2
  · intro a ha
    exact q.grow.2 a (ok.lt a ha) (ok.priv a ha)

theorem set_abs {st : State Z} (ok : Ok st) {a : Nat} (ha : a ∈ st.known) (v : Bytes) :
    st.r.abs (st.h.set a v) = st.r.abs st.h :=
  abs_congr fun x hx => by
    simp only [Heap.set]
    rw [if_neg]
    rintro rfl
    exact ok.priv _ ha hx

theorem set_ok {st : State Z} (ok : Ok st) {a : Nat} (ha : a ∈ st.known) (v : Bytes) : Ok { st with h := st.h.set a v } := by
  have hm : ∀ x ∈ st.r.priv, (st.h.set a v).mem x = st.h.mem x := fun x hx => by
    simp only [Heap.set]
    rw [if_neg]
    rintro rfl
    exact ok.priv _ ha hx
  refine ⟨⟨?_, ?_, ok.inv.line, ok.inv.zlib⟩, ok.lt, ok.priv, ok.last, ok.lastIn⟩
  · intro b hb
    refine ⟨(ok.inv.orig b hb).1, ?_⟩
    simp only [MBuf.Fits]
    rw [hm _ (by simp [MReader.priv, show st.r.orig = some b from hb])]
    exact (ok.inv.orig b hb).2
  · intro c hc
    refine ⟨(ok.inv.comp c hc).1, ?_, (ok.inv.comp c hc).2.2⟩
    simp only [MBuf.Fits]
    rw [hm _ (by simp [MReader.priv, show st.r.comp = some c from hc])]
    exact (ok.inv.comp c hc).2.1

theorem alloc_ok {st : State Z} (ok : Ok st) (v : Bytes) :
    Ok { st with h := (st.h.alloc v).2, known := (st.h.alloc v).1 :: st.known } ∧ st.r.abs (st.h.alloc v).2 = st.r.abs st.h := by
  have hg := grow_alloc (h := st.h) (v := v)
  have hm : ∀ x ∈ st.r.priv, (st.h.alloc v).2.mem x = st.h.mem x := fun x hx => hg.1.2 x (priv_lt ok.inv hx) (by simp)
  refine ⟨⟨⟨?_, ?_, ?_, ok.inv.zlib⟩, ?_, ?_, ?_, fun a ha => List.mem_cons_of_mem _ (ok.lastIn a ha)⟩, abs_congr hm⟩
  · intro b hb
    refine ⟨Nat.lt_of_lt_of_le (ok.inv.orig b hb).1 hg.1.1, ?_⟩
    simp only [MBuf.Fits]
    rw [hm _ (by simp [MReader.priv, show st.r.orig = some b from hb])]
    exact (ok.inv.orig b hb).2
  · intro c hc
    refine ⟨Nat.lt_of_lt_of_le (ok.inv.comp c hc).1 hg.1.1, ?_, (ok.inv.comp c hc).2.2⟩
    simp only [MBuf.Fits]
    rw [hm _ (by simp [MReader.priv, show st.r.comp = some c from hc])]
    exact (ok.inv.comp c hc).2.1
  · intro ho
    exact ⟨Nat.lt_of_lt_of_le (ok.inv.line ho).1 hg.1.1, (ok.inv.line ho).2⟩
  · intro a ha
    simp only [List.mem_cons] at ha
    simp only [hg.2.2.1]
    rcases ha with ha | ha
    · rw [ha, hg.2.1]; omega
    · have := ok.lt a ha; omega
  · intro a ha hp
    simp only [List.mem_cons] at ha
    rcases ha with ha | ha
    · have := priv_lt ok.inv hp
      rw [ha, hg.2.1] at this
      omega
    · exact ok.priv a ha hp
  · intro ho ha
    simp only [List.mem_cons] at ha
    rcases ha with ha | ha
    · have := (ok.inv.line ho).1
      rw [ha, hg.2.1] at this
      omega
    · exact ok.last ho ha

theorem call_sim (fuel : Nat) {st : State Z} (ok : Ok st) (c : MCall) (hd : ∀ a, c.dest = some a → a ∈ st.known) :
    Sim (CallRel st c) (mcall I W fuel st.r st.h c) (LineReaderTotal.call I fuel (st.r.abs st.h) c.plain) := by
  have quiet : ∀ {x : Ret} {r : MReader Z} {h : Heap}, Quiet st.r st.h r h →
      CallRel st c (.plain x, r, h) (x, r.abs h) := by
    intro x r h q
    have := quiet_ok ok q
    exact ⟨rfl, this.1, fun a ha _ _ => this.2 a ha, (by intro s e h; cases h), fun ho => ⟨q.opened ▸ ho, .inl (by rw [q.line])⟩⟩
  have copies : ∀ {x : Ret} {r : MReader Z} {h : Heap} {a off : Nat} {d : Bytes}, Quiet st.r st.h r h → c.dest = some a →
      CallRel st c (.plain x, r, h.copyTo a off d) (x, r.abs h) := by
    intro x r h a off d q hdest
    have := quiet_ok ok q
    have ha := hd a hdest
    refine ⟨?_, set_ok this.1 ha _, ?_, (by intro s e h; cases h), fun ho => ⟨q.opened ▸ ho, .inl (by rw [q.line])⟩⟩
    · rw [show r.abs (h.copyTo a off d) = r.abs h from set_abs this.1 ha _]; rfl
    · intro y hy hne _
      simp only [Heap.copyTo, Heap.set]
      rw [if_neg (by rintro rfl; exact hne hdest)]
      exact this.2 y hy
  cases c with
  | readLine =>
    simp only [mcall, MCall.plain, LineReaderTotal.call]
    cases ho : st.r.orig with
    | none =>
      have e1 : (st.r.abs st.h).orig = none := by simp [MReader.abs, ho]
      have e2 : st.r.readLine I W fuel st.h = .val ((none, some .readerClosed), st.r, st.h) := by simp [MReader.readLine, ho]
      have e3 : (st.r.abs st.h).readLine I fuel = .val (([], some .readerClosed), st.r.abs st.h) := by simp [Reader.readLine, e1]
      rw [e2, e3]
      exact ⟨rfl, ok, fun _ _ _ _ => rfl, (by intro s e h; cases h), fun h => ⟨h, .inl rfl⟩⟩
    | some b =>
      rcases (readLine_sim I W fuel ok.inv (by simp [ho])).cases with
        ⟨h1, h2⟩ | ⟨h1, h2⟩ | ⟨⟨⟨s, e⟩, r', h'⟩, y, h1, h2, rfl, hs, ho', hl⟩
      · rw [h1, h2]; trivial
      · rw [h1, h2]; trivial
      · rw [h1, h2]
        simp only at hs ho' hl ⊢
        have hlt : ∀ a ∈ st.known, a < h'.next := fun a ha => Nat.lt_of_lt_of_le (ok.lt a ha) hs.grow.1
        have hpr : ∀ a ∈ st.known, a ∉ r'.priv := by
          intro a ha hp
          have := ok.lt a ha
          rcases hs.priv a hp with e | e
          · exact ok.priv a ha e
          · omega
        refine ⟨rfl, ?_, ?_, ?_, fun _ => ⟨by simp [ho], hs.line ho'⟩⟩
        · cases s with
          | none =>
            refine ⟨hs.inv, hlt, hpr, ?_, ok.lastIn⟩
            intro _ hk
            simp only [State.after] at hk ⊢
            have := ok.lt _ hk
            rcases hs.line ho' with e | e
            · rw [e] at hk ⊢
              exact ok.last (by simp [ho]) hk
            · omega
          | some s =>
            obtain ⟨rfl, -⟩ := hl s rfl
            have := hs.inv.line ho'
            refine ⟨hs.inv, ?_, ?_, fun _ _ => rfl, by simp [State.after]⟩
            · intro a ha
              simp only [State.after, List.mem_cons] at ha
              rcases ha with rfl | ha
              · exact this.1
              · exact hlt a ha
            · intro a ha
              simp only [State.after, List.mem_cons] at ha
              rcases ha with rfl | ha
              · exact this.2
              · exact hpr a ha
        · intro a ha _ hla
          refine hs.grow.2 a (ok.lt a ha) ?_
          simp only [List.mem_cons, not_or]
          refine ⟨?_, ok.priv a ha⟩
          rintro rfl
          exact hla rfl (ok.last (by simp [ho]) ha)
        · intro s' e' heq
          simp only [MRet.line.injEq] at heq
          exact ⟨(hl s' heq.1).1, ho', (hl s' heq.1).2⟩
  | read a off n =>
    simp only [mcall, MCall.plain, LineReaderTotal.call]
    rcases (readBytes_quiet I W fuel n ok.inv).cases with ⟨h1, h2⟩ | ⟨h1, h2⟩ | ⟨⟨⟨d, e⟩, r', h'⟩, y, h1, h2, rfl, h3⟩
    · rw [h1, h2]; trivial
    · rw [h1, h2]; trivial
    · rw [h1, h2]; exact copies h3 rfl
  | enableZlib sched =>
    simp only [mcall, MCall.plain, LineReaderTotal.call]
    rcases (enableZlib_sim I fuel sched ok.inv).cases with ⟨h1, h2⟩ | ⟨h1, h2⟩ | ⟨⟨e, r', h'⟩, y, h1, h2, rfl, h3⟩
    · rw [h1, h2]; trivial
    · rw [h1, h2]; trivial
    · rw [h1, h2]; exact quiet h3
  | binaryRead a off n left =>
    simp only [mcall, MCall.plain, LineReaderTotal.call]
    rcases (binRead_sim I W fuel n left ok.inv).cases with ⟨h1, h2⟩ | ⟨h1, h2⟩ | ⟨⟨⟨d, e⟩, l, r', h'⟩, y, h1, h2, rfl, h3⟩
    · rw [h1, h2]; trivial
    · rw [h1, h2]; trivial
    · rw [h1, h2]; exact copies h3 rfl
  | binaryClose left =>
    simp only [mcall, MCall.plain, LineReaderTotal.call]
    rcases (binClose_sim I W fuel left st.r st.h ok.inv).cases with ⟨h1, h2⟩ | ⟨h1, h2⟩ | ⟨⟨e, r', h'⟩, y, h1, h2, rfl, h3⟩
    · rw [h1, h2]; trivial
    · rw [h1, h2]; trivial
    · rw [h1, h2]; exact quiet h3
  | setMaxLine n =>
    exact ⟨rfl, ⟨⟨ok.inv.orig, ok.inv.comp, ok.inv.line, ok.inv.zlib⟩, ok.lt, ok.priv, ok.last, ok.lastIn⟩, fun _ _ _ _ => rfl, (by intro s e h; cases h),
      fun h => ⟨h, .inl rfl⟩⟩
  | onLine f =>
    exact ⟨rfl, ⟨⟨ok.inv.orig, ok.inv.comp, ok.inv.line, ok.inv.zlib⟩, ok.lt, ok.priv, ok.last, ok.lastIn⟩, fun _ _ _ _ => rfl, (by intro s e h; cases h),
      fun h => ⟨h, .inl rfl⟩⟩
  | close =>
    refine ⟨rfl, ⟨⟨?_, ?_, ?_, rfl⟩, ok.lt, ?_, ?_, ok.lastIn⟩, fun _ _ _ _ => rfl, (by intro s e h; cases h), (by intro h; cases h)⟩
    · intro b hb; cases hb
    · intro c hc; cases hc
    · intro h; cases h
    · intro a _ hp; cases hp
    · intro h; cases h

theorem calls_append (es fs : List Event) : calls (es ++ fs) = calls es ++ calls fs := by
  induction es with
  | nil => rfl
  | cons e es ih => cases e <;> simp [calls, ih]

theorem results_append (es fs : List Event) : results (es ++ fs) = results es ++ results fs := by
  induction es with
  | nil => rfl
  | cons e es ih => cases e <;> simp [results, ih]

theorem values_snoc {cs : List (Nat × Call)} {r r1 r2 : Reader Z} {xs : List Ret} {fuel : Nat} {c : Call} {x : Ret}
    (h1 : values I cs r = .val (xs, r1)) (h2 : LineReaderTotal.call I fuel r1 c = .val (x, r2)) :
    values I (cs ++ [(fuel, c)]) r = .val (xs ++ [x], r2) := by
  induction cs generalizing r xs with
  | nil =>
    simp only [values, Exec.val.injEq, Prod.mk.injEq] at h1
    obtain ⟨rfl, rfl⟩ := h1
    simp [values, h2]
  | cons d cs ih =>
    obtain ⟨f, d⟩ := d
    simp only [List.cons_append, values] at h1 ⊢
    cases hc : LineReaderTotal.call I f r d with
    | panic => rw [hc] at h1; cases h1
    | timeout => rw [hc] at h1; cases h1
    | val y =>
      obtain ⟨y, r'⟩ := y
      rw [hc] at h1
      simp only at h1 ⊢
      cases hv : values I cs r' with
      | panic => rw [hv] at h1; cases h1
      | timeout => rw [hv] at h1; cases h1
      | val z =>
        obtain ⟨zs, r''⟩ := z
        rw [hv] at h1
        simp only [Exec.val.injEq, Prod.mk.injEq] at h1
        obtain ⟨rfl, rfl⟩ := h1
        rw [ih hv]
        rfl

theorem run_ok {st st' : State Z} {es : List Event} (h : Runs I W st es st') (ok : Ok st) :
    Ok st' ∧ values I (calls es) (st.r.abs st.h) = .val (results es, st'.r.abs st'.h) := by
  induction h with
  | nil => exact ⟨ok, rfl⟩
  | snoc _ hd ih =>
    obtain ⟨ok1, hv⟩ := ih
    rw [calls_append, results_append]
    cases hd with
    | call fuel c hd hc =>
      rcases (call_sim I W fuel ok1 c hd).cases with ⟨h1, h2⟩ | ⟨h1, h2⟩ | ⟨x, y, h1, h2, rfl, h3, h4, h5, h6⟩
      · rw [h1] at hc; cases hc
      · rw [h1] at hc; cases hc
      · rw [h1] at hc
        cases hc
        refine ⟨h3, ?_⟩
        refine (values_snoc I hv h2).trans ?_
        simp only [results, State.after]
        split <;> rfl
    | make v =>
      have := alloc_ok ok1 v
      refine ⟨this.1, ?_⟩
      simp only [calls, results, List.append_nil]
      rw [hv, this.2]
    | write a v hd =>
      refine ⟨set_ok ok1 hd v, ?_⟩
      simp only [calls, results, List.append_nil]
      rw [hv, set_abs ok1 hd v]

/-- **C79.** Whatever the program does with the arrays it knows, also with those of the lines it got, whatever the transport leaves
in the buffers behind the data and however `append` sizes its arrays: what the calls return is what they return where lines and
buffers are values and nothing is shared. -/
theorem results_are_values (s : Src) (delim : Byte) (h : Heap) (known : List Nat) (hk : ∀ a ∈ known, a < h.next)
    {es : List Event} {st : State Z} (hr : Runs I W (start s delim h known) es st) :
    ∃ r, values I (calls es) (Lineproto.newReader s delim) = .val (results es, r) := by
  have := run_ok I W hr (start_ok s delim h known hk)
  rw [start_abs] at this
  exact ⟨_, this.2⟩

/-- **C79.** Two programs that make the same calls get the same results, whatever else they do. -/
theorem results_same (V : World) (s : Src) (delim : Byte) (h g : Heap) (known lnown : List Nat) (hk : ∀ a ∈ known, a < h.next)
    (hl : ∀ a ∈ lnown, a < g.next) {es fs : List Event} {st tt : State Z} (hr : Runs I W (start s delim h known) es st)
    (hs : Runs I V (start s delim g lnown) fs tt) (hc : calls es = calls fs) : results es = results fs := by
  obtain ⟨_, h1⟩ := results_are_values I W s delim h known hk hr
  obtain ⟨_, h2⟩ := results_are_values I V s delim g lnown hl hs
  rw [hc, h2] at h1
  simp only [Exec.val.injEq, Prod.mk.injEq] at h1
  exact h1.1.symm

/-- **C79.** The next call does what it does where nothing is shared: it panics, or it returns the same. -/
theorem next_call (s : Src) (delim : Byte) (h : Heap) (known : List Nat) (hk : ∀ a ∈ known, a < h.next)
    {es : List Event} {st : State Z} (hr : Runs I W (start s delim h known) es st) {r : Reader Z}
    (hv : values I (calls es) (Lineproto.newReader s delim) = .val (results es, r)) (fuel : Nat) (c : MCall)
    (hd : ∀ a, c.dest = some a → a ∈ st.known) :
    match mcall I W fuel st.r st.h c, LineReaderTotal.call I fuel r c.plain with
    | .val (ret, _, h'), .val (x, _) => ret.seen h' = x
    | .panic, .panic => True
    | .timeout, .timeout => True
    | _, _ => False := by
  obtain ⟨ok, hv'⟩ := run_ok I W hr (start_ok s delim h known hk)
  rw [start_abs, hv] at hv'
  simp only [Exec.val.injEq, Prod.mk.injEq, true_and] at hv'
  subst hv'
  rcases (call_sim I W fuel ok c hd).cases with ⟨h1, h2⟩ | ⟨h1, h2⟩ | ⟨x, y, h1, h2, rfl, h3, h4, h5, h6⟩
  · rw [h1, h2]; trivial
  · rw [h1, h2]; trivial
  · rw [h1, h2]

/-- An event that may change an array the program knows: the program writes to it or gives it to `Read`, or it holds the last line
and the next one is read. -/
def Event.MayChange (last : Option Nat) (a : Nat) : Event → Prop
  | .call _ c _ => c.dest = some a ∨ (c = .readLine ∧ last = some a)
  | .make => False
  | .write b => b = a

theorem does_kept {st st' : State Z} (ok : Ok st) {e : Event} (hd : Does I W st e st') {a : Nat} (ha : a ∈ st.known)
    (hn : ¬ e.MayChange st.last a) : st'.h.mem a = st.h.mem a := by
  cases hd with
  | call fuel c hd hc =>
    simp only [Event.MayChange, not_or, not_and] at hn
    rcases (call_sim I W fuel ok c hd).cases with ⟨h1, h2⟩ | ⟨h1, h2⟩ | ⟨x, y, h1, h2, rfl, h3, h4, h5, h6⟩
    · rw [h1] at hc; cases hc
    · rw [h1] at hc; cases hc
    · rw [h1] at hc
      cases hc
      have := h4 a ha hn.1 hn.2
      simp only [State.after]
      split <;> exact this
  | make v => exact (grow_alloc (h := st.h) (v := v)).1.2 a (ok.lt a ha) (by simp)
  | write b v hd =>
    simp only [Event.MayChange] at hn
    simp only [Heap.set]
    rw [if_neg (by rintro rfl; exact hn rfl)]

/-- **C79.** The reader does not write to an array the program knows, except for the one given to `Read`, and for the array of the
last line when the next line is read. -/
theorem array_kept (s : Src) (delim : Byte) (h : Heap) (known : List Nat) (hk : ∀ a ∈ known, a < h.next)
    {es : List Event} {st st' : State Z} (hr : Runs I W (start s delim h known) es st) {e : Event} (hd : Does I W st e st')
    {a : Nat} (ha : a ∈ st.known) (hn : ¬ e.MayChange st.last a) : st'.h.mem a = st.h.mem a := by
  exact does_kept I W (run_ok I W hr (start_ok s delim h known hk)).1 hd ha hn

theorem Does.known {st st' : State Z} {e : Event} (hd : Does I W st e st') {a : Nat} (ha : a ∈ st.known) : a ∈ st'.known := by
  cases hd with
  | call fuel c hd hc =>
    simp only [State.after]
    split
    · exact List.mem_cons_of_mem _ ha
    · exact ha
  | make v => exact List.mem_cons_of_mem _ ha
  | write b v hd => exact ha

theorem Runs.append {a b c : State Z} {es fs : List Event} (h : Runs I W a es b) (g : Runs I W b fs c) : Runs I W a (es ++ fs) c := by
  induction g with
  | nil => simpa using h
  | snoc _ hd ih => rw [← List.append_assoc]; exact .snoc ih hd

/-- An array the program knows that is not the array of a line. -/
structure Own (st : State Z) (a : Nat) : Prop where
  known : a ∈ st.known
  last : st.last ≠ some a
  line : st.r.orig.isSome = true → st.r.line.arr ≠ a

theorem Own.does {st st' : State Z} (ok : Ok st) {a : Nat} (h : Own st a) {e : Event} (hd : Does I W st e st') : Own st' a := by
  have hk := hd.known I W h.known
  cases hd with
  | make v => exact ⟨hk, h.last, h.line⟩
  | write b v hd => exact ⟨hk, h.last, h.line⟩
  | @call fuel c ret r g hd hc =>
    have hlt := ok.lt a h.known
    rcases (call_sim I W fuel ok c hd).cases with ⟨h1, h2⟩ | ⟨h1, h2⟩ | ⟨x, y, h1, h2, rfl, h3, h4, h5, h6⟩
    · rw [h1] at hc; cases hc
    · rw [h1] at hc; cases hc
    · rw [h1] at hc
      cases hc
      simp only at h5 h6
      have hl : r.orig.isSome = true → r.line.arr ≠ a := by
        intro ho
        obtain ⟨h7, h8 | h8⟩ := h6 ho
        · rw [h8]; exact h.line h7
        · omega
      cases ret with
      | plain x => exact ⟨hk, h.last, hl⟩
      | line s e => cases s with
        | none => exact ⟨hk, h.last, hl⟩
        | some s =>
          obtain ⟨rfl, ho, -⟩ := h5 s e rfl
          refine ⟨hk, ?_, hl⟩
          simp only [State.after, ne_eq, Option.some.injEq]
          exact hl ho

/-- An event in which the program itself changes an array. -/
def Event.Writes (a : Nat) : Event → Prop
  | .call _ c _ => c.dest = some a
  | .make => False
  | .write b => b = a

theorem own_kept {st st' : State Z} (ok : Ok st) {a : Nat} (h : Own st a) {es : List Event} (hr : Runs I W st es st')
    (hn : ∀ e ∈ es, ¬ e.Writes a) : Own st' a ∧ st'.h.mem a = st.h.mem a := by
  induction hr with
  | nil => exact ⟨h, rfl⟩
  | @snoc sb sc fs f hrun hd ih =>
    obtain ⟨ho, hm⟩ := ih fun e he => hn e (by simp [he])
    have ok1 := (run_ok I W hrun ok).1
    refine ⟨ho.does I W ok1 hd, ?_⟩
    rw [← hm]
    refine does_kept I W ok1 hd ho.known ?_
    have := hn f (by simp)
    cases f with
    | call fuel c x => simp only [Event.Writes, Event.MayChange, not_or, not_and] at this ⊢; exact ⟨this, fun _ => ho.last⟩
    | make => simp [Event.MayChange]
    | write b => simpa [Event.MayChange, Event.Writes] using this

/-- **C79.** Arrays the program had before are never written by the reader, unless they are given to `Read`. -/
theorem earlier_array_kept (s : Src) (delim : Byte) (h : Heap) (known : List Nat) (hk : ∀ a ∈ known, a < h.next)
    {es : List Event} {st : State Z} (hr : Runs I W (start s delim h known) es st) {a : Nat} (ha : a ∈ known)
    (hn : ∀ e ∈ es, ¬ e.Writes a) : st.h.mem a = h.mem a := by
  have hlt := hk a ha
  refine ((own_kept I W (start_ok (Z := Z) s delim h known hk) ⟨ha, by simp [start], fun _ => ?_⟩ hr hn).2).trans ?_
  · simp [start, Mem.newReader, Heap.alloc]
    omega
  · have g1 := grow_alloc (h := h) (v := List.replicate readBuf 0)
    have g2 := grow_alloc (h := (h.alloc (List.replicate readBuf 0)).2) (v := List.replicate readBuf 0)
    exact (g2.1.2 a (by omega) (by simp)).trans (g1.1.2 a hlt (by simp))

theorem own_made {st : State Z} (ok : Ok st) (v : Bytes) :
    Own { st with h := (st.h.alloc v).2, known := (st.h.alloc v).1 :: st.known } (st.h.alloc v).1 := by
  refine ⟨by simp, ?_, ?_⟩
  · intro hl
    have := ok.lastLt _ hl
    simp only [Heap.alloc] at this
    omega
  · intro ho
    have := (ok.inv.line ho).1
    simp only [Heap.alloc]
    omega

/-- **C79.** Arrays the program makes are never written by the reader, unless they are given to `Read`. -/
theorem made_array_kept (s : Src) (delim : Byte) (h : Heap) (known : List Nat) (hk : ∀ a ∈ known, a < h.next)
    {es : List Event} {st st' : State Z} (hr : Runs I W (start s delim h known) es st) (v : Bytes) {fs : List Event}
    (hf : Runs I W { st with h := (st.h.alloc v).2, known := (st.h.alloc v).1 :: st.known } fs st')
    (hn : ∀ e ∈ fs, ¬ e.Writes (st.h.alloc v).1) : st'.h.mem (st.h.alloc v).1 = v := by
  have ok := (run_ok I W hr (start_ok (Z := Z) s delim h known hk)).1
  refine ((own_kept I W (alloc_ok ok v).1 (own_made ok v) hf hn).2).trans ?_
  simp [Heap.alloc]

/-- **C79.** A line that was returned stays as it was returned, until the program writes to its array, gives it to `Read`, or reads
the next line. -/
theorem line_kept (s : Src) (delim : Byte) (h : Heap) (known : List Nat) (hk : ∀ a ∈ known, a < h.next)
    {es : List Event} {st st1 st' : State Z} (hr : Runs I W (start s delim h known) es st) {fuel : Nat} {l : Slice} {e : Option Err}
    {r : MReader Z} {g : Heap} (hc : mcall I W fuel st.r st.h .readLine = .val (.line (some l) e, r, g))
    (h1 : st1 = st.after (.line (some l) e) r g) {fs : List Event} (hf : Runs I W st1 fs st')
    (hn : ∀ f ∈ fs, ¬ f.MayChange (some l.arr) l.arr) : l.bytes st'.h = l.bytes g := by
  have hr1 : Runs I W (start s delim h known) (es ++ [.call fuel .readLine (MRet.seen g (.line (some l) e))]) st1 := by
    rw [h1]
    exact .snoc hr (.call fuel .readLine (by intro a h; cases h) hc)
  have hg : g = st1.h := by rw [h1]; rfl
  have hla : l.arr ∈ st1.known := by rw [h1]; simp [State.after]
  have hlast : st1.last = some l.arr := by rw [h1]; rfl
  suffices l.arr ∈ st'.known ∧ st'.h.mem l.arr = st1.h.mem l.arr by simp [Slice.bytes, this.2, hg]
  clear hc h1 hg
  induction hf with
  | nil => exact ⟨hla, rfl⟩
  | @snoc sb sc fs f hrun hd ih =>
    have ih := ih (fun f hf => hn f (by simp [hf]))
    refine ⟨hd.known I W ih.1, ?_⟩
    refine (array_kept I W s delim h known hk (hr1.append I W hrun) hd ih.1 ?_).trans ih.2
    have := hn f (by simp)
    cases f with
    | call fuel c x =>
      simp only [Event.MayChange, not_or, not_and] at this ⊢
      exact ⟨this.1, fun e => absurd trivial (this.2 e)⟩
    | make => simp [Event.MayChange]
    | write b => simpa [Event.MayChange] using this

/-- A memory in which the program knows one array. -/
def mem0 : Heap := ⟨fun _ => [0, 0, 0, 0], 1⟩

/-- The transport leaves junk behind the data, and `append` makes arrays of twice the length needed. -/
def world0 : World := ⟨fun h => [0xEE, UInt8.ofNat h.next], fun n => 2 * n⟩

/-- What the program of the examples reads. -/
def src0 : Src := [⟨b!"ab|cde|xz", none⟩, ⟨b!"f|", none⟩]

/-- A step of a program. -/
inductive Op where
  | call (fuel : Nat) (c : MCall)
  | make (v : Bytes)
  | write (a : Nat) (v : Bytes)

/-- A program is run as long as it only uses arrays it knows. -/
def exec : List Op → State Z → Option (List Event × State Z)
  | [], st => some ([], st)
  | .call fuel c :: ops, st =>
    if c.dest.all (· ∈ st.known) then
      match mcall I W fuel st.r st.h c with
      | .val (ret, r, h) => (exec ops (st.after ret r h)).map fun x => (.call fuel c (ret.seen h) :: x.1, x.2)
      | _ => none
    else none
  | .make v :: ops, st =>
    (exec ops { st with h := (st.h.alloc v).2, known := (st.h.alloc v).1 :: st.known }).map fun x => (.make :: x.1, x.2)
  | .write a v :: ops, st =>
    if a ∈ st.known then (exec ops { st with h := st.h.set a v }).map fun x => (.write a :: x.1, x.2) else none

theorem exec_runs : ∀ (ops : List Op) {st st' : State Z} {es : List Event}, exec I W ops st = some (es, st') → Runs I W st es st' := by
  have one : ∀ {a b : State Z} {e : Event}, Does I W a e b → Runs I W a [e] b := fun h => .snoc (es := []) .nil h
  intro ops
  induction ops with
  | nil => intro st st' es h; simp only [exec, Option.some.injEq, Prod.mk.injEq] at h; obtain ⟨rfl, rfl⟩ := h; exact .nil
  | cons op ops ih =>
    intro st st' es h
    cases op with
    | call fuel c =>
      simp only [exec] at h
      split at h
      · rename_i hd
        split at h
        · rename_i hc
          simp only [Option.map_eq_some_iff, Prod.mk.injEq] at h
          obtain ⟨⟨es', st''⟩, h1, rfl, rfl⟩ := h
          refine (one (.call fuel c ?_ hc)).append I W (ih h1)
          intro a ha
          rw [ha] at hd
          simpa using hd
        · cases h
      · cases h
    | make v =>
      simp only [exec, Option.map_eq_some_iff, Prod.mk.injEq] at h
      obtain ⟨⟨es', st''⟩, h1, rfl, rfl⟩ := h
      exact (one (.make v)).append I W (ih h1)
    | write a v =>
      simp only [exec] at h
      split at h
      · rename_i hd
        simp only [Option.map_eq_some_iff, Prod.mk.injEq] at h
        obtain ⟨⟨es', st''⟩, h1, rfl, rfl⟩ := h
        exact (one (.write a v hd)).append I W (ih h1)
      · cases h

/-- A program that gets a line, overwrites it, reads into it and goes on, also through a compressed section. -/
def prog0 : List Op :=
  [.call 20 .readLine, .write 2 b!"zz", .make b!"hello", .call 20 (.read 2 1 2), .call 20 .readLine, .write 2 b!"zzzz",
   .call 20 (.enableZlib []), .call 20 .readLine]

/-- There are such runs, and the reader is not disturbed. -/
example : ∃ (es : List Event) (st : State Bool), Runs LineReader.toy world0 (start src0 124 mem0 [0]) es st ∧
    results es = [.bytes b!"ab|" none, .bytes b!"cd" none, .bytes b!"e|" none, .err none, .bytes b!"ff|" none] := by
  have : ((exec LineReader.toy world0 prog0 (start src0 124 mem0 [0])).map fun x => results x.1) =
      some [.bytes b!"ab|" none, .bytes b!"cd" none, .bytes b!"e|" none, .err none, .bytes b!"ff|" none] := rfl
  simp only [Option.map_eq_some_iff] at this
  obtain ⟨⟨es, st⟩, h1, h2⟩ := this
  exact ⟨es, st, exec_runs _ _ _ h1, h2⟩

/-- The three bytes of the first line, which is in the array 2. -/
def firstLine (ops : List Op) : Option Bytes :=
  (exec LineReader.toy world0 ops (start src0 124 mem0 [0])).map fun x => (x.2.h.mem 2).take 3

/-- Reading, decompressing and closing leave the line alone. -/
example : firstLine [.call 20 .readLine, .call 20 (.read 0 1 4), .call 20 (.binaryClose 0), .call 20 (.enableZlib []),
    .call 20 (.binaryRead 0 0 1 1), .call 20 .close] = some b!"ab|" := rfl

/-- **C79.** The data is where the caller asked for it: `Read`, also of a binary section, puts the bytes it returns at the
start of its argument and leaves the bytes before it alone. -/
theorem read_delivers (s : Src) (delim : Byte) (h : Heap) (known : List Nat) (hk : ∀ a ∈ known, a < h.next)
    {es : List Event} {st : State Z} (hr : Runs I W (start s delim h known) es st) (fuel a off n left : Nat) (c : MCall)
    (hc : c = .read a off n ∨ c = .binaryRead a off n left) (ha : a ∈ st.known) (hoff : off ≤ (st.h.mem a).length)
    {d : Bytes} {e : Option Err} {r' : MReader Z} {h' : Heap}
    (hm : mcall I W fuel st.r st.h c = .val (.plain (.bytes d e), r', h')) :
    (h'.mem a).take off = (st.h.mem a).take off ∧ ((h'.mem a).drop off).take d.length = d := by
  have ok := (run_ok I W hr (start_ok s delim h known hk)).1
  have fin : ∀ {r1 : MReader Z} {h1 : Heap}, Quiet st.r st.h r1 h1 →
      ((h1.copyTo a off (d ++ W.junk h1)).mem a).take off = (st.h.mem a).take off ∧
      (((h1.copyTo a off (d ++ W.junk h1)).mem a).drop off).take d.length = d := by
    intro r1 h1 q
    have hq := (quiet_ok ok q).2 a ha
    have hl : ((h1.mem a).take off).length = off := by rw [hq, List.length_take]; omega
    simp only [Heap.copyTo, Heap.set, if_pos]
    rw [List.append_assoc]
    constructor
    · rw [List.take_left' hl, hq]
    · rw [List.drop_left' hl, List.append_assoc, List.take_left' rfl]
  rcases hc with rfl | rfl
  · simp only [mcall] at hm
    rcases (readBytes_quiet I W fuel n ok.inv).cases with ⟨h1, -⟩ | ⟨h1, -⟩ | ⟨⟨⟨d1, e1⟩, r1, h1'⟩, y, h1, -, -, h3⟩
    · rw [h1] at hm; cases hm
    · rw [h1] at hm; cases hm
    · rw [h1] at hm; cases hm; exact fin h3
  · simp only [mcall] at hm
    rcases (binRead_sim I W fuel n left ok.inv).cases with ⟨h1, -⟩ | ⟨h1, -⟩ | ⟨⟨⟨d1, e1⟩, l, r1, h1'⟩, y, h1, -, -, h3⟩
    · rw [h1] at hm; cases hm
    · rw [h1] at hm; cases hm
    · rw [h1] at hm; cases hm; exact fin h3

/-- Two bytes are read into the second byte of the first line. -/
example : firstLine [.call 20 .readLine, .call 20 (.read 2 1 2)] = some b!"acd" := rfl

/-- **The line is lost** when the next one is read: `ReadLine` returns the same array again. -/
theorem next_line_overwrites : firstLine [.call 20 .readLine] = some b!"ab|" ∧
    firstLine [.call 20 .readLine, .call 20 .readLine] = some b!"cde" := ⟨rfl, rfl⟩

end Verif.Props.LineMemory
