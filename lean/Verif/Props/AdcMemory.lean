import Verif.Adc.Memory
import Verif.Props.NmdcMemory

/-!
# C81: the messages of the ADC reader keep their contents

Model: `Verif/Adc/Memory.lean`.
-/

namespace Verif.Props.AdcMemory

open Verif Verif.Go Verif.Lineproto Verif.Lineproto.Mem Verif.Nmdc.Mem Verif.Adc Verif.Adc.Mem Verif.Props.LineMemory
open Verif.Props.NmdcMemory (IsLine after_line)

variable {Z : Type} (I : Inflater Z) (W : World)

/-! ### The raw data of a packet ends where the line ends -/

theorem payloadAfter_suffix (d : Bytes) (n : Nat) : payloadAfter d n <:+ d := by
  unfold payloadAfter
  split
  · exact List.drop_suffix _ _
  · exact List.nil_suffix

theorem selLoop_suffix : ∀ (room : Nat) (sel : List FeatureSel) (data : Bytes) (i : Nat) (r : List FeatureSel × Bytes),
    selLoop room sel data i = .ok r → r.2 <:+ data := by
  intro room sel data i
  fun_induction selLoop room sel data i with
  | case1 => intro r h; cases h; exact List.suffix_refl _
  | case2 => intro r h; cases h
  | case3 => intro r h; cases h
  | case4 => intro r h; cases h; exact List.nil_suffix
  | case5 _ _ _ _ _ _ _ _ _ _ ih => intro r h; exact ih r h
  | case6 => intro r h; cases h; exact List.nil_suffix
  | case7 _ _ _ _ _ _ _ ih => intro r h; exact (ih r h).trans (List.drop_suffix _ _)
  | case8 => intro r h; cases h; exact List.drop_suffix _ _

theorem dropLast_drop_suffix (l : Bytes) (n : Nat) : (l.drop n).dropLast <:+ l.dropLast := by
  rw [List.dropLast_eq_take, List.dropLast_eq_take, List.length_drop, List.take_drop]
  by_cases hn : n ≤ l.length - 1
  · rw [show n + (l.length - n - 1) = l.length - 1 by omega]
    exact List.drop_suffix _ _
  · rw [List.drop_eq_nil_of_le (by rw [List.length_take]; omega)]
    exact List.nil_suffix

theorem unmarshalKind_suffix {room : Nat} {kind : Byte} {name : MsgType} {data : Bytes} {p : Packet}
    (h : unmarshalKind room kind name data = some (.ok p)) : ∃ d, p.message = .raw name d ∧ d <:+ data.dropLast := by
  unfold unmarshalKind at h
  have pair : ∀ {mk : SID → SID → Adc.Msg → Packet}, (∀ a b m, (mk a b m).message = m) → unmarshalPair name data mk = .ok p →
      ∃ d, p.message = .raw name d ∧ d <:+ data.dropLast := by
    intro mk hm h
    unfold unmarshalPair at h
    repeat' split at h
    all_goals try cases h
    simp only [Res.bind_eq_ok] at h
    obtain ⟨a, _, b, _, h⟩ := h
    cases h
    exact ⟨_, hm _ _ _, payloadAfter_suffix _ _⟩
  repeat' split at h
  all_goals first | cases h; done | rw [Option.some.injEq] at h
  · unfold unmarshalInfo at h
    repeat' split at h
    all_goals cases h
    exact ⟨_, rfl, List.suffix_refl _⟩
  · unfold unmarshalHub at h
    repeat' split at h
    all_goals cases h
    exact ⟨_, rfl, List.suffix_refl _⟩
  · exact pair (fun _ _ _ => rfl) h
  · exact pair (fun _ _ _ => rfl) h
  · unfold unmarshalBroadcast at h
    repeat' split at h
    all_goals try cases h
    simp only [Res.bind_eq_ok] at h
    obtain ⟨a, _, h⟩ := h
    cases h
    exact ⟨_, rfl, payloadAfter_suffix _ _⟩
  · unfold unmarshalFeature at h
    repeat' split at h
    all_goals try cases h
    simp only [Res.bind_eq_ok] at h
    obtain ⟨a, _, b, hb, h⟩ := h
    cases h
    exact ⟨_, rfl, (selLoop_suffix _ _ _ _ _ hb).trans (payloadAfter_suffix _ _)⟩
  · unfold unmarshalClient at h
    repeat' split at h
    all_goals cases h
    exact ⟨_, rfl, List.suffix_refl _⟩
  · unfold unmarshalUdp at h
    repeat' split at h
    all_goals cases h
    exact ⟨_, rfl, payloadAfter_suffix _ _⟩

theorem raw_suffix {room : Nat} {l : Bytes} {p : Packet} (h : decodePacketRaw room l = .ok p) :
    ∃ typ d, p.message = .raw typ d ∧ d <:+ l.dropLast := by
  unfold decodePacketRaw at h
  split at h
  · cases h
  · split at h
    · cases h
    · simp only at h
      generalize hd : (if l[4]? = some c!" " then l.drop 5 else l.drop 4) = d at h
      split at h
      · cases h
      · rename_i hk
        split at h
        · cases h
        · split at h
          · cases h
          · subst h
            obtain ⟨d', h1, h2⟩ := unmarshalKind_suffix hk
            refine ⟨_, d', h1, h2.trans ?_⟩
            rw [← hd]
            split <;> exact dropLast_drop_suffix _ _

/-! ### The calls, in terms of the model of values -/

/-- The reader of the model of values. -/
def abs (h : Heap) (r : MAReader Z) : AReader Z := ⟨r.lines.abs h, r.onKeepAlive⟩

/-- A line as it is seen in the memory `h`. -/
def seenLine (h : Heap) : Except Err Slice → Except Err Bytes
  | .ok s => .ok (s.bytes h)
  | .error e => .error e

/-- What reading a line does: it calls `ReadLine`. -/
structure Ran (st : State Z) (x : Except Err Slice) (r : MReader Z) (h : Heap) (known : List Nat) (last : Option Nat) (es : List Event) : Prop where
  runs : Runs I W st es ⟨r, h, known, last⟩
  lines : ∀ e ∈ es, IsLine e
  line : ∀ s, x = .ok s → last = some s.arr

theorem line_sim : ∀ (fuel k : Nat) (r : MAReader Z) (seen known : List Nat) (last : Option Nat) (h : Heap),
    Ok (⟨r.lines, h, seen ++ known, seen.head?.or last⟩ : State Z) →
    Sim (fun x y => y = (seenLine x.2.2.1 x.1, abs x.2.2.1 x.2.1) ∧
        ∃ es, Ran I W ⟨r.lines, h, seen ++ known, seen.head?.or last⟩ x.1 x.2.1.lines x.2.2.1 (x.2.2.2 ++ known) (x.2.2.2.head?.or last) es)
      (r.readPacketLine I W fuel k h seen) ((abs h r).readPacketLine I fuel k) := by
  intro fuel
  induction fuel with
  | zero => intro k r seen known last h _; trivial
  | succ fuel ih =>
    intro k r seen known last h ok
    rw [MAReader.readPacketLine, AReader.readPacketLine]
    have hc := call_sim I W fuel ok .readLine (by intro a h; cases h)
    simp only [mcall, MCall.plain, LineReaderTotal.call] at hc
    have e0 : (abs h r).lines = r.lines.abs h := rfl
    rw [e0]
    cases hx : r.lines.readLine I W fuel h with
    | panic =>
      rw [hx] at hc
      cases hy : (r.lines.abs h).readLine I fuel with
      | panic => trivial
      | timeout => rw [hy] at hc; exact hc.elim
      | val y => rw [hy] at hc; exact hc.elim
    | timeout =>
      rw [hx] at hc
      cases hy : (r.lines.abs h).readLine I fuel with
      | panic => rw [hy] at hc; exact hc.elim
      | timeout => trivial
      | val y => rw [hy] at hc; exact hc.elim
    | val x =>
      obtain ⟨⟨l, e⟩, lr, h'⟩ := x
      rw [hx] at hc
      cases hy : (r.lines.abs h).readLine I fuel with
      | panic => rw [hy] at hc; exact hc.elim
      | timeout => rw [hy] at hc; exact hc.elim
      | val y =>
        obtain ⟨⟨d, e'⟩, vr⟩ := y
        rw [hy] at hc
        obtain ⟨h1, h2, -, -⟩ := hc
        simp only [MRet.seen, Prod.mk.injEq, LineReaderTotal.Ret.bytes.injEq] at h1
        obtain ⟨⟨rfl, rfl⟩, rfl⟩ := h1
        simp only at h2
        have hmc : mcall I W fuel r.lines h .readLine = .val (.line l e', lr, h') := by simp [mcall, hx]
        have does : Does I W ⟨r.lines, h, seen ++ known, seen.head?.or last⟩ (.call fuel .readLine (MRet.seen h' (.line l e'))) _ :=
          .call fuel .readLine (by intro a h; cases h) hmc
        have he : State.after ⟨r.lines, h, seen ++ known, seen.head?.or last⟩ (.line l e') lr h' =
            ⟨lr, h', (arrs l ++ seen) ++ known, (arrs l ++ seen).head?.or last⟩ := by
          rw [after_line]; cases l <;> simp [arrs]
        rw [he] at does h2
        have one : Runs I W ⟨r.lines, h, seen ++ known, seen.head?.or last⟩ [.call fuel .readLine (MRet.seen h' (.line l e'))] _ := .snoc (es := []) .nil does
        have hl : ∀ e ∈ [Event.call fuel .readLine (MRet.seen h' (.line l e'))], IsLine e := by simp [IsLine]
        cases e' with
        | some e => exact ⟨rfl, _, one, hl, fun s hs => by cases hs⟩
        | none =>
          cases l with
          | none => exact ⟨rfl, _, one, hl, fun s hs => by cases hs⟩
          | some s =>
            rw [show deref h' (some s) = s.bytes h' from rfl]
            simp only
            by_cases h3 : (s.bytes h').getLast? ≠ some lineDelim
            · rw [if_pos h3, if_pos h3]
              exact ⟨rfl, _, one, hl, fun s hs => by cases hs⟩
            · rw [if_neg h3, if_neg h3]
              by_cases h4 : (s.bytes h').length > 1
              · rw [if_pos h4, if_pos h4]
                exact ⟨rfl, _, one, hl, fun s hs => by cases hs; rfl⟩
              · rw [if_neg h4, if_neg h4]
                have e1 : (abs h r).onKeepAlive = r.onKeepAlive := rfl
                rw [e1]
                cases r.onKeepAlive k with
                | some e => exact ⟨rfl, _, one, hl, fun s hs => by cases hs⟩
                | none =>
                  simp only
                  have := ih (k + 1) { r with lines := lr } (s.arr :: seen) known last h' h2
                  refine this.mono ?_
                  rintro x y ⟨k1, es, k4⟩
                  refine ⟨k1, _, one.append I W k4.runs, ?_, k4.line⟩
                  intro e he
                  rcases List.mem_append.mp he with he | he
                  · exact hl e he
                  · exact k4.lines e he

theorem outWith_same (out : Out) {d : Bytes} (h : dataOf (outMsg out) = some d) : outWith (withData d (outMsg out)) out = out := by
  have h1 : withData d (outMsg out) = outMsg out := by
    cases hm : outMsg out <;> simp_all [dataOf, withData]
  rw [h1]
  cases out with
  | packet p => cases p <;> rfl
  | message m => rfl

/-- The end of a line is what its window shows. -/
theorem win_suffix {h : Heap} {s : Slice} {d : Bytes} (hd : d <:+ (s.bytes h).dropLast) :
    (Win.mk s.arr ((s.bytes h).length - 1 - d.length) d.length).bytes h = d := by
  refine NmdcMemory.win_bytes ?_
  obtain ⟨t, ht⟩ := hd
  have : t.length = (s.bytes h).length - 1 - d.length := by
    have := congrArg List.length ht
    simp only [List.length_append, List.length_dropLast] at this
    omega
  rw [← ht, ← this, List.drop_left]

variable [ParseFloat]

/-- Where the bytes of a result are. -/
inductive Placed (c : Call) (s : Slice) (h : Heap) (out : Out) : MOut → Heap → Prop
  | none : Placed c s h out ⟨out, none⟩ h
  | line (w : Win) : c = .raw → w.arr = s.arr → (MOut.mk out (some w)).seen h = out → Placed c s h out ⟨out, some w⟩ h
  | copy (d : Bytes) : c ≠ .raw → dataOf (outMsg out) = some d → Placed c s h out ⟨out, some ⟨(h.alloc d).1, 0, d.length⟩⟩ (h.alloc d).2

theorem place_placed {c : Call} {room : Nat} {s : Slice} {h : Heap} {out : Out} (hd : c.decode room (s.bytes h) = .ok out) :
    Placed c s h out (place c s h out).1 (place c s h out).2 := by
  unfold place
  cases hda : dataOf (outMsg out) with
  | none => exact .none
  | some d =>
    cases c with
    | raw =>
      refine .line _ rfl rfl ?_
      simp only [Call.decode, Res.bind_eq_ok] at hd
      obtain ⟨p, h1, h2⟩ := hd
      cases h2
      obtain ⟨typ, d', h3, h4⟩ := raw_suffix h1
      have : d = d' := by
        simp only [outMsg, h3, dataOf, Option.some.injEq] at hda
        exact hda.symm
      subst this
      simp only [MOut.seen, win_suffix h4]
      exact outWith_same _ hda
    | packet => exact .copy d (by simp) hda
    | info => exact .copy d (by simp) hda
    | client => exact .copy d (by simp) hda

omit [ParseFloat] in
theorem Placed.seen {c : Call} {s : Slice} {h h' : Heap} {out : Out} {o : MOut} (H : Placed c s h out o h') : o.seen h' = out := by
  cases H with
  | none => rfl
  | line w _ _ hs => exact hs
  | copy d _ hd =>
    simp only [MOut.seen, Win.bytes]
    rw [show ((h.alloc d).2.mem (h.alloc d).1).drop 0 |>.take d.length |> (· = d) by simp [Heap.alloc]]
    exact outWith_same _ hd

omit [ParseFloat] in
theorem Placed.abs {c : Call} {s : Slice} {h h' : Heap} {out : Out} {o : MOut} (H : Placed c s h out o h') {r : MAReader Z}
    {known : List Nat} {last : Option Nat} (ok : Ok (⟨r.lines, h, known, last⟩ : State Z)) : abs h' r = AdcMemory.abs h r := by
  cases H with
  | none => rfl
  | line => rfl
  | copy d => simp only [AdcMemory.abs]; rw [(alloc_ok ok _).2]

/-- A result as it is seen in the memory `h`. -/
def seenRes (h : Heap) : Except Err MOut → Except Err Out
  | .ok o => .ok (o.seen h)
  | .error e => .error e

/-- The array that a call made. -/
def newArr (c : Call) : Except Err MOut → List Nat
  | .ok ⟨_, some w⟩ => if c matches .raw then [] else [w.arr]
  | _ => []

/-- The reader, the memory, the arrays the program knows, and the array of the last line it got. -/
structure AState (Z : Type) where
  r : MAReader Z
  h : Heap
  known : List Nat
  last : Option Nat

/-- The part of the line reader. -/
def AState.line (st : AState Z) : State Z := ⟨st.r.lines, st.h, st.known, st.last⟩

/-- What a read does, in terms of the line reader and of the model of values. -/
structure ReadRel (c : Call) (st : AState Z) (x : Except Err MOut × MAReader Z × Heap × List Nat) (y : Except Err Out × AReader Z) :
    Prop where
  same : y = (seenRes x.2.2.1 x.1, abs x.2.2.1 x.2.1)
  mem : ∃ es h, Runs I W st.line es ⟨x.2.1.lines, h, x.2.2.2 ++ st.known, x.2.2.2.head?.or st.last⟩ ∧ (∀ e ∈ es, IsLine e) ∧
    (∀ e, x.1 = .error e → x.2.2.1 = h) ∧
    (∀ o, x.1 = .ok o → ∃ s out, Placed c s h out o x.2.2.1 ∧ x.2.2.2.head?.or st.last = some s.arr)

theorem read_sim (c : Call) (room fuel : Nat) (st : AState Z) (ok : Ok st.line) :
    Sim (ReadRel I W c st) (st.r.read I W c room fuel st.h) ((abs st.h st.r).read I c room fuel) := by
  have key := line_sim I W fuel 0 st.r [] st.known st.last st.h ok
  unfold MAReader.read AReader.read
  rcases key.cases with ⟨h1, h2⟩ | ⟨h1, h2⟩ | ⟨x, y, h1, h2, rfl, es, hr⟩
  · rw [h1, h2]; trivial
  · rw [h1, h2]; trivial
  · rw [h1, h2]
    obtain ⟨x, r', h', seen⟩ := x
    cases x with
    | error e => exact ⟨rfl, es, h', hr.runs, hr.lines, (fun _ _ => rfl), (fun o ho => by cases ho)⟩
    | ok s =>
      simp only [seenLine]
      cases hd : c.decode room (s.bytes h') with
      | panic => trivial
      | err e => exact ⟨rfl, es, h', hr.runs, hr.lines, (fun _ _ => rfl), (fun o ho => by cases ho)⟩
      | ok out =>
        have hp := place_placed hd
        refine ⟨?_, es, h', hr.runs, hr.lines, (fun _ he => by cases he), (fun o ho => by cases ho; exact ⟨s, out, hp, hr.line s rfl⟩)⟩
        simp only [seenRes, hp.seen, hp.abs (run_ok I W hr.runs ok).1]

omit [ParseFloat] in
theorem ReadRel.ok {c : Call} {st : AState Z} (ok : Ok st.line) {x : Except Err MOut × MAReader Z × Heap × List Nat}
    {y : Except Err Out × AReader Z} (h : ReadRel I W c st x y) :
    ∃ es, Runs I W st.line es ⟨x.2.1.lines, x.2.2.1, newArr c x.1 ++ (x.2.2.2 ++ st.known), x.2.2.2.head?.or st.last⟩ ∧
      (∀ e ∈ es, ∀ a, ¬ e.Writes a) ∧
      (∀ o w, x.1 = .ok o → o.data = some w →
        (c = .raw → w.arr ∈ x.2.2.2 ++ st.known) ∧
        (c ≠ .raw → Own (⟨x.2.1.lines, x.2.2.1, newArr c x.1 ++ (x.2.2.2 ++ st.known), x.2.2.2.head?.or st.last⟩ : State Z) w.arr)) := by
  obtain ⟨_, es, h, h1, h2, h3, h4⟩ := h
  have hw : ∀ e ∈ es, ∀ a, ¬ e.Writes a := by
    intro e he a hw
    have := h2 e he
    cases e with
    | call fuel c s => cases c <;> simp_all [IsLine, Event.Writes, MCall.dest]
    | make => exact hw
    | write b => exact this
  obtain ⟨x, r', h', seen⟩ := x
  cases x with
  | error e =>
    cases h3 e rfl
    exact ⟨es, h1, hw, fun o w hx => by cases hx⟩
  | ok o =>
    obtain ⟨s, out, H, hl⟩ := h4 o rfl
    have ok1 := (run_ok I W h1 ok).1
    simp only at H h1 hl ⊢
    cases H with
    | none => exact ⟨es, h1, hw, fun o w hx hd => by cases hx; cases hd⟩
    | line w hc hs _ =>
      subst hc
      refine ⟨es, h1, hw, fun o w hx hd => ?_⟩
      cases hx
      cases hd
      refine ⟨fun _ => ?_, fun h => absurd rfl h⟩
      rw [hs]
      exact ok1.lastIn _ hl
    | copy d hc hd =>
      have hn : newArr c (.ok ⟨out, some ⟨(h.alloc d).1, 0, d.length⟩⟩) = [(h.alloc d).1] := by
        cases c <;> simp_all [newArr]
      rw [hn]
      refine ⟨es ++ [.make], .snoc h1 (.make d), ?_, ?_⟩
      · intro e he
        rcases List.mem_append.mp he with he | he
        · exact hw e he
        · simp at he; subst he; simp [Event.Writes]
      · intro o w hx hd
        cases hx
        cases hd
        exact ⟨fun h => absurd h hc, fun _ => own_made ok1 d⟩

/-! ### Programs -/

/-- What happens: a call of the line reader or something the program does with arrays of its own (see C79), a packet or message that
is read, with the result as the program sees it, or a change of the callback.  `room` is the capacity of the line beyond its length. -/
inductive AEvent where
  | line (e : Event)
  | read (c : Call) (room fuel : Nat) (seen : Except Err Out)
  | config (onKeepAlive : Nat → Option Err)

/-- One step of the program. -/
inductive ADoes : AState Z → AEvent → AState Z → Prop
  | line {st : AState Z} {e : Event} {s : State Z} (h : Does I W st.line e s) :
      ADoes st (.line e) ⟨{ st.r with lines := s.r }, s.h, s.known, s.last⟩
  | read {st : AState Z} (c : Call) (room fuel : Nat) {x : Except Err MOut} {r : MAReader Z} {h : Heap} {seen : List Nat}
      (hc : st.r.read I W c room fuel st.h = .val (x, r, h, seen)) :
      ADoes st (.read c room fuel (seenRes h x)) ⟨r, h, newArr c x ++ (seen ++ st.known), seen.head?.or st.last⟩
  | config {st : AState Z} (onKeepAlive : Nat → Option Err) : ADoes st (.config onKeepAlive) { st with r := { st.r with onKeepAlive } }

/-- The steps of the program. -/
inductive ARuns : AState Z → List AEvent → AState Z → Prop
  | nil {st : AState Z} : ARuns st [] st
  | snoc {st st' st'' : AState Z} {es : List AEvent} {e : AEvent} : ARuns st es st' → ADoes I W st' e st'' → ARuns st (es ++ [e]) st''

/-- A new reader, in a memory where the program knows some arrays. -/
def astart (s : Src) (h : Heap) (known : List Nat) : AState Z :=
  ⟨{ lines := (Mem.newReader s lineDelim h).1 }, (Mem.newReader (Z := Z) s lineDelim h).2, known, none⟩

/-- What happens in the model of values: the program's own arrays play no role. -/
inductive VRuns : AReader Z → List AEvent → AReader Z → Prop
  | nil {r : AReader Z} : VRuns r [] r
  | call {r r' : AReader Z} {es : List AEvent} {fuel : Nat} {c : MCall} {x : LineReaderTotal.Ret} {lr : Reader Z} : VRuns r es r' →
      LineReaderTotal.call I fuel r'.lines c.plain = .val (x, lr) → VRuns r (es ++ [.line (.call fuel c x)]) { r' with lines := lr }
  | make {r r' : AReader Z} {es : List AEvent} : VRuns r es r' → VRuns r (es ++ [.line .make]) r'
  | write {r r' : AReader Z} {es : List AEvent} {a : Nat} : VRuns r es r' → VRuns r (es ++ [.line (.write a)]) r'
  | read {r r' r'' : AReader Z} {es : List AEvent} {c : Call} {room fuel : Nat} {x : Except Err Out} : VRuns r es r' →
      r'.read I c room fuel = .val (x, r'') → VRuns r (es ++ [.read c room fuel x]) r''
  | config {r r' : AReader Z} {es : List AEvent} {onKeepAlive : Nat → Option Err} : VRuns r es r' →
      VRuns r (es ++ [.config onKeepAlive]) { r' with onKeepAlive }

/-- An event in which the program itself changes an array. -/
def AEvent.Writes (a : Nat) : AEvent → Prop
  | .line e => e.Writes a
  | _ => False

/-- An event in which a line is read. -/
def AEvent.ReadsLine : AEvent → Prop
  | .line (.call _ .readLine _) => True
  | .read _ _ _ _ => True
  | _ => False

omit [ParseFloat] in
theorem astart_ok (s : Src) (h : Heap) (known : List Nat) (hk : ∀ a ∈ known, a < h.next) :
    Ok (astart s h known : AState Z).line := start_ok s lineDelim h known hk

omit [ParseFloat] in
theorem astart_abs (s : Src) (h : Heap) (known : List Nat) :
    abs (astart s h known : AState Z).h (astart s h known : AState Z).r = newAReader s := by
  have := start_abs (Z := Z) s lineDelim h known
  simp only [start] at this
  simp only [astart, abs, this, newAReader]

theorem does_flat {st st' : AState Z} {e : AEvent} (hd : ADoes I W st e st') (ok : Ok st.line) :
    ∃ fs, Runs I W st.line fs st'.line ∧ ∀ a, ¬ e.Writes a → ∀ f ∈ fs, ¬ f.Writes a := by
  cases hd with
  | @line e s h =>
    refine ⟨[e], .snoc (es := []) .nil h, fun a ha f hf => ?_⟩
    simp only [List.mem_singleton] at hf
    subst hf
    exact ha
  | @read c room fuel x r h seen hc =>
    rcases (read_sim I W c room fuel st ok).cases with ⟨h1, h2⟩ | ⟨h1, h2⟩ | ⟨x', y, h1, h2, h3⟩
    · rw [h1] at hc; cases hc
    · rw [h1] at hc; cases hc
    · rw [h1] at hc
      cases hc
      obtain ⟨es, h4, h5, -⟩ := h3.ok I W ok
      exact ⟨es, h4, fun a _ f hf => h5 f hf a⟩
  | config f => exact ⟨[], .nil, by simp⟩

theorem arun_flat {st st' : AState Z} {es : List AEvent} (h : ARuns I W st es st') (ok : Ok st.line) :
    Ok st'.line ∧ ∃ fs, Runs I W st.line fs st'.line ∧ ∀ a, (∀ e ∈ es, ¬ e.Writes a) → ∀ f ∈ fs, ¬ f.Writes a := by
  induction h with
  | nil => exact ⟨ok, [], .nil, by simp⟩
  | snoc _ hd ih =>
    obtain ⟨ok1, fs, h1, h2⟩ := ih
    obtain ⟨gs, h3, h4⟩ := does_flat I W hd ok1
    refine ⟨(run_ok I W h3 ok1).1, fs ++ gs, h1.append I W h3, fun a ha f hf => ?_⟩
    rcases List.mem_append.mp hf with hf | hf
    · exact h2 a (fun e he => ha e (by simp [he])) f hf
    · exact h4 a (ha _ (by simp)) f hf

theorem arun_values {st st' : AState Z} {es : List AEvent} (h : ARuns I W st es st') (ok : Ok st.line) :
    VRuns I (abs st.h st.r) es (abs st'.h st'.r) := by
  induction h with
  | nil => exact .nil
  | @snoc sb sc es e hrun hd ih =>
    have ok1 := (arun_flat I W hrun ok).1
    cases hd with
    | line h =>
      cases h with
      | @call fuel c ret r h hd hc =>
        have hc : mcall I W fuel sb.line.r sb.line.h c = .val (ret, r, h) := hc
        rcases (call_sim I W fuel ok1 c hd).cases with ⟨h1, h2⟩ | ⟨h1, h2⟩ | ⟨x, y, h1, h2, rfl, h3, h4, h5, h6⟩
        · rw [h1] at hc; cases hc
        · rw [h1] at hc; cases hc
        · rw [h1] at hc
          cases hc
          have := VRuns.call (fuel := fuel) (c := c) ih h2
          simp only [State.after]
          split <;> exact this
      | make v =>
        have := VRuns.make ih
        simp only [abs] at this ⊢
        rw [show sb.r.lines.abs sb.h = sb.r.lines.abs (sb.h.alloc v).2 from (alloc_ok ok1 v).2.symm] at this
        exact this
      | write a v hd =>
        have := VRuns.write (a := a) ih
        simp only [abs] at this ⊢
        rw [show sb.r.lines.abs sb.h = sb.r.lines.abs (sb.h.set a v) from (set_abs ok1 hd v).symm] at this
        exact this
    | @read c room fuel x r h seen hc =>
      rcases (read_sim I W c room fuel sb ok1).cases with ⟨h1, h2⟩ | ⟨h1, h2⟩ | ⟨x', y, h1, h2, h3⟩
      · rw [h1] at hc; cases hc
      · rw [h1] at hc; cases hc
      · rw [h1] at hc
        cases hc
        have := h3.same
        subst this
        exact .read ih h2
    | config f => exact .config ih

/-- **C81.** Whatever the program does with the arrays it knows, also with the data of messages and with the raw packets it got,
whatever the transport leaves in the buffers: the packets, messages and errors it gets are those it gets where nothing is shared. -/
theorem results_are_values (s : Src) (h : Heap) (known : List Nat) (hk : ∀ a ∈ known, a < h.next) {es : List AEvent} {st : AState Z}
    (hr : ARuns I W (astart s h known) es st) : ∃ r, VRuns I (newAReader s) es r := by
  have := arun_values I W hr (astart_ok s h known hk)
  rw [astart_abs] at this
  exact ⟨_, this⟩

/-- **C81.** The next read does what it does where nothing is shared: it panics, or it returns the same. -/
theorem next_read (s : Src) (h : Heap) (known : List Nat) (hk : ∀ a ∈ known, a < h.next) {es : List AEvent} {st : AState Z}
    (hr : ARuns I W (astart s h known) es st) :
    ∃ r, VRuns I (newAReader s) es r ∧ ∀ c room fuel, match st.r.read I W c room fuel st.h, r.read I c room fuel with
      | .val (x, _, h', _), .val (y, _) => seenRes h' x = y
      | .panic, .panic => True
      | .timeout, .timeout => True
      | _, _ => False := by
  have hv := arun_values I W hr (astart_ok s h known hk)
  rw [astart_abs] at hv
  refine ⟨_, hv, fun c room fuel => ?_⟩
  rcases (read_sim I W c room fuel st (arun_flat I W hr (astart_ok s h known hk)).1).cases with ⟨h1, h2⟩ | ⟨h1, h2⟩ | ⟨x', y, h1, h2, h3⟩
  · rw [h1, h2]; trivial
  · rw [h1, h2]; trivial
  · rw [h1, h2, h3.same]

/-- The array of the bytes of a result. -/
def MOut.In (a : Nat) (o : MOut) : Prop := ∃ w, o.data = some w ∧ w.arr = a

/-- **C81.** A packet or message that `ReadPacket`, `ReadInfo` or `ReadClient` returned says the same forever, whatever is read
afterwards, unless the program writes to the data of the message itself. -/
theorem message_kept (s : Src) (h : Heap) (known : List Nat) (hk : ∀ a ∈ known, a < h.next) {es fs : List AEvent} {st st' : AState Z}
    (hr : ARuns I W (astart s h known) es st) {c : Call} (hraw : c ≠ .raw) {room fuel : Nat} {o : MOut} {r : MAReader Z} {g : Heap}
    {seen : List Nat} (hc : st.r.read I W c room fuel st.h = .val (.ok o, r, g, seen))
    (hf : ARuns I W ⟨r, g, newArr c (.ok o) ++ (seen ++ st.known), seen.head?.or st.last⟩ fs st')
    (hn : ∀ a, MOut.In a o → ∀ f ∈ fs, ¬ f.Writes a) : o.seen st'.h = o.seen g := by
  cases hod : o.data with
  | none => simp only [MOut.seen, hod]
  | some w =>
    have ok := (arun_flat I W hr (astart_ok s h known hk)).1
    rcases (read_sim I W c room fuel st ok).cases with ⟨h1, h2⟩ | ⟨h1, h2⟩ | ⟨x', y, h1, h2, h3⟩
    · rw [h1] at hc; cases hc
    · rw [h1] at hc; cases hc
    · rw [h1] at hc
      cases hc
      obtain ⟨es, h4, h5, h6⟩ := h3.ok I W ok
      have ok1 := (run_ok I W h4 ok).1
      obtain ⟨gs, h7, h8⟩ := (arun_flat I W hf ok1).2
      have := (own_kept I W ok1 ((h6 o w rfl hod).2 hraw) h7 (h8 _ (hn _ ⟨w, hod, rfl⟩))).2
      simp only [MOut.seen, hod, Win.bytes]
      rw [show st'.h.mem w.arr = g.mem w.arr from this]

theorem adoes_kept {st st' : AState Z} (ok : Ok st.line) {e : AEvent} (hd : ADoes I W st e st') {a : Nat} (ha : a ∈ st.known)
    (hw : ¬ e.Writes a) (hl : ¬ e.ReadsLine) : st'.h.mem a = st.h.mem a ∧ a ∈ st'.known := by
  cases hd with
  | @line e s h =>
    refine ⟨does_kept I W ok h ha ?_, h.known I W ha⟩
    cases e with
    | call fuel c x =>
      simp only [Event.MayChange, not_or, not_and]
      refine ⟨hw, ?_⟩
      rintro rfl
      exact absurd trivial hl
    | make => simp [Event.MayChange]
    | write b => exact hw
  | read c room fuel hc => exact absurd trivial hl
  | config f => exact ⟨rfl, ha⟩

/-- **C81.** A packet that `ReadPacketRaw` returned says the same until the next line is read, unless the program writes to the data
in the packet itself. -/
theorem raw_kept (s : Src) (h : Heap) (known : List Nat) (hk : ∀ a ∈ known, a < h.next) {es fs : List AEvent} {st st' : AState Z}
    (hr : ARuns I W (astart s h known) es st) {room fuel : Nat} {o : MOut} {r : MAReader Z} {g : Heap}
    {seen : List Nat} (hc : st.r.read I W .raw room fuel st.h = .val (.ok o, r, g, seen))
    (hf : ARuns I W ⟨r, g, seen ++ st.known, seen.head?.or st.last⟩ fs st')
    (hw : ∀ a, MOut.In a o → ∀ f ∈ fs, ¬ f.Writes a) (hl : ∀ f ∈ fs, ¬ f.ReadsLine) : o.seen st'.h = o.seen g := by
  cases hod : o.data with
  | none => simp only [MOut.seen, hod]
  | some w =>
    replace hw := hw _ ⟨w, hod, rfl⟩
    have ok := (arun_flat I W hr (astart_ok s h known hk)).1
    rcases (read_sim I W .raw room fuel st ok).cases with ⟨h1, h2⟩ | ⟨h1, h2⟩ | ⟨x', y, h1, h2, h3⟩
    · rw [h1] at hc; cases hc
    · rw [h1] at hc; cases hc
    · rw [h1] at hc
      cases hc
      obtain ⟨es, h4, -, h6⟩ := h3.ok I W ok
      have ok1 := (run_ok I W h4 ok).1
      have hn : newArr .raw (.ok o) = [] := by
        obtain ⟨out, d⟩ := o
        cases d <;> rfl
      simp only [hn, List.nil_append] at ok1
      have ok1 : Ok (AState.line ⟨r, g, seen ++ st.known, seen.head?.or st.last⟩) := ok1
      have hin : w.arr ∈ seen ++ st.known := (h6 o w rfl hod).1 rfl
      suffices st'.h.mem w.arr = g.mem w.arr ∧ w.arr ∈ st'.known by simp only [MOut.seen, hod, Win.bytes, this.1]
      clear h1 h2 h6 h4
      induction hf with
      | nil => exact ⟨rfl, hin⟩
      | @snoc sb sc fs f hrun hd ih =>
        obtain ⟨ih1, ih2⟩ := ih (fun f hf => hl f (by simp [hf])) (fun f hf => hw f (by simp [hf]))
        have := adoes_kept I W (arun_flat I W hrun ok1).1 hd ih2 (hw f (by simp)) (hl f (by simp))
        exact ⟨this.1.trans ih1, this.2⟩

/-! ### Examples -/

section

local instance : ParseFloat := ⟨fun _ => .bad⟩

/-- What the program of the examples reads: two messages that are not known. -/
def src0 : Src := [⟨b!"IFOO xyz\nIBAR uvwxyz\n", none⟩]

/-- The result of the first read, as it is seen then and after a second read. -/
def firstOut (c : Call) : Option (Out × Out) :=
  match (astart src0 mem0 [0] : AState Bool).r.read LineReader.toy world0 c 0 20 (astart (Z := Bool) src0 mem0 [0]).h with
  | .val (.ok o, r, h, _) => match r.read LineReader.toy world0 .info 0 20 h with
    | .val (.ok _, _, h', _) => some (o.seen h, o.seen h')
    | _ => none
  | _ => none

/-- The messages are kept although the line they came from is overwritten. -/
example : firstOut .packet = some (.packet (.info (.raw ⟨b!"FOO", rfl⟩ b!"xyz")), .packet (.info (.raw ⟨b!"FOO", rfl⟩ b!"xyz"))) ∧
    firstOut .info = some (.message (.raw ⟨b!"FOO", rfl⟩ b!"xyz"), .message (.raw ⟨b!"FOO", rfl⟩ b!"xyz")) := by
  constructor <;> with_unfolding_all rfl

/-- A packet from `ReadPacketRaw` is lost when the next line is read, as its documentation says. -/
theorem raw_lost : firstOut .raw = some (.packet (.info (.raw ⟨b!"FOO", rfl⟩ b!"xyz")), .packet (.info (.raw ⟨b!"FOO", rfl⟩ b!"uvw"))) := by
  with_unfolding_all rfl

/-- There are runs in which the program overwrites the data of a raw packet. -/
example : ∃ (es : List AEvent) (st : AState Bool), ARuns LineReader.toy world0 (astart src0 mem0 [0]) es st ∧ es.length = 3 ∧
    ∀ e ∈ es, e.ReadsLine ∨ ∃ a, e = .line (.write a) := by
  have h1 : ∃ x r h seen, (astart src0 mem0 [0] : AState Bool).r.read LineReader.toy world0 .raw 0 20 (astart (Z := Bool) src0 mem0 [0]).h =
      .val (x, r, h, seen) ∧ 2 ∈ seen ∧ ∃ x' r' h' seen', r.read LineReader.toy world0 .packet 0 20 (h.set 2 b!"zz") =
        .val (x', r', h', seen') := ⟨_, _, _, _, by with_unfolding_all rfl, by decide, _, _, _, _, by with_unfolding_all rfl⟩
  obtain ⟨x, r, h, seen, h1, h2, x', r', h', seen', h3⟩ := h1
  have n1 := ADoes.read (I := LineReader.toy) (W := world0) .raw 0 20 h1
  have n2 := ARuns.snoc (.snoc (.snoc .nil n1) (.line (.write 2 b!"zz" (by simp [AState.line, h2])))) (.read .packet 0 20 h3)
  refine ⟨_, _, n2, rfl, ?_⟩
  simp [AEvent.ReadsLine]

end

end Verif.Props.AdcMemory
