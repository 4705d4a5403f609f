import Verif.Nmdc.Memory
import Verif.Props.LineMemory

/-!
# C80: the messages of the NMDC reader keep their contents

Model: `Verif/Nmdc/Memory.lean`.
-/

namespace Verif.Props.NmdcMemory

open Verif Verif.Go Verif.Lineproto Verif.Lineproto.Mem Verif.Nmdc Verif.Nmdc.Mem Verif.Props.LineMemory

variable {Z : Type} (I : Inflater Z) (W : World)

/-! ### The loop, in terms of the model of values -/

/-- A round as it is seen in the memory `h`. -/
def seenRound (h : Heap) : MRound → Round
  | .ret e st => .ret (e.map (MErr.seen h)) st
  | .again st => .again st
  | .panic => .panic

theorem seen_plain (h : Heap) (x : Round) : seenRound h (.plain x) = x := by
  cases x with
  | ret e st => cases e <;> rfl
  | again => rfl
  | panic => rfl

theorem targetCmd_error {st : St} {typ args : Bytes} {e : Err} (h : targetCmd st typ args = .error e) :
    ∃ x, e = .unexpectedCommand x typ args := by
  unfold targetCmd at h
  cases ha : st.arr with
  | nil =>
    simp only [ha] at h
    cases hc : st.cur with
    | none => simp [hc] at h
    | some m =>
      simp only [hc] at h
      split at h
      · cases h; exact ⟨_, rfl⟩
      · split at h
        · cases h; exact ⟨_, rfl⟩
        · cases h
  | cons first rest =>
    simp only [ha] at h
    cases hp : pick (fun m => m.isRaw || decide (m.typ = typ)) (first :: rest) 0 with
    | none => simp only [hp] at h; cases h; exact ⟨_, rfl⟩
    | some im =>
      obtain ⟨i, m⟩ := im
      simp only [hp] at h
      split at h
      · cases h; exact ⟨_, rfl⟩
      · split at h
        · cases h; exact ⟨_, rfl⟩
        · cases h

theorem targetChat_error {st : St} {args : Bytes} {e : Err} (h : targetChat st args = .error e) :
    ∃ x, e = .unexpectedCommand x [] args := by
  unfold targetChat at h
  cases ha : st.arr with
  | nil =>
    simp only [ha] at h
    cases hc : st.cur with
    | none => simp [hc] at h
    | some m =>
      simp only [hc] at h
      split at h
      · cases h
      · cases h; exact ⟨_, rfl⟩
  | cons first rest =>
    simp only [ha] at h
    cases hp : pick (fun m => m.isRaw || m.isChat) (first :: rest) 0 with
    | none => simp only [hp] at h; cases h; exact ⟨_, rfl⟩
    | some im =>
      obtain ⟨i, m⟩ := im
      simp only [hp] at h
      split at h
      · cases h
      · cases h; exact ⟨_, rfl⟩

theorem splitCmd_args {line cmd args : Bytes} (h : splitCmd line = (cmd, args)) :
    line.drop (cmd.length + 1) = args := by
  unfold splitCmd at h
  split at h
  · cases h; simp
  · rename_i i hi
    cases h
    have := indexByte_lt hi
    simp [Nat.min_eq_left (Nat.le_of_lt this)]

/-- The rest of a line is what its window shows. -/
theorem win_bytes {h : Heap} {s : Slice} {k : Nat} {args : Bytes} (ha : (s.bytes h).dropLast.drop k = args) :
    (Win.mk s.arr k args.length).bytes h = args := by
  have hp : args <+: (h.mem s.arr).drop k := by
    rw [← ha]
    obtain ⟨t, ht⟩ := (List.dropLast_prefix (s.bytes h)).trans (List.take_prefix s.len (h.mem s.arr))
    rw [← ht, List.drop_append]
    exact List.prefix_append _ _
  exact (List.prefix_iff_eq_take.mp hp).symm

variable [HtmlEntities]

/-- Where the window of an error is. -/
def InLine (s : Option Slice) : MRound → Prop
  | .ret (some (.unexpected _ _ w)) _ => ∃ l, s = some l ∧ w.arr = l.arr
  | _ => True

omit [HtmlEntities] in
theorem inLine_plain (s : Option Slice) (x : Round) : InLine s (.plain x) := by
  cases x with
  | ret e st => cases e <;> trivial
  | again => trivial
  | panic => trivial

theorem roundBody_seen (env : Env) (left : Codec → Msg → Bytes → Msg) (n : Int) (s : Slice) (h : Heap) (st : St) :
    seenRound h (Mem.roundBody env left n s h st) = Nmdc.roundBody env left n (s.bytes h).dropLast st ∧
      InLine (some s) (Mem.roundBody env left n s h st) := by
  unfold Mem.roundBody Nmdc.roundBody
  cases hl : (s.bytes h).dropLast with
  | nil => exact ⟨rfl, trivial⟩
  | cons b line =>
    simp only
    by_cases hb : b = c!"$"
    · rw [if_pos hb, if_pos hb]
      rcases hs : splitCmd line with ⟨cmd, args⟩
      simp only
      cases runAll () (List.map (fun h x => h (some cmd) args) env.rawHooks) with
      | fail e => exact ⟨rfl, trivial⟩
      | drop => exact ⟨rfl, trivial⟩
      | accept =>
        simp only
        by_cases hn : cmdNameOk n cmd = true
        · rw [if_pos hn, if_pos hn]
          cases ht : targetCmd st cmd args with
          | error e =>
            obtain ⟨x, rfl⟩ := targetCmd_error ht
            refine ⟨?_, s, rfl, rfl⟩
            have := win_bytes (h := h) (s := s) (k := 1 + (cmd.length + 1)) (args := args)
              (by rw [hl, Nat.add_comm 1, List.drop_succ_cons]; exact splitCmd_args hs)
            simp only [seenRound, Option.map_some, refused, MErr.seen, this]
          | ok o => exact ⟨seen_plain h _, inLine_plain _ _⟩
        · rw [if_neg hn, if_neg hn]; exact ⟨rfl, trivial⟩
    · rw [if_neg hb, if_neg hb]
      cases runAll () (List.map (fun h x => h none (b :: line)) env.rawHooks) with
      | fail e => exact ⟨rfl, trivial⟩
      | drop => exact ⟨rfl, trivial⟩
      | accept =>
        simp only
        cases ht : targetChat st (b :: line) with
        | error e =>
          obtain ⟨x, rfl⟩ := targetChat_error ht
          refine ⟨?_, s, rfl, rfl⟩
          have := win_bytes (h := h) (s := s) (k := 0) (args := b :: line) (by rw [hl]; rfl)
          simp only [seenRound, Option.map_some, refused, MErr.seen, this]
        | ok o => exact ⟨seen_plain h _, inLine_plain _ _⟩

theorem round_seen (env : Env) (left : Codec → Msg → Bytes → Msg) (n : Int) (s : Option Slice) (e : Option Err) (h : Heap) (st : St) :
    seenRound h (Mem.round env left n s e h st) = Nmdc.round env left n (deref h s, e) st ∧
      InLine s (Mem.round env left n s e h st) := by
  cases e with
  | some e => exact ⟨rfl, trivial⟩
  | none =>
    cases s with
    | none => exact ⟨rfl, trivial⟩
    | some s =>
      rw [show deref h (some s) = s.bytes h from rfl]
      unfold Mem.round Nmdc.round
      simp only
      by_cases h1 : (s.bytes h).getLast? ≠ some delim
      · rw [if_pos h1, if_pos h1]; exact ⟨rfl, trivial⟩
      · rw [if_neg h1, if_neg h1]
        by_cases h2 : (0 : Byte) ∈ s.bytes h
        · rw [if_pos h2, if_pos h2]; exact ⟨rfl, trivial⟩
        · rw [if_neg h2, if_neg h2]
          by_cases h3 : (s.bytes h).dropLast = []
          · rw [if_pos h3, if_pos h3]
            cases env.keepAlive <;> exact ⟨rfl, trivial⟩
          · rw [if_neg h3, if_neg h3]
            exact roundBody_seen env left n s h st

/-- The reader of the model of values. -/
def abs (h : Heap) (r : MNReader Z) : NReader Z := ⟨r.lines.abs h, r.dec, r.maxCmdName, r.env⟩

/-- An event is a call of `ReadLine`. -/
def IsLine : Event → Prop
  | .call _ .readLine _ => True
  | _ => False

/-- What the loop does: it calls `ReadLine`. -/
structure Ran (st : State Z) (e : Option MErr) (r : MReader Z) (h : Heap) (known : List Nat) (last : Option Nat) (es : List Event) : Prop where
  runs : Runs I W st es ⟨r, h, known, last⟩
  lines : ∀ e ∈ es, IsLine e
  err : ∀ x t w, e = some (.unexpected x t w) → last = some w.arr

omit [HtmlEntities] in
theorem after_line (st : State Z) (l : Option Slice) (e : Option Err) (r : MReader Z) (h : Heap) :
    st.after (.line l e) r h = ⟨r, h, arrs l ++ st.known, (arrs l).head?.or st.last⟩ := by
  cases l <;> rfl

theorem loop_sim (left : Codec → Msg → Bytes → Msg) : ∀ (fuel k : Nat) (r : MNReader Z) (s : St) (seen known : List Nat) (last : Option Nat) (h : Heap),
    Ok (⟨r.lines, h, seen ++ known, seen.head?.or last⟩ : State Z) →
    Sim (fun x y => y = (x.1.map (MErr.seen x.2.2.2.1), x.2.1, abs x.2.2.2.1 x.2.2.1) ∧
        ∃ es, Ran I W ⟨r.lines, h, seen ++ known, seen.head?.or last⟩ x.1 x.2.2.1.lines x.2.2.2.1 (x.2.2.2.2 ++ known) (x.2.2.2.2.head?.or last) es)
      (MNReader.loop I W left fuel k r s h seen) (NReader.loop I left fuel k (abs h r) s) := by
  intro fuel
  induction fuel with
  | zero => intro k r s seen known last h _; trivial
  | succ fuel ih =>
    intro k r s seen known last h ok
    rw [MNReader.loop, NReader.loop]
    have hc := call_sim I W fuel ok .readLine (by intro a h; cases h)
    simp only [mcall, MCall.plain, LineReaderTotal.call] at hc
    have e0 : (abs h r).lines = r.lines.abs h := rfl
    rw [e0]
    cases hx : r.lines.readLine I W fuel h with
    | panic =>
      rw [hx] at hc
      cases hy : (r.lines.abs h).readLine I fuel with
      | panic => trivial
      | timeout => rw [hy] at hc; exact hc.elim
      | val y => rw [hy] at hc; exact hc.elim
    | timeout =>
      rw [hx] at hc
      cases hy : (r.lines.abs h).readLine I fuel with
      | panic => rw [hy] at hc; exact hc.elim
      | timeout => trivial
      | val y => rw [hy] at hc; exact hc.elim
    | val x =>
      obtain ⟨⟨l, e⟩, lr, h'⟩ := x
      rw [hx] at hc
      cases hy : (r.lines.abs h).readLine I fuel with
      | panic => rw [hy] at hc; exact hc.elim
      | timeout => rw [hy] at hc; exact hc.elim
      | val y =>
        obtain ⟨⟨d, e'⟩, vr⟩ := y
        rw [hy] at hc
        obtain ⟨h1, h2, -, -⟩ := hc
        simp only [MRet.seen, Prod.mk.injEq, LineReaderTotal.Ret.bytes.injEq] at h1
        obtain ⟨⟨rfl, rfl⟩, rfl⟩ := h1
        simp only at h2 ⊢
        have hmc : mcall I W fuel r.lines h .readLine = .val (.line l e', lr, h') := by simp [mcall, hx]
        have does : Does I W ⟨r.lines, h, seen ++ known, seen.head?.or last⟩ (.call fuel .readLine (MRet.seen h' (.line l e'))) _ :=
          .call fuel .readLine (by intro a h; cases h) hmc
        have he : State.after ⟨r.lines, h, seen ++ known, seen.head?.or last⟩ (.line l e') lr h' =
            ⟨lr, h', (arrs l ++ seen) ++ known, (arrs l ++ seen).head?.or last⟩ := by
          rw [after_line]; cases l <;> simp [arrs]
        rw [he] at does h2
        have one : Runs I W ⟨r.lines, h, seen ++ known, seen.head?.or last⟩ [.call fuel .readLine (MRet.seen h' (.line l e'))] _ := .snoc (es := []) .nil does
        obtain ⟨hs1, hs2⟩ := round_seen (r.env k) left r.maxCmdName l e' h' s
        have e1 : (abs h r).env = r.env := rfl
        have e2 : (abs h r).maxCmdName = r.maxCmdName := rfl
        rw [e1, e2, ← hs1]
        cases hrd : Mem.round (r.env k) left r.maxCmdName l e' h' s with
        | panic => trivial
        | ret e s' =>
          refine ⟨rfl, _, one, by simp [IsLine], ?_⟩
          rintro x t w rfl
          rw [hrd] at hs2
          obtain ⟨l', rfl, hw⟩ := hs2
          rw [hw]; rfl
        | again s' =>
          simp only [seenRound]
          have := ih (k + 1) { r with lines := lr, dec := s'.rdec } s' (arrs l ++ seen) known last h' h2
          refine this.mono ?_
          rintro x y ⟨k1, es, k4⟩
          exact ⟨k1, _, one.append I W k4.runs, by
            intro e he
            rcases List.mem_append.mp he with he | he
            · simp at he; subst he; trivial
            · exact k4.lines e he, k4.err⟩

/-! ### Programs -/

/-- A result as it is seen in the memory `h`. -/
def seenRes (h : Heap) : Except MErr (Option MMsg) → Except Err (Option Msg)
  | .ok m => .ok (m.map (MMsg.seen h))
  | .error e => .error (e.seen h)

/-- The array of the data of a message that was returned. -/
def heldArr : Except MErr (Option MMsg) → List Nat
  | .ok (some (.raw _ w)) => [w.arr]
  | _ => []

/-- The same call in the model of values, where there is no memory and nothing is shared. -/
def vread (left : Codec → Msg → Bytes → Msg) (fuel : Nat) (r : NReader Z) : MsgCall → Exec (Except Err (Option Msg) × NReader Z)
  | .any => r.readMsg I left fuel
  | .to m => match r.readMsgTo I left fuel (some m) with
    | .val (some e, _, r') => .val (.error e, r')
    | .val (none, m', r') => .val (.ok m', r')
    | .panic => .panic
    | .timeout => .timeout
  | .toAny arr => match r.readMsgToAny I left fuel arr with
    | .val (.error e, _, r') => .val (.error e, r')
    | .val (.ok i, arr', r') => .val (.ok (i.bind fun i => arr'[i]?), r')
    | .panic => .panic
    | .timeout => .timeout

/-- The reader, the memory, the arrays the program knows, and the array of the last line it got. -/
structure NState (Z : Type) where
  r : MNReader Z
  h : Heap
  known : List Nat
  last : Option Nat

/-- The part of the line reader. -/
def NState.line (st : NState Z) : State Z := ⟨st.r.lines, st.h, st.known, st.last⟩

/-- What happens: a call of the line reader or something the program does with arrays of its own (see C79), a message that is read,
with the result as the program sees it, or a change of the settings and callbacks. -/
inductive NEvent where
  | line (e : Event)
  | read (fuel : Nat) (c : MsgCall) (seen : Except Err (Option Msg))
  | config (dec : Codec) (maxCmdName : Int) (env : Nat → Env)

variable (left : Codec → Msg → Bytes → Msg)

/-- One step of the program. -/
inductive NDoes : NState Z → NEvent → NState Z → Prop
  | line {st : NState Z} {e : Event} {s : State Z} (h : Does I W st.line e s) :
      NDoes st (.line e) ⟨{ st.r with lines := s.r }, s.h, s.known, s.last⟩
  | read {st : NState Z} (fuel : Nat) (c : MsgCall) {x : Except MErr (Option MMsg)} {r : MNReader Z} {h : Heap} {seen : List Nat}
      (hc : st.r.read I W left fuel st.h c = .val (x, r, h, seen)) :
      NDoes st (.read fuel c (seenRes h x)) ⟨r, h, heldArr x ++ (seen ++ st.known), seen.head?.or st.last⟩
  | config {st : NState Z} (dec : Codec) (maxCmdName : Int) (env : Nat → Env) :
      NDoes st (.config dec maxCmdName env) { st with r := { st.r with dec, maxCmdName, env } }

/-- The steps of the program. -/
inductive NRuns : NState Z → List NEvent → NState Z → Prop
  | nil {st : NState Z} : NRuns st [] st
  | snoc {st st' st'' : NState Z} {es : List NEvent} {e : NEvent} : NRuns st es st' → NDoes I W left st' e st'' → NRuns st (es ++ [e]) st''

/-- A new reader, in a memory where the program knows some arrays. -/
def nstart (s : Src) (h : Heap) (known : List Nat) : NState Z :=
  ⟨{ lines := (Mem.newReader s delim h).1 }, (Mem.newReader (Z := Z) s delim h).2, known, none⟩

/-- What happens in the model of values: the program's own arrays play no role. -/
inductive VRuns : NReader Z → List NEvent → NReader Z → Prop
  | nil {r : NReader Z} : VRuns r [] r
  | call {r r' : NReader Z} {es : List NEvent} {fuel : Nat} {c : MCall} {x : LineReaderTotal.Ret} {lr : Reader Z} : VRuns r es r' →
      LineReaderTotal.call I fuel r'.lines c.plain = .val (x, lr) → VRuns r (es ++ [.line (.call fuel c x)]) { r' with lines := lr }
  | make {r r' : NReader Z} {es : List NEvent} : VRuns r es r' → VRuns r (es ++ [.line .make]) r'
  | write {r r' : NReader Z} {es : List NEvent} {a : Nat} : VRuns r es r' → VRuns r (es ++ [.line (.write a)]) r'
  | read {r r' r'' : NReader Z} {es : List NEvent} {fuel : Nat} {c : MsgCall} {x : Except Err (Option Msg)} : VRuns r es r' →
      vread I left fuel r' c = .val (x, r'') → VRuns r (es ++ [.read fuel c x]) r''
  | config {r r' : NReader Z} {es : List NEvent} {dec : Codec} {maxCmdName : Int} {env : Nat → Env} : VRuns r es r' →
      VRuns r (es ++ [.config dec maxCmdName env]) { r' with dec, maxCmdName, env }

/-- What the memory of a message is. -/
inductive Held (h : Heap) (m : Option Msg) : Option MMsg → Heap → Option Bytes → Prop
  | same {m' : Option MMsg} : (∀ h, m'.map (MMsg.seen h) = m) → heldArr (.ok m') = [] → Held h m m' h none
  | raw {typ data : Bytes} : m = some (.raw typ data) →
      Held h m (some (.raw typ ⟨(h.alloc data).1, 0, data.length⟩)) (h.alloc data).2 (some data)

omit [HtmlEntities] in
theorem hold_held (h : Heap) (m : Option Msg) : ∃ o, Held h m (hold h m).1 (hold h m).2 o := by
  unfold hold
  cases m with
  | none => exact ⟨none, .same (fun _ => rfl) rfl⟩
  | some m => cases m with
    | raw typ data => exact ⟨_, .raw rfl⟩
    | _ => exact ⟨none, .same (fun _ => rfl) rfl⟩

omit [HtmlEntities] in
theorem Held.seen {h h' : Heap} {m : Option Msg} {m' : Option MMsg} {o : Option Bytes} (H : Held h m m' h' o) :
    m'.map (MMsg.seen h') = m := by
  cases H with
  | same h1 _ => exact h1 _
  | raw h1 => subst h1; simp [MMsg.seen, Win.bytes, Heap.alloc]

/-- What a read does, in terms of the line reader and of the model of values. -/
structure ReadRel (st : NState Z) (x : Except MErr (Option MMsg) × MNReader Z × Heap × List Nat) (y : Except Err (Option Msg) × NReader Z) :
    Prop where
  same : y = (seenRes x.2.2.1 x.1, abs x.2.2.1 x.2.1)
  mem : ∃ es h o, Runs I W st.line es ⟨x.2.1.lines, h, x.2.2.2 ++ st.known, x.2.2.2.head?.or st.last⟩ ∧ (∀ e ∈ es, IsLine e) ∧
    (∀ e, x.1 = .error e → x.2.2.1 = h ∧ ∀ z t w, e = .unexpected z t w → x.2.2.2.head?.or st.last = some w.arr) ∧
    (∀ m, x.1 = .ok m → ∃ m0, Held h m0 m x.2.2.1 o)

theorem vread_eq (fuel : Nat) (r : NReader Z) (c : MsgCall) (hn : c.bad = false) :
    vread I left fuel r c = match NReader.loop I left fuel 0 r (r.start c.args.1 c.args.2) with
      | .val (some e, _, r') => .val (.error e, r')
      | .val (none, st, r') => .val (.ok (c.target st), r')
      | .panic => .panic
      | .timeout => .timeout := by
  cases c with
  | any =>
    simp only [vread, NReader.readMsg, MsgCall.args, MsgCall.target]
    rcases NReader.loop I left fuel 0 r (r.start none []) with ⟨_ | _, _, _⟩ | _ | _ <;> rfl
  | to m =>
    simp only [vread, NReader.readMsgTo, MsgCall.args, MsgCall.target]
    rcases NReader.loop I left fuel 0 r (r.start (some m) []) with ⟨_ | _, _, _⟩ | _ | _ <;> rfl
  | toAny arr =>
    cases arr with
    | nil => cases hn
    | cons m arr =>
      simp only [vread, NReader.readMsgToAny, MsgCall.args, MsgCall.target]
      rcases NReader.loop I left fuel 0 r (r.start none (m :: arr)) with ⟨_ | _, _, _⟩ | _ | _ <;> rfl

omit [HtmlEntities] in
theorem Held.abs {h h' : Heap} {m : Option Msg} {m' : Option MMsg} {o : Option Bytes} (H : Held h m m' h' o) {r : MNReader Z}
    {known : List Nat} {last : Option Nat} (ok : Ok (⟨r.lines, h, known, last⟩ : State Z)) : abs h' r = NmdcMemory.abs h r := by
  cases H with
  | same _ _ => rfl
  | raw _ => simp only [NmdcMemory.abs]; rw [(alloc_ok ok _).2]

theorem read_sim (fuel : Nat) (st : NState Z) (ok : Ok st.line) (c : MsgCall) :
    Sim (ReadRel I W st) (st.r.read I W left fuel st.h c) (vread I left fuel (abs st.h st.r) c) := by
  have key := loop_sim I W left fuel 0 st.r (st.r.start c.args.1 c.args.2) [] st.known st.last st.h ok
  unfold MNReader.read
  cases hb : c.bad with
  | true =>
    have : c = .toAny [] := by
      cases c with
      | any => cases hb
      | to m => cases hb
      | toAny arr => cases arr with
        | nil => rfl
        | cons => cases hb
    subst this
    trivial
  | false =>
    rw [vread_eq _ _ _ _ _ hb]
    have e0 : (abs st.h st.r).start c.args.1 c.args.2 = st.r.start c.args.1 c.args.2 := rfl
    rw [e0]
    simp only [Bool.false_eq_true, if_false]
    rcases key.cases with ⟨h1, h2⟩ | ⟨h1, h2⟩ | ⟨x, y, h1, h2, rfl, es, hr⟩
    · rw [h1, h2]; trivial
    · rw [h1, h2]; trivial
    · rw [h1, h2]
      obtain ⟨e, s', r', h', seen⟩ := x
      cases e with
      | some e =>
        exact ⟨rfl, es, h', none, hr.runs, hr.lines, (fun e' he => by cases he; exact ⟨rfl, fun z t w hw => hr.err z t w (by rw [hw])⟩),
          (fun m hm => by cases hm)⟩
      | none =>
        obtain ⟨o, ho⟩ := hold_held h' (c.target s')
        refine ⟨?_, es, h', o, hr.runs, hr.lines, (fun e' he => by cases he), (fun m hm => by cases hm; exact ⟨_, ho⟩)⟩
        simp only [seenRes, ho.seen, ho.abs (run_ok I W hr.runs ok).1]

omit [HtmlEntities] in
theorem ReadRel.ok {st : NState Z} (ok : Ok st.line) {x : Except MErr (Option MMsg) × MNReader Z × Heap × List Nat}
    {y : Except Err (Option Msg) × NReader Z} (h : ReadRel I W st x y) :
    ∃ es, Runs I W st.line es ⟨x.2.1.lines, x.2.2.1, heldArr x.1 ++ (x.2.2.2 ++ st.known), x.2.2.2.head?.or st.last⟩ ∧
      (∀ e ∈ es, ∀ a, ¬ e.Writes a) ∧
      (∀ typ w, x.1 = .ok (some (.raw typ w)) → Own (⟨x.2.1.lines, x.2.2.1, heldArr x.1 ++ (x.2.2.2 ++ st.known), x.2.2.2.head?.or st.last⟩ : State Z) w.arr) := by
  obtain ⟨_, es, h, o, h1, h2, h3, h4⟩ := h
  have hw : ∀ e ∈ es, ∀ a, ¬ e.Writes a := by
    intro e he a hw
    have := h2 e he
    cases e with
    | call fuel c s => cases c <;> simp_all [IsLine, Event.Writes, MCall.dest]
    | make => exact hw
    | write b => exact this
  obtain ⟨x, r', h', seen⟩ := x
  cases x with
  | error e =>
    obtain ⟨rfl, -⟩ := h3 e rfl
    exact ⟨es, h1, hw, fun typ w hx => by cases hx⟩
  | ok m =>
    obtain ⟨m0, H⟩ := h4 m rfl
    simp only at H h1 ⊢
    cases H with
    | same _ hh => exact ⟨es, by simpa [hh] using h1, hw, fun typ w hx => by cases hx; cases hh⟩
    | @raw typ data _ =>
      refine ⟨es ++ [.make], .snoc h1 (.make data), ?_, ?_⟩
      · intro e he
        rcases List.mem_append.mp he with he | he
        · exact hw e he
        · simp at he; subst he; simp [Event.Writes]
      · intro typ w hx
        cases hx
        exact own_made (run_ok I W h1 ok).1 data

/-- An event in which the program itself changes an array. -/
def NEvent.Writes (a : Nat) : NEvent → Prop
  | .line e => e.Writes a
  | _ => False

/-- An event in which a line is read. -/
def NEvent.ReadsLine : NEvent → Prop
  | .line (.call _ .readLine _) => True
  | .read _ _ _ => True
  | _ => False

omit [HtmlEntities] in
theorem nstart_ok (s : Src) (h : Heap) (known : List Nat) (hk : ∀ a ∈ known, a < h.next) :
    Ok (nstart s h known : NState Z).line := start_ok s delim h known hk

omit [HtmlEntities] in
theorem nstart_abs (s : Src) (h : Heap) (known : List Nat) :
    abs (nstart s h known : NState Z).h (nstart s h known : NState Z).r = newNReader s := by
  have := start_abs (Z := Z) s delim h known
  simp only [start] at this
  simp only [nstart, abs, this, newNReader]

theorem does_flat {st st' : NState Z} {e : NEvent} (hd : NDoes I W left st e st') (ok : Ok st.line) :
    ∃ fs, Runs I W st.line fs st'.line ∧ ∀ a, ¬ e.Writes a → ∀ f ∈ fs, ¬ f.Writes a := by
  cases hd with
  | @line e s h =>
    refine ⟨[e], .snoc (es := []) .nil h, fun a ha f hf => ?_⟩
    simp only [List.mem_singleton] at hf
    subst hf
    exact ha
  | @read fuel c x r h seen hc =>
    rcases (read_sim I W left fuel st ok c).cases with ⟨h1, h2⟩ | ⟨h1, h2⟩ | ⟨x', y, h1, h2, h3⟩
    · rw [h1] at hc; cases hc
    · rw [h1] at hc; cases hc
    · rw [h1] at hc
      cases hc
      obtain ⟨es, h4, h5, -⟩ := h3.ok I W ok
      exact ⟨es, h4, fun a _ f hf => h5 f hf a⟩
  | config dec n env => exact ⟨[], .nil, by simp⟩

theorem nrun_flat {st st' : NState Z} {es : List NEvent} (h : NRuns I W left st es st') (ok : Ok st.line) :
    Ok st'.line ∧ ∃ fs, Runs I W st.line fs st'.line ∧ ∀ a, (∀ e ∈ es, ¬ e.Writes a) → ∀ f ∈ fs, ¬ f.Writes a := by
  induction h with
  | nil => exact ⟨ok, [], .nil, by simp⟩
  | snoc _ hd ih =>
    obtain ⟨ok1, fs, h1, h2⟩ := ih
    obtain ⟨gs, h3, h4⟩ := does_flat I W left hd ok1
    refine ⟨(run_ok I W h3 ok1).1, fs ++ gs, h1.append I W h3, fun a ha f hf => ?_⟩
    rcases List.mem_append.mp hf with hf | hf
    · exact h2 a (fun e he => ha e (by simp [he])) f hf
    · exact h4 a (ha _ (by simp)) f hf

theorem nrun_values {st st' : NState Z} {es : List NEvent} (h : NRuns I W left st es st') (ok : Ok st.line) :
    VRuns I left (abs st.h st.r) es (abs st'.h st'.r) := by
  induction h with
  | nil => exact .nil
  | @snoc sb sc es e hrun hd ih =>
    have ok1 := (nrun_flat I W left hrun ok).1
    cases hd with
    | line h =>
      cases h with
      | @call fuel c ret r h hd hc =>
        have hc : mcall I W fuel sb.line.r sb.line.h c = .val (ret, r, h) := hc
        rcases (call_sim I W fuel ok1 c hd).cases with ⟨h1, h2⟩ | ⟨h1, h2⟩ | ⟨x, y, h1, h2, rfl, h3, h4, h5, h6⟩
        · rw [h1] at hc; cases hc
        · rw [h1] at hc; cases hc
        · rw [h1] at hc
          cases hc
          have := VRuns.call (fuel := fuel) (c := c) ih h2
          simp only [State.after]
          split <;> exact this
      | make v =>
        have := VRuns.make ih
        simp only [abs] at this ⊢
        rw [show sb.r.lines.abs sb.h = sb.r.lines.abs (sb.h.alloc v).2 from (alloc_ok ok1 v).2.symm] at this
        exact this
      | write a v hd =>
        have := VRuns.write (a := a) ih
        simp only [abs] at this ⊢
        rw [show sb.r.lines.abs sb.h = sb.r.lines.abs (sb.h.set a v) from (set_abs ok1 hd v).symm] at this
        exact this
    | @read fuel c x r h seen hc =>
      rcases (read_sim I W left fuel sb ok1 c).cases with ⟨h1, h2⟩ | ⟨h1, h2⟩ | ⟨x', y, h1, h2, h3⟩
      · rw [h1] at hc; cases hc
      · rw [h1] at hc; cases hc
      · rw [h1] at hc
        cases hc
        have := h3.same
        subst this
        exact .read ih h2
    | config dec n env => exact .config ih

/-- **C80.** Whatever the program does with the arrays it knows, also with the data of messages and with the lines its callbacks and
errors showed it, whatever the transport leaves in the buffers: the messages and errors it gets are those it gets where nothing is
shared. -/
theorem results_are_values (s : Src) (h : Heap) (known : List Nat) (hk : ∀ a ∈ known, a < h.next) {es : List NEvent} {st : NState Z}
    (hr : NRuns I W left (nstart s h known) es st) : ∃ r, VRuns I left (newNReader s) es r := by
  have := nrun_values I W left hr (nstart_ok s h known hk)
  rw [nstart_abs] at this
  exact ⟨_, this⟩

/-- **C80.** The next read does what it does where nothing is shared: it panics, or it returns the same. -/
theorem next_read (s : Src) (h : Heap) (known : List Nat) (hk : ∀ a ∈ known, a < h.next) {es : List NEvent} {st : NState Z}
    (hr : NRuns I W left (nstart s h known) es st) :
    ∃ r, VRuns I left (newNReader s) es r ∧ ∀ fuel c, match st.r.read I W left fuel st.h c, vread I left fuel r c with
      | .val (x, _, h', _), .val (y, _) => seenRes h' x = y
      | .panic, .panic => True
      | .timeout, .timeout => True
      | _, _ => False := by
  have hv := nrun_values I W left hr (nstart_ok s h known hk)
  rw [nstart_abs] at hv
  refine ⟨_, hv, fun fuel c => ?_⟩
  rcases (read_sim I W left fuel st (nrun_flat I W left hr (nstart_ok s h known hk)).1 c).cases with ⟨h1, h2⟩ | ⟨h1, h2⟩ | ⟨x', y, h1, h2, h3⟩
  · rw [h1, h2]; trivial
  · rw [h1, h2]; trivial
  · rw [h1, h2, h3.same]

/-- The arrays of a message. -/
def MMsg.In (a : Nat) : MMsg → Prop
  | .val _ => False
  | .raw _ w => w.arr = a

/-- **C80.** A message that was returned says the same forever, whatever is read afterwards, unless the program writes to the data
of the message itself. -/
theorem message_kept (s : Src) (h : Heap) (known : List Nat) (hk : ∀ a ∈ known, a < h.next) {es fs : List NEvent} {st st' : NState Z}
    (hr : NRuns I W left (nstart s h known) es st) {fuel : Nat} {c : MsgCall} {m : MMsg} {r : MNReader Z} {g : Heap} {seen : List Nat}
    (hc : st.r.read I W left fuel st.h c = .val (.ok (some m), r, g, seen))
    (hf : NRuns I W left ⟨r, g, heldArr (.ok (some m)) ++ (seen ++ st.known), seen.head?.or st.last⟩ fs st')
    (hn : ∀ a, MMsg.In a m → ∀ f ∈ fs, ¬ f.Writes a) : m.seen st'.h = m.seen g := by
  cases m with
  | val m => rfl
  | raw typ w =>
    have ok := (nrun_flat I W left hr (nstart_ok s h known hk)).1
    rcases (read_sim I W left fuel st ok c).cases with ⟨h1, h2⟩ | ⟨h1, h2⟩ | ⟨x', y, h1, h2, h3⟩
    · rw [h1] at hc; cases hc
    · rw [h1] at hc; cases hc
    · rw [h1] at hc
      cases hc
      obtain ⟨es, h4, h5, h6⟩ := h3.ok I W ok
      have ok1 := (run_ok I W h4 ok).1
      obtain ⟨gs, h7, h8⟩ := (nrun_flat I W left hf ok1).2
      have := (own_kept I W ok1 (h6 typ w rfl) h7 (h8 _ (hn _ rfl))).2
      simp only [MMsg.seen, Win.bytes]
      rw [show st'.h.mem w.arr = g.mem w.arr from this]

theorem ndoes_kept {st st' : NState Z} (ok : Ok st.line) {e : NEvent} (hd : NDoes I W left st e st') {a : Nat} (ha : a ∈ st.known)
    (hw : ¬ e.Writes a) (hl : ¬ e.ReadsLine) : st'.h.mem a = st.h.mem a ∧ a ∈ st'.known := by
  cases hd with
  | @line e s h =>
    refine ⟨does_kept I W ok h ha ?_, h.known I W ha⟩
    cases e with
    | call fuel c x =>
      simp only [Event.MayChange, not_or, not_and]
      refine ⟨hw, ?_⟩
      rintro rfl
      exact absurd trivial hl
    | make => simp [Event.MayChange]
    | write b => exact hw
  | read fuel c hc => exact absurd trivial hl
  | config dec n env => exact ⟨rfl, ha⟩

/-- **C80.** The error for a message of another type says the same until the next line is read, unless the program writes to the data
in the error itself. -/
theorem error_kept (s : Src) (h : Heap) (known : List Nat) (hk : ∀ a ∈ known, a < h.next) {es fs : List NEvent} {st st' : NState Z}
    (hr : NRuns I W left (nstart s h known) es st) {fuel : Nat} {c : MsgCall} {x t : Bytes} {w : Win} {r : MNReader Z} {g : Heap}
    {seen : List Nat} (hc : st.r.read I W left fuel st.h c = .val (.error (.unexpected x t w), r, g, seen))
    (hf : NRuns I W left ⟨r, g, seen ++ st.known, seen.head?.or st.last⟩ fs st')
    (hw : ∀ f ∈ fs, ¬ f.Writes w.arr) (hl : ∀ f ∈ fs, ¬ f.ReadsLine) :
    (MErr.unexpected x t w).seen st'.h = (MErr.unexpected x t w).seen g := by
  have ok := (nrun_flat I W left hr (nstart_ok s h known hk)).1
  rcases (read_sim I W left fuel st ok c).cases with ⟨h1, h2⟩ | ⟨h1, h2⟩ | ⟨x', y, h1, h2, h3⟩
  · rw [h1] at hc; cases hc
  · rw [h1] at hc; cases hc
  · rw [h1] at hc
    cases hc
    obtain ⟨es, h4, -, -⟩ := h3.ok I W ok
    have ok1 := (run_ok I W h4 ok).1
    obtain ⟨-, es', h', o, -, -, h7, -⟩ := h3
    have hin := ok1.lastIn w.arr ((h7 _ rfl).2 x t w rfl)
    suffices st'.h.mem w.arr = g.mem w.arr ∧ w.arr ∈ st'.known by simp only [MErr.seen, Win.bytes, this.1]
    clear h1 h2 h7 h4
    have ok1 : Ok (NState.line ⟨r, g, seen ++ st.known, seen.head?.or st.last⟩) := ok1
    have hin : w.arr ∈ seen ++ st.known := hin
    induction hf with
    | nil => exact ⟨rfl, hin⟩
    | @snoc sb sc fs f hrun hd ih =>
      obtain ⟨ih1, ih2⟩ := ih (fun f hf => hw f (by simp [hf])) (fun f hf => hl f (by simp [hf]))
      have := ndoes_kept I W left (nrun_flat I W left hrun ok1).1 hd ih2 (hw f (by simp)) (hl f (by simp))
      exact ⟨this.1.trans ih1, this.2⟩

/-! ### Examples -/

section

attribute [local instance] basicEntities

/-- What the program of the examples reads: two commands that are not known. -/
def src0 : Src := [⟨b!"$Foo xyz|$Bar uvwxyz|", none⟩]

/-- Failed decodings leave the message as it was. -/
def keep : Codec → Msg → Bytes → Msg := fun _ m _ => m

/-- The message that the first read returns, as it is seen then and after the second read. -/
def firstMsg : Option (Option Msg × Option Msg) :=
  match (nstart src0 mem0 [0] : NState Bool).r.read LineReader.toy world0 keep 20 (nstart (Z := Bool) src0 mem0 [0]).h .any with
  | .val (.ok m, r, h, _) => match r.read LineReader.toy world0 keep 20 h .any with
    | .val (.ok _, _, h', _) => some (m.map (MMsg.seen h), m.map (MMsg.seen h'))
    | _ => none
  | _ => none

/-- The message is kept although the line it came from is overwritten. -/
example : firstMsg = some (some (.raw b!"Foo" b!"xyz"), some (.raw b!"Foo" b!"xyz")) := by with_unfolding_all rfl

/-- The error of a read that expects a chat message, as it is seen then and after the second read. -/
def firstErr : Option (Err × Err) :=
  match (nstart src0 mem0 [0] : NState Bool).r.read LineReader.toy world0 keep 20 (nstart (Z := Bool) src0 mem0 [0]).h (.to (.chat {})) with
  | .val (.error e, r, h, _) => match r.read LineReader.toy world0 keep 20 h .any with
    | .val (.ok _, _, h', _) => some (e.seen h, e.seen h')
    | _ => none
  | _ => none

/-- **The error is lost** when the next line is read: the command in `ErrUnexpectedCommand` is a part of the line. -/
theorem error_lost : firstErr = some (.unexpectedCommand [] b!"Foo" b!"xyz", .unexpectedCommand [] b!"Foo" b!"uvw") := by
  with_unfolding_all rfl

/-- There are runs with messages of both kinds, in which the program overwrites a line. -/
example : ∃ (es : List NEvent) (st : NState Bool), NRuns LineReader.toy world0 keep (nstart src0 mem0 [0]) es st ∧ es.length = 3 ∧
    ∀ e ∈ es, e.ReadsLine ∨ ∃ a, e = .line (.write a) := by
  have h1 : ∃ x r h seen, (nstart src0 mem0 [0] : NState Bool).r.read LineReader.toy world0 keep 20 (nstart (Z := Bool) src0 mem0 [0]).h
      (.to (.chat {})) = .val (x, r, h, seen) ∧ 2 ∈ seen ∧ ∃ x' r' h' seen', r.read LineReader.toy world0 keep 20 (h.set 2 b!"zz") .any =
        .val (x', r', h', seen') := ⟨_, _, _, _, by with_unfolding_all rfl, by decide, _, _, _, _, by with_unfolding_all rfl⟩
  obtain ⟨x, r, h, seen, h1, h2, x', r', h', seen', h3⟩ := h1
  have n1 := NDoes.read (I := LineReader.toy) (W := world0) (left := keep) 20 (.to (.chat {})) h1
  have n2 := NRuns.snoc (.snoc (.snoc .nil n1) (.line (.write 2 b!"zz" (by simp [NState.line, h2])))) (.read 20 .any h3)
  refine ⟨_, _, n2, rfl, ?_⟩
  simp [NEvent.ReadsLine]

end

end Verif.Props.NmdcMemory
