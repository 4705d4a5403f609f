import Verif.Nmdc.Own
import Verif.Props.NmdcConn

/-!
# Writing NMDC messages of the caller's own types (C107)

The method `MarshalNMDC` of a message is an arbitrary function: it may change the buffer in any way, fail at any point, or panic.
-/

namespace Verif.Props.NmdcOwnWriter

open Verif.Go Verif.Nmdc Verif.Lineproto
open Verif.Nmdc.Own (Out Op OWriter Ending)

variable {D : Type} (C : Deflater D)

/-! ## One message -/

theorem set_last {b : Bytes} (h : b ≠ []) : b.set (b.length - 1) delim = b.dropLast ++ [delim] := by
  obtain ⟨xs, x, rfl⟩ : ∃ xs x, b = xs ++ [x] := ⟨b.dropLast, b.getLast h, (List.dropLast_concat_getLast h).symm⟩
  rw [List.dropLast_concat, List.length_append, List.length_singleton, Nat.add_sub_cancel, List.set_append_right _ _ (Nat.le_refl _)]
  simp

theorem marshal_form (enc : Codec) (buf p : Bytes) (m : Out)
    (h : m.put enc (buf ++ msgHead m.typ) = (.ok (), buf ++ msgHead m.typ ++ p)) : Own.marshalTo enc buf m =
      if p = [] then (if buf ++ msgHead m.typ = [] then (.panic, []) else (.ok (), (buf ++ msgHead m.typ).dropLast ++ [delim]))
      else (.ok (), buf ++ msgHead m.typ ++ p ++ [delim]) := by
  unfold Own.marshalTo
  simp only [h]
  by_cases hp : p = []
  · subst hp
    rw [if_pos rfl, List.append_nil, if_pos rfl]
    by_cases hb : buf ++ msgHead m.typ = []
    · rw [if_pos hb, hb]; rfl
    · rw [if_neg hb, if_neg (by simpa using hb), set_last hb]
  · rw [if_neg hp, if_neg]
    rw [List.length_append (as := buf ++ msgHead m.typ)]
    have : p.length ≠ 0 := by simpa using hp
    omega

/-- **C107.** A message whose method adds the text `p` to the buffer: `MarshalTo` adds `$`, the name, a space, the text and the delimiter;
without a text there is no space, and a message without a name is its text alone.  A message with neither does not fit the format:
`MarshalTo` panics if the buffer is empty, and otherwise overwrites the last byte of what the buffer held before. -/
theorem line_form (enc : Codec) (buf p : Bytes) (m : Out)
    (h : m.put enc (buf ++ msgHead m.typ) = (.ok (), buf ++ msgHead m.typ ++ p)) :
    (m.typ ≠ [] → p ≠ [] → Own.marshalTo enc buf m = (.ok (), buf ++ b!"$" ++ m.typ ++ b!" " ++ p ++ b!"|")) ∧
    (m.typ ≠ [] → p = [] → Own.marshalTo enc buf m = (.ok (), buf ++ b!"$" ++ m.typ ++ b!"|")) ∧
    (m.typ = [] → p ≠ [] → Own.marshalTo enc buf m = (.ok (), buf ++ p ++ b!"|")) ∧
    (m.typ = [] → p = [] → buf = [] → Own.marshalTo enc buf m = (.panic, [])) ∧
    (m.typ = [] → p = [] → ∀ b c, buf = b ++ [c] → Own.marshalTo enc buf m = (.ok (), b ++ b!"|")) := by
  rw [marshal_form enc buf p m h]
  refine ⟨?_, ?_, ?_, ?_, ?_⟩
  · intro ht hp; simp [hp, ht, msgHead, delim]
  · intro ht hp
    have : (buf ++ msgHead m.typ).dropLast = buf ++ b!"$" ++ m.typ := by
      simp only [msgHead, if_neg ht]
      rw [← List.append_assoc, List.dropLast_concat, List.append_assoc]
    rw [if_pos hp, if_neg (by simp [msgHead, ht]), this]
    rfl
  · intro ht hp; simp [hp, ht, msgHead, delim]
  · intro ht hp hb; simp [hp, ht, hb, msgHead]
  · intro ht hp b c hb; simp [hp, ht, hb, msgHead, delim]

/-- A message whose method fails: `MarshalTo` and `Marshal` return its error. -/
theorem failed (enc : Codec) (buf : Bytes) (m : Out) (e : Err) (b : Bytes) (h : m.put enc (buf ++ msgHead m.typ) = (.err e, b)) :
    Own.marshalTo enc buf m = (.err e, b) ∧ (buf = [] → Own.marshal enc m = .err e) := by
  have h1 : Own.marshalTo enc buf m = (.err e, b) := by unfold Own.marshalTo; simp only [h]
  refine ⟨h1, fun hb => ?_⟩
  subst hb
  unfold Own.marshal
  rw [h1]

/-- For the messages of the package this is the encoding of `Nmdc/Message`. -/
theorem known_message [HtmlEntities] (enc : Codec) (buf : Bytes) (m : Msg) (ord : Order) :
    match marshalTo enc ord buf m with
    | .ok l => Own.marshalTo enc buf (Out.std m ord) = (.ok (), l)
    | .err e => (Own.marshalTo enc buf (Out.std m ord)).1 = .err e
    | .panic => (Own.marshalTo enc buf (Out.std m ord)).1 = .panic := by
  unfold marshalTo
  cases hm : m.marshal enc ord with
  | err e => simp [bind, Res.bind, Own.marshalTo, Out.std, hm]
  | panic => simp [bind, Res.bind, Own.marshalTo, Out.std, hm]
  | ok p =>
    have h := marshal_form enc buf p (Out.std m ord) (by simp [Out.std, hm])
    have ht : (Out.std m ord).typ = m.typ := rfl
    rw [ht] at h
    rw [h]
    simp only [bind, Res.bind, finishMsg]
    by_cases hp : p = []
    · rw [if_pos hp, if_pos hp]
      by_cases hb : buf ++ msgHead m.typ = []
      · rw [if_pos hb, if_pos hb]
      · rw [if_neg hb, if_neg hb]
    · rw [if_neg hp, if_neg hp]

/-! ## Calls -/

/-- Whatever a method does to the buffer before it fails or panics, and whatever hooks there are, the line writer and all that it has sent
stay as they are, and so do the hooks and the encoding; the call returns the error or panics. -/
theorem refused (w : OWriter D) (m : Out) (ms : List Out) (herr : w.lines.err = none) (hh : runAll m w.onMessage = .accept) :
    (∀ e b, Own.marshalTo w.enc [] m = (.err e, b) → w.writeMsg C (m :: ms) = .val (.ret (some e), { w with mbuf := b })) ∧
    (∀ b, Own.marshalTo w.enc [] m = (.panic, b) → w.writeMsg C (m :: ms) = .val (.panic, { w with mbuf := b })) := by
  refine ⟨fun e b h => ?_, fun b h => ?_⟩ <;> simp only [OWriter.writeMsg, herr, OWriter.writeLoop, hh, h]

/-- A message that can be encoded: the line writer is given the result of `Marshal`, and the other messages follow. -/
theorem accepted (w : OWriter D) (m : Out) (ms : List Out) (herr : w.lines.err = none) (hh : runAll m w.onMessage = .accept) (l : Bytes)
    (hl : Own.marshal w.enc m = .ok l) (lw : Writer D) :
    (w.lines.writeLine C l = .val (none, lw) → w.writeMsg C (m :: ms) = OWriter.writeLoop C ms { w with lines := lw, mbuf := l }) ∧
    (∀ e, w.lines.writeLine C l = .val (some e, lw) →
      w.writeMsg C (m :: ms) = .val (.ret (some e), { w with lines := lw, mbuf := l })) := by
  have h : Own.marshalTo w.enc [] m = (.ok (), l) := by
    unfold Own.marshal at hl
    cases hr : Own.marshalTo w.enc [] m with
    | mk res b => rw [hr] at hl; cases res <;> cases hl; rfl
  refine ⟨fun h' => ?_, fun e h' => ?_⟩ <;> simp only [OWriter.writeMsg, herr, OWriter.writeLoop, hh, h, h']

/-- The hooks of a writer are asked in the order in which they were added.  The first that does not accept the message ends the call, and
nothing of the message and of those after it is written; if all accept it, the message is written as without hooks. -/
theorem hooks (w : OWriter D) (hw : w.onMessage = []) (herr : w.lines.err = none) (hs : List (Out → Hook)) (m : Out) (ms : List Out) :
    ∃ es w1, OWriter.run C (hs.map .onMessage) w = .val (es, w1) ∧ (∀ e ∈ es, e = .ret none) ∧ w1 = { w with onMessage := w1.onMessage } ∧
    (∀ pre h post, hs = pre ++ h :: post → (∀ g ∈ pre, g m = .accept) →
      (h m = .drop → w1.writeMsg C (m :: ms) = .val (.ret none, w1)) ∧
      (∀ e, h m = .fail e → w1.writeMsg C (m :: ms) = .val (.ret (some e), w1))) ∧
    ((∀ g ∈ hs, g m = .accept) →
      w1.writeMsg C [m] =
        match w.writeMsg C [m] with
        | .panic => .panic
        | .timeout => .timeout
        | .val (e, w2) => .val (e, { w2 with onMessage := w1.onMessage })) := by
  have hrun : ∀ (hs : List (Out → Hook)) (w : OWriter D), ∃ es, OWriter.run C (hs.map .onMessage) w =
      .val (es, { w with onMessage := w.onMessage ++ hs }) ∧ ∀ e ∈ es, e = Ending.ret none := by
    intro hs
    induction hs with
    | nil => intro w; exact ⟨[], by simp [OWriter.run], by simp⟩
    | cons h hs ih =>
      intro w
      obtain ⟨es, he, hes⟩ := ih { w with onMessage := w.onMessage ++ [h] }
      refine ⟨.ret none :: es, ?_, ?_⟩
      · simp only [List.map_cons, OWriter.run, OWriter.step, he]
        simp
      · intro e h'
        rcases List.mem_cons.mp h' with rfl | h'
        · rfl
        · exact hes e h'
  obtain ⟨es, he, hes⟩ := hrun hs w
  refine ⟨es, _, he, hes, rfl, ?_, ?_⟩
  · intro pre h post hh hpre
    have hr : runAll m hs = runAll m (h :: post) := by
      rw [hh]
      clear hh he
      induction pre with
      | nil => rfl
      | cons g pre ih =>
        rw [List.cons_append, runAll, hpre g (by simp)]
        exact ih fun g hg => hpre g (by simp [hg])
    refine ⟨fun hd => ?_, fun e hd => ?_⟩ <;>
      simp only [OWriter.writeMsg, herr, OWriter.writeLoop, hw, List.nil_append, hr, runAll, hd]
  · intro hall
    have hr : runAll m hs = .accept := by
      clear he
      induction hs with
      | nil => rfl
      | cons g hs ih =>
        rw [runAll, hall g (by simp)]
        exact ih fun g hg => hall g (by simp [hg])
    have h0 : runAll m w.onMessage = .accept := by rw [hw]; rfl
    simp only [OWriter.writeMsg, herr, OWriter.writeLoop, hw, List.nil_append, hr]
    have h0 : runAll m ([] : List (Out → Hook)) = .accept := rfl
    rw [h0]
    simp only
    cases hm : Own.marshalTo w.enc [] m with
    | mk res b =>
      cases res with
      | ok _ =>
        simp only
        cases hl : w.lines.writeLine C b with
        | panic => rfl
        | timeout => rfl
        | val y => obtain ⟨e, lw⟩ := y; cases e <;> rfl
      | err e => rfl
      | panic => rfl

/-- The method of the message only adds to the buffer. -/
def Adds (m : Out) : Prop := ∀ enc, ∃ p, (m.put enc (msgHead m.typ)).2 = msgHead m.typ ++ p

/-- The text of a message that can be encoded. -/
def text (enc : Codec) (m : Out) : Option Bytes :=
  match (Own.marshalTo enc [] m).1 with
  | .ok _ => some ((m.put enc (msgHead m.typ)).2.drop (msgHead m.typ).length)
  | _ => none

/-- The messages of a call up to the first that cannot be encoded, as raw messages with the same names and texts. -/
def rawBatch (enc : Codec) : List Out → List (Msg × Order)
  | [] => []
  | m :: ms =>
    match text enc m with
    | some p => (.raw m.typ p, id) :: rawBatch enc ms
    | none => []

/-- How the call ends if the connection does not fail: with the first message that cannot be encoded. -/
def ends (enc : Codec) : List Out → Ending
  | [] => .ret none
  | m :: ms =>
    match (Own.marshalTo enc [] m).1 with
    | .ok _ => ends enc ms
    | .err e => .ret (some e)
    | .panic => .panic

/-- The calls with raw messages in place of others. -/
def rawOps (enc : Codec) : List Op → List NOp
  | [] => []
  | .keepAlive :: ops => .keepAlive :: rawOps enc ops
  | .msgs ms :: ops => .msgs (rawBatch enc ms) :: rawOps enc ops
  | .flush :: ops => .flush :: rawOps enc ops
  | .zOn lvl :: ops => .zOn lvl :: rawOps enc ops
  | .zOff :: ops => .zOff :: rawOps enc ops
  | .close :: ops => .close :: rawOps enc ops
  | .onMessage _ :: ops => .flush :: rawOps enc ops
  | .setEncoder enc' :: ops => .setEncoder enc' :: rawOps enc' ops

/-- How the calls end, if those with raw messages return `es`. -/
def endings (enc : Codec) : List Op → List (Option Err) → List Ending
  | .msgs ms :: ops, none :: es => ends enc ms :: endings enc ops es
  | .setEncoder enc' :: ops, e :: es => .ret e :: endings enc' ops es
  | _ :: ops, e :: es => .ret e :: endings enc ops es
  | _, _ => []

/-- The messages given to these calls. -/
def given : List Op → List Out
  | [] => []
  | .msgs ms :: ops => ms ++ given ops
  | _ :: ops => given ops

/-- The calls register no hooks. -/
def NoHooks (ops : List Op) : Prop := ∀ h, Op.onMessage h ∉ ops

theorem adds_line {m : Out} (hm : Adds m) {enc : Codec} {buf : Bytes} (h : Own.marshalTo enc [] m = (.ok (), buf)) :
    ∃ p, text enc m = some p ∧ marshalTo enc id [] (.raw m.typ p) = .ok buf := by
  obtain ⟨p, hp⟩ := hm enc
  refine ⟨p, by simp [text, h, hp], ?_⟩
  unfold Own.marshalTo at h
  simp only [List.nil_append] at h
  have ht : marshalTo enc id [] (.raw m.typ p) = finishMsg (msgHead m.typ) p := rfl
  rw [ht]
  unfold finishMsg
  rw [← Prod.eta (m.put enc (msgHead m.typ)), hp] at h
  cases hr : (m.put enc (msgHead m.typ)).1 with
  | err e => rw [hr] at h; cases h
  | panic => rw [hr] at h; cases h
  | ok u =>
    rw [hr] at h
    simp only at h
    by_cases hp : p = []
    · subst hp
      rw [List.append_nil, if_pos rfl] at h
      rw [if_pos rfl]
      by_cases hb : msgHead m.typ = []
      · rw [hb] at h; cases h
      · rw [if_neg (by simpa using hb), set_last hb] at h
        rw [if_neg hb]
        cases h; rfl
    · have : p.length ≠ 0 := by simpa using hp
      rw [if_neg (by rw [List.length_append]; omega)] at h
      rw [if_neg hp]
      cases h; rfl

/-- The writer of raw messages on the same connection. -/
def raw (w : OWriter D) : NWriter D := ⟨w.lines, w.enc, []⟩

theorem loop_wire [HtmlEntities] (ms : List Out) (hm : ∀ m ∈ ms, Adds m) (w : OWriter D) (hh : w.onMessage = []) :
    match (raw w).writeLoop C (rawBatch w.enc ms) with
    | .panic => w.writeLoop C ms = .panic
    | .timeout => w.writeLoop C ms = .timeout
    | .val (e, nw) => nw.enc = w.enc ∧ nw.onMessage = [] ∧ ∃ b, w.writeLoop C ms =
        .val (match e with | none => ends w.enc ms | some e => .ret (some e), ⟨nw.lines, w.enc, [], b⟩) := by
  induction ms generalizing w with
  | nil =>
    simp only [rawBatch, NWriter.writeLoop, OWriter.writeLoop, ends]
    exact ⟨rfl, rfl, w.mbuf, by obtain ⟨a, b, c, d⟩ := w; cases hh; rfl⟩
  | cons m ms ih =>
    have hacc : runAll m w.onMessage = .accept := by rw [hh]; rfl
    cases hr : Own.marshalTo w.enc [] m with
    | mk res buf =>
      cases res with
      | err e =>
        simp only [rawBatch, text, hr, NWriter.writeLoop, OWriter.writeLoop, ends, hacc]
        exact ⟨rfl, rfl, buf, by obtain ⟨a, b, c, d⟩ := w; cases hh; rfl⟩
      | panic =>
        simp only [rawBatch, text, hr, NWriter.writeLoop, OWriter.writeLoop, ends, hacc]
        exact ⟨rfl, rfl, buf, by obtain ⟨a, b, c, d⟩ := w; cases hh; rfl⟩
      | ok u =>
        obtain ⟨p, hp1, hp2⟩ := adds_line (hm m (by simp)) hr
        have hacc' : runAll (Msg.raw m.typ p) (raw w).onMessage = .accept := rfl
        have henc : (raw w).enc = w.enc := rfl
        have hlin : (raw w).lines = w.lines := rfl
        simp only [rawBatch, hp1, NWriter.writeLoop, OWriter.writeLoop, ends, hr, hacc, hacc', henc, hlin, hp2]
        cases w.lines.writeLine C buf with
        | panic => rfl
        | timeout => rfl
        | val y =>
          obtain ⟨e, lw⟩ := y
          cases e with
          | some e => exact ⟨rfl, rfl, buf, by obtain ⟨a, b, c, d⟩ := w; cases hh; rfl⟩
          | none => exact ih (fun m' h => hm m' (by simp [h])) { w with lines := lw, mbuf := buf } hh

/-- **C107 (the bytes on the wire).** Any calls, with messages of any types whose methods only add to the buffer, some of which cannot be
encoded: the connection, with all that is sent on it, is what the same calls with raw messages of the same names and texts would make of it,
and the calls return what those would return; only a call with a message that cannot be encoded, when nothing else has failed before it,
returns the error of that message or panics as it does, after the messages before it have been written. -/
theorem same_wire [HtmlEntities] (ops : List Op) (hno : NoHooks ops) (hm : ∀ m ∈ given ops, Adds m) (w : OWriter D)
    (hh : w.onMessage = []) :
    match NWriter.run C (rawOps w.enc ops) (raw w) with
    | .panic => w.run C ops = .panic
    | .timeout => w.run C ops = .timeout
    | .val (es, nw) => ∃ b, w.run C ops = .val (endings w.enc ops es, ⟨nw.lines, nw.enc, [], b⟩) := by
  induction ops generalizing w with
  | nil =>
    simp only [rawOps, NWriter.run, OWriter.run, endings]
    exact ⟨w.mbuf, by obtain ⟨a, b, c, d⟩ := w; cases hh; rfl⟩
  | cons op ops ih =>
    have hno' : NoHooks ops := fun h hm => hno h (by simp [hm])
    have key : ∀ (nop : NOp) (enc' : Codec), rawOps w.enc (op :: ops) = nop :: rawOps enc' ops →
        (match (raw w).step C nop with
          | .panic => w.step C op = .panic
          | .timeout => w.step C op = .timeout
          | .val (e, nw) => nw.enc = enc' ∧ nw.onMessage = [] ∧ ∃ b x, w.step C op = .val (x, ⟨nw.lines, enc', [], b⟩) ∧
              ∀ es, endings w.enc (op :: ops) (e :: es) = x :: endings enc' ops es) →
        (∀ m ∈ given ops, Adds m) →
        match NWriter.run C (rawOps w.enc (op :: ops)) (raw w) with
        | .panic => w.run C (op :: ops) = .panic
        | .timeout => w.run C (op :: ops) = .timeout
        | .val (es, nw) => ∃ b, w.run C (op :: ops) = .val (endings w.enc (op :: ops) es, ⟨nw.lines, nw.enc, [], b⟩) := by
      intro nop enc' h1 h2 h3
      rw [h1]
      simp only [NWriter.run, OWriter.run]
      cases hs : (raw w).step C nop with
      | panic => rw [hs] at h2; simp only at h2; rw [h2]
      | timeout => rw [hs] at h2; simp only at h2; rw [h2]
      | val y =>
        obtain ⟨e, nw⟩ := y
        rw [hs] at h2
        obtain ⟨h4, h5, b, x, h6, h7⟩ := h2
        have := ih hno' h3 ⟨nw.lines, enc', [], b⟩ rfl
        have hraw : raw ⟨nw.lines, enc', [], b⟩ = nw := by
          obtain ⟨a, b, c⟩ := nw
          cases h4; cases h5; rfl
        simp only [h6]
        rw [hraw] at this
        cases hr : NWriter.run C (rawOps enc' ops) nw with
        | panic => rw [hr] at this; simp only at this; simp only [this]
        | timeout => rw [hr] at this; simp only at this; simp only [this]
        | val y =>
          obtain ⟨es, nw'⟩ := y
          rw [hr] at this
          obtain ⟨b', hb'⟩ := this
          simp only [hb', h7]
          exact ⟨b', rfl⟩
    have lifted : ∀ (x : Exec (Option Err × Writer D)),
        match (raw w).lift x with
          | .panic => w.lift x = .panic
          | .timeout => w.lift x = .timeout
          | .val (e, nw) => nw.enc = w.enc ∧ nw.onMessage = [] ∧ w.lift x = .val (.ret e, ⟨nw.lines, w.enc, [], w.mbuf⟩) := by
      intro x
      cases x with
      | panic => rfl
      | timeout => rfl
      | val y =>
        obtain ⟨e, lw⟩ := y
        refine ⟨rfl, rfl, ?_⟩
        obtain ⟨a, b, c, d⟩ := w
        cases hh; rfl
    have fin : ∀ (x : Exec (Option Err × Writer D)), (∀ e es, endings w.enc (op :: ops) (e :: es) = .ret e :: endings w.enc ops es) →
        match (raw w).lift x with
          | .panic => w.lift x = .panic
          | .timeout => w.lift x = .timeout
          | .val (e, nw) => nw.enc = w.enc ∧ nw.onMessage = [] ∧ ∃ b y, w.lift x = .val (y, ⟨nw.lines, w.enc, [], b⟩) ∧
              ∀ es, endings w.enc (op :: ops) (e :: es) = y :: endings w.enc ops es := by
      intro x he
      have := lifted x
      cases hx : (raw w).lift x with
      | panic => rw [hx] at this; exact this
      | timeout => rw [hx] at this; exact this
      | val y =>
        obtain ⟨e, nw⟩ := y
        rw [hx] at this
        exact ⟨this.1, this.2.1, w.mbuf, .ret e, this.2.2, he e⟩
    cases op with
    | keepAlive => exact key .keepAlive w.enc rfl (fin (w.lines.writeLine C [delim]) (fun e es => by cases e <;> rfl)) hm
    | flush => exact key .flush w.enc rfl (fin (w.lines.flush C) (fun e es => by cases e <;> rfl)) hm
    | zOff => exact key .zOff w.enc rfl (fin (w.lines.disableZlib C) (fun e es => by cases e <;> rfl)) hm
    | close => exact key .close w.enc rfl (fin (w.lines.close C) (fun e es => by cases e <;> rfl)) hm
    | onMessage h => exact absurd (List.mem_cons_self ..) (hno h)
    | setEncoder enc' =>
      refine key (.setEncoder enc') enc' rfl ?_ hm
      refine ⟨rfl, rfl, w.mbuf, .ret none, ?_, fun es => rfl⟩
      obtain ⟨a, b, c, d⟩ := w
      cases hh; rfl
    | zOn lvl =>
      refine key (.zOn lvl) w.enc rfl ?_ hm
      have hl : (raw w).lines = w.lines := rfl
      simp only [NWriter.step, OWriter.step, NWriter.zOn, OWriter.zOn, hl]
      cases w.lines.writeLine C b!"$ZOn|" with
      | panic => rfl
      | timeout => rfl
      | val y =>
        obtain ⟨e, lw⟩ := y
        cases e with
        | some e => exact ⟨rfl, rfl, w.mbuf, .ret (some e), by obtain ⟨a, b, c, d⟩ := w; cases hh; rfl, fun es => rfl⟩
        | none =>
          simp only
          cases lw.enableZlib C lvl with
          | panic => rfl
          | timeout => rfl
          | val y =>
            obtain ⟨e, lw⟩ := y
            exact ⟨rfl, rfl, w.mbuf, .ret e, by obtain ⟨a, b, c, d⟩ := w; cases hh; rfl, fun es => by cases e <;> rfl⟩
    | msgs ms =>
      simp only [given, List.mem_append] at hm
      refine key (.msgs (rawBatch w.enc ms)) w.enc rfl ?_ (fun m h => hm m (.inr h))
      have hl : (raw w).lines = w.lines := rfl
      simp only [NWriter.step, OWriter.step, NWriter.writeMsg, OWriter.writeMsg, hl]
      cases w.lines.err with
      | some e => exact ⟨rfl, rfl, w.mbuf, .ret (some e), by obtain ⟨a, b, c, d⟩ := w; cases hh; rfl, fun es => rfl⟩
      | none =>
        simp only
        have := loop_wire C ms (fun m h => hm m (.inl h)) w hh
        cases hx : (raw w).writeLoop C (rawBatch w.enc ms) with
        | panic => rw [hx] at this; exact this
        | timeout => rw [hx] at this; exact this
        | val y =>
          obtain ⟨e, nw⟩ := y
          rw [hx] at this
          obtain ⟨h1, h2, b, h3⟩ := this
          refine ⟨h1, h2, b, _, h3, fun es => ?_⟩
          cases e <;> rfl

/-! ## Cases -/

/-- A message of the caller: it writes a text and then ends. -/
def half (typ b : Bytes) (r : Res Unit := .ok ()) : Out := ⟨typ, fun _ buf => (r, buf ++ b)⟩

theorem half_adds (typ b : Bytes) (r : Res Unit) : Adds (half typ b r) := fun _ => ⟨b, rfl⟩

example : Own.marshalTo none b!"old" (half b!"Foo" b!"1") = (.ok (), b!"old$Foo 1|") := by decide +kernel
example : Own.marshalTo none b!"old" (half b!"Foo" b!"") = (.ok (), b!"old$Foo|") := by decide +kernel
example : Own.marshalTo none b!"old" (half b!"" b!"") = (.ok (), b!"ol|") := by decide +kernel
example : Own.marshal none (half b!"" b!"") = .panic := by decide +kernel
example : Own.marshal none (half b!"Foo" b!"1" (.err (.other 900))) = .err (.other 900) := by decide +kernel

/-- A toy compressor is not needed: plain text. -/
def toyD : Deflater Unit := ⟨fun _ => .ok (), id, fun _ b => ((), [b], none), fun _ => ((), [], none), fun _ => ((), [], none)⟩

def ops0 : List Op :=
  [.msgs [half b!"Foo" b!"1", half b!"Bar" b!"2" (.err (.other 900)), half b!"Baz" b!"3"], .keepAlive, .msgs [half b!"Bar" b!"4" .panic],
   .msgs [half b!"Qux" b!"", half b!"" b!"hi"], .flush]

/-- A call that fails halfway, one that panics, and others. -/
example : (match (Own.newOWriter 64 [] ⟨[], []⟩ : OWriter Unit).run toyD ops0 with
    | .val (es, w) => some (es, w.lines.sink.sent)
    | _ => none) =
    some ([.ret (some (.other 900)), .ret none, .panic, .ret none, .ret none], b!"$Foo 1||$Qux|hi|") := by
  decide +kernel

/-- The assumptions of `same_wire` are met by these calls. -/
example : NoHooks ops0 ∧ (∀ m ∈ given ops0, Adds m) ∧ (rawOps none ops0).length = 5 := by
  refine ⟨by simp [NoHooks, ops0], ?_, rfl⟩
  intro m h
  simp [given, ops0] at h
  rcases h with rfl | rfl | rfl | rfl | rfl | rfl <;> exact half_adds _ _ _

/-- Hooks that disagree: the first decides. -/
example : (match (Own.newOWriter 64 [] ⟨[], []⟩ : OWriter Unit).run toyD
      [.onMessage fun m => if m.typ = b!"Foo" then .drop else .accept, .onMessage fun m => if m.typ = b!"Bar" then .accept else .fail (.other 7),
       .msgs [half b!"Foo" b!"1", half b!"Bar" b!"2"], .msgs [half b!"Bar" b!"3", half b!"Baz" b!"4"], .flush] with
    | .val (es, w) => some (es, w.lines.sink.sent)
    | _ => none) =
    some ([.ret none, .ret none, .ret none, .ret (some (.other 7)), .ret none], b!"$Bar 3|") := by
  decide +kernel

/-- A text with a delimiter is read as two messages. -/
theorem delimiter_forges : Own.marshal none (half b!"Foo" b!"1|$Kick bob") =
    .ok (b!"$Foo 1|" ++ b!"$Kick bob|") := by decide +kernel

end Verif.Props.NmdcOwnWriter
