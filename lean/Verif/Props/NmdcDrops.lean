import Verif.Props.NmdcReaderHooks
import Verif.Props.NmdcConn

/-!
# C62, C63: exactly what a refused message does
-/

namespace Verif.Props.NmdcDrops

open Verif Verif.Go Verif.Lineproto Verif.Nmdc Verif.Spec Verif.Props.NmdcReader Verif.Props.NmdcReaderHooks

section reading

variable [HtmlEntities] {Z : Type} (I : Inflater Z) (left : Codec → Msg → Bytes → Msg)

/-- The message that a line is decoded into when none is given. -/
def freshFor : Verdict → Msg
  | .command typ _ => newMessage typ
  | _ => .chat {}

/-- The bytes that are decoded. -/
def payload : Verdict → Bytes
  | .command _ args => args
  | .chat text => text
  | .violation => []

/-- The message has the type of the line. -/
def Fits (m : Msg) : Verdict → Prop
  | .command typ _ => m.isChat = false ∧ m.typ = typ
  | .chat _ => m.isChat = true
  | .violation => False

/-- A target that a read call starts with: none, or a message of the type of the line. -/
def Target (cur : Option Msg) (v : Verdict) (out : Msg) : Prop :=
  v ≠ .violation ∧ (cur = none ∧ out = freshFor v ∨ cur = some out ∧ Fits out v)

/-- The line is decoded into its target. -/
theorem round_target {E : Env} {r : NReader Z} {cur : Option Msg} {l : Bytes} {v : Verdict} {out : Msg} (hv : LineIs r.maxCmdName l v)
    (hraw : rawVerdict E v = .accept) (ht : Target cur v out) :
    round E left r.maxCmdName (l, none) (r.start cur []) = decodeInto E left l.dropLast (payload v) out ⟨r.dec, r.dec, some out, [], none⟩ := by
  obtain ⟨hne, ht⟩ := ht
  cases v with
  | violation => exact absurd rfl hne
  | command typ args =>
    rw [round_command hv hraw]
    rcases ht with ⟨rfl, rfl⟩ | ⟨rfl, h1, h2⟩
    · simp [targetCmd, NReader.start, freshFor, payload]
    · simp [targetCmd, NReader.start, payload, h1, h2]
  | chat text =>
    rw [round_chat hv hraw]
    rcases ht with ⟨rfl, rfl⟩ | ⟨rfl, h1⟩
    · simp [targetChat, NReader.start, freshFor, payload]
    · simp only [Fits] at h1
      simp [targetChat, NReader.start, payload, h1]

/-- How a read call goes on after a line that it skips. -/
theorem goes_on (E : Env) (r : NReader Z) (henv : r.env = fun _ => E) (res0 : Bytes × Option Err) (lr : Reader Z) (hr : Lines I r [res0] lr)
    {cur : Option Msg} {m : Msg} (hround : round E left r.maxCmdName res0 (r.start cur []) = .again ⟨r.dec, r.dec, some m, [], none⟩)
    {e : Option Err} {m' : Msg} {r' : NReader Z} (h : ReadsTo I left { r with lines := lr } m e m' r') :
    ∃ n, ∀ fuel ≥ n, ∃ st, NReader.loop I left fuel 0 r (r.start cur []) = .val (e, st, r') ∧ st.cur = some m' := by
  obtain ⟨n, hn⟩ := h
  cases hr with
  | line _ r1 _ _ _ hl ht =>
    cases ht
    obtain ⟨k, hk⟩ := hl
    refine ⟨n + k + 1, fun fuel hf => ?_⟩
    obtain ⟨f, rfl⟩ : ∃ f, fuel = f + 1 := ⟨fuel - 1, by omega⟩
    have := hn f (by omega)
    unfold NReader.readMsgTo at this
    simp only at this
    rw [NReader.loop, hk f (by omega)]
    have h' : round (r.env 0) left r.maxCmdName res0 (r.start cur []) = .again ⟨r.dec, r.dec, some m, [], none⟩ := by
      rw [henv]; exact hround
    simp only [h']
    rw [loop_const I left E f (0 + 1) 0 _ _ (by exact henv)]
    have hs : ({ r with lines := lr } : NReader Z).start (some m) [] = ⟨r.dec, r.dec, some m, [], none⟩ := rfl
    rw [hs] at this
    split at this
    · rename_i e1 st1 r1 hl1
      simp only [Exec.val.injEq, Prod.mk.injEq] at this
      obtain ⟨rfl, h2, rfl⟩ := this
      exact ⟨st1, hl1, h2⟩
    · cases this
    · cases this

theorem reads_of {r r' : NReader Z} {e : Option Err} {m' : Msg}
    (h : ∃ n, ∀ fuel ≥ n, ∃ st, NReader.loop I left fuel 0 r (r.start none []) = .val (e, st, r') ∧ st.cur = some m') :
    Reads I left r (e.elim (.ok (some m')) .error) r' := by
  obtain ⟨n, hn⟩ := h
  refine ⟨n, fun fuel hf => ?_⟩
  obtain ⟨st, h1, h2⟩ := hn fuel hf
  unfold NReader.readMsg
  rw [h1]
  cases e with
  | none => simp only [h2]; rfl
  | some e => rfl

theorem readsTo_of {r r' : NReader Z} {m : Msg} {e : Option Err} {m' : Msg}
    (h : ∃ n, ∀ fuel ≥ n, ∃ st, NReader.loop I left fuel 0 r (r.start (some m) []) = .val (e, st, r') ∧ st.cur = some m') :
    ReadsTo I left r m e m' r' := by
  obtain ⟨n, hn⟩ := h
  refine ⟨n, fun fuel hf => ?_⟩
  obtain ⟨st, h1, h2⟩ := hn fuel hf
  simp only [NReader.readMsgTo, h1, h2]

theorem round_dropped {E : Env} {r : NReader Z} {cur : Option Msg} {l : Bytes} {v : Verdict} {out m : Msg} (hv : LineIs r.maxCmdName l v)
    (hraw : rawVerdict E v = .accept) (ht : Target cur v out) (hu : out.unmarshal r.dec (payload v) = .ok m)
    (hdrop : runAll m E.msgHooks = .drop) :
    round E left r.maxCmdName (l, none) (r.start cur []) = .again ⟨r.dec, r.dec, some m, [], none⟩ := by
  rw [round_target left hv hraw ht]
  have hf : ∀ st, fallback E left (payload v) none m st = some (.ok (none, m, st)) := by
    intro st; unfold fallback; cases E.unknownEnc <;> rfl
  simp only [decodeInto, tryUnmarshal, hu, St.put, hf, afterDecode, hdrop]

theorem round_undecodable {E : Env} {r : NReader Z} {cur : Option Msg} {l : Bytes} {v : Verdict} {out : Msg} {e : Err} {e' : Option Err}
    {f : Bytes → Err → Bool × Option Err} (hE : E.unknownEnc = none) (hv : LineIs r.maxCmdName l v)
    (hraw : rawVerdict E v = .accept) (ht : Target cur v out) (hu : out.unmarshal r.dec (payload v) = .err e)
    (hf : E.unmarshalErr = some f) (hskip : f l.dropLast e = (false, e')) :
    round E left r.maxCmdName (l, none) (r.start cur []) = .again ⟨r.dec, r.dec, some (left r.dec out (payload v)), [], none⟩ := by
  rw [round_target left hv hraw ht]
  simp only [decodeInto, tryUnmarshal, hu, St.put, fallback, hE, afterDecode, hf, hskip]

/-- **C62, exactly: a message that an `OnMessage` callback refuses.** `ReadMsg` then does what `ReadMsgTo` with the refused message
does on the rest of the stream: it takes messages of that type only, and decodes them into it. -/
theorem dropped_readMsg (E : Env) (r : NReader Z) (henv : r.env = fun _ => E) (l : Bytes) (v : Verdict) (hv : LineIs r.maxCmdName l v)
    (hne : v ≠ .violation) (hraw : rawVerdict E v = .accept) (lr : Reader Z) (hr : Lines I r [(l, none)] lr) {m : Msg}
    (hu : (freshFor v).unmarshal r.dec (payload v) = .ok m) (hdrop : runAll m E.msgHooks = .drop)
    {e : Option Err} {m' : Msg} {r' : NReader Z} (h : ReadsTo I left { r with lines := lr } m e m' r') :
    Reads I left r (e.elim (.ok (some m')) .error) r' :=
  reads_of I left (goes_on I left E r henv _ lr hr (round_dropped left hv hraw ⟨hne, .inl ⟨rfl, rfl⟩⟩ hu hdrop) h)

/-- **C62, exactly:** so does `ReadMsgTo`. -/
theorem dropped_readMsgTo (E : Env) (r : NReader Z) (henv : r.env = fun _ => E) (l : Bytes) (v : Verdict) (hv : LineIs r.maxCmdName l v)
    (hne : v ≠ .violation) (hraw : rawVerdict E v = .accept) (lr : Reader Z) (hr : Lines I r [(l, none)] lr) {m0 m : Msg} (hfit : Fits m0 v)
    (hu : m0.unmarshal r.dec (payload v) = .ok m) (hdrop : runAll m E.msgHooks = .drop)
    {e : Option Err} {m' : Msg} {r' : NReader Z} (h : ReadsTo I left { r with lines := lr } m e m' r') :
    ReadsTo I left r m0 e m' r' :=
  readsTo_of I left (goes_on I left E r henv _ lr hr (round_dropped left hv hraw ⟨hne, .inr ⟨rfl, hfit⟩⟩ hu hdrop) h)

/-- **C62, exactly: a message that does not decode and that `OnUnmarshalError` skips.** `ReadMsg` goes on as `ReadMsgTo` with what the
decoder left in the message. -/
theorem skipped_readMsg (E : Env) (hE : E.unknownEnc = none) (r : NReader Z) (henv : r.env = fun _ => E) (l : Bytes) (v : Verdict)
    (hv : LineIs r.maxCmdName l v) (hne : v ≠ .violation) (hraw : rawVerdict E v = .accept) (lr : Reader Z) (hr : Lines I r [(l, none)] lr)
    {e0 : Err} {e1 : Option Err} {f : Bytes → Err → Bool × Option Err} (hu : (freshFor v).unmarshal r.dec (payload v) = .err e0)
    (hf : E.unmarshalErr = some f) (hskip : f l.dropLast e0 = (false, e1))
    {e : Option Err} {m' : Msg} {r' : NReader Z} (h : ReadsTo I left { r with lines := lr } (left r.dec (freshFor v) (payload v)) e m' r') :
    Reads I left r (e.elim (.ok (some m')) .error) r' :=
  reads_of I left (goes_on I left E r henv _ lr hr (round_undecodable left hE hv hraw ⟨hne, .inl ⟨rfl, rfl⟩⟩ hu hf hskip) h)

/-- **C62, exactly:** so does `ReadMsgTo`. -/
theorem skipped_readMsgTo (E : Env) (hE : E.unknownEnc = none) (r : NReader Z) (henv : r.env = fun _ => E) (l : Bytes) (v : Verdict)
    (hv : LineIs r.maxCmdName l v) (hne : v ≠ .violation) (hraw : rawVerdict E v = .accept) (lr : Reader Z) (hr : Lines I r [(l, none)] lr)
    {m0 : Msg} (hfit : Fits m0 v)
    {e0 : Err} {e1 : Option Err} {f : Bytes → Err → Bool × Option Err} (hu : m0.unmarshal r.dec (payload v) = .err e0)
    (hf : E.unmarshalErr = some f) (hskip : f l.dropLast e0 = (false, e1))
    {e : Option Err} {m' : Msg} {r' : NReader Z} (h : ReadsTo I left { r with lines := lr } (left r.dec m0 (payload v)) e m' r') :
    ReadsTo I left r m0 e m' r' :=
  readsTo_of I left (goes_on I left E r henv _ lr hr (round_undecodable left hE hv hraw ⟨hne, .inr ⟨rfl, hfit⟩⟩ hu hf hskip) h)

omit [HtmlEntities] in
/-- A callback that drops every greeting but the last: `ReadMsg` drops two and returns the third. -/
example : letI := basicEntities
    let E : Env := { msgHooks := [fun m => if m = .name .hello b!"c" then .accept else .drop] }
    ∃ r', ({ newNReader [⟨b!"$Hello a|$Hello b|$Hello c|", none⟩] with env := fun _ => E } : NReader Bool).readMsg LineReader.toy (fun _ m _ => m) 10 =
      .val (.ok (some (.name .hello b!"c")), r') := ⟨_, rfl⟩

end reading

/-! ## The writer -/

section writing

variable {D : Type} (C : Deflater D)

/-- All callbacks accept the message. -/
def accepted (hooks : List (Msg → Hook)) (x : Msg × Order) : Bool :=
  match runAll x.1 hooks with
  | .accept => true
  | _ => false

/-- The error of the callback that refuses the first message that is refused. -/
def refusal (hooks : List (Msg → Hook)) (ms : List (Msg × Order)) : Option Err :=
  match ms.dropWhile (accepted hooks) with
  | [] => none
  | x :: _ =>
    match runAll x.1 hooks with
    | .fail e => some e
    | _ => none

/-- **C63, exactly.** `WriteMsg` writes the messages before the first that a callback refuses, as it would without callbacks, and
returns the error of that callback if it has one. What comes after is not written. -/
theorem writer_hooks_exact (ms : List (Msg × Order)) (w : NWriter D) (he : w.lines.err = none) :
    w.writeMsg C ms =
      match NWriter.writeMsg C (ms.takeWhile (accepted w.onMessage)) { w with onMessage := [] } with
      | .val (none, w1) => .val (refusal w.onMessage ms, { w1 with onMessage := w.onMessage })
      | .val (some e, w1) => .val (some e, { w1 with onMessage := w.onMessage })
      | .panic => .panic
      | .timeout => .timeout := by
  simp only [NWriter.writeMsg, he]
  clear he
  induction ms generalizing w with
  | nil => rfl
  | cons y ms ih =>
    obtain ⟨m, ord⟩ := y
    cases ha : runAll m w.onMessage with
    | fail e => simp [NWriter.writeLoop, ha, accepted, refusal]
    | drop => simp [NWriter.writeLoop, ha, accepted, refusal]
    | accept =>
      have hacc : accepted w.onMessage (m, ord) = true := by simp [accepted, ha]
      have hr : refusal w.onMessage ((m, ord) :: ms) = refusal w.onMessage ms := by
        unfold refusal
        rw [List.dropWhile_cons_of_pos hacc]
      rw [List.takeWhile_cons_of_pos hacc, hr]
      simp only [NWriter.writeLoop, ha, runAll]
      cases hm : marshalTo w.enc ord [] m with
      | panic => rfl
      | err e => rfl
      | ok l =>
        simp only
        cases hl : w.lines.writeLine C l with
        | panic => rfl
        | timeout => rfl
        | val v =>
          obtain ⟨e, lw⟩ := v
          cases e with
          | some e => rfl
          | none => exact ih { w with lines := lw }

/-- Three messages of which the second is refused: the first is written. -/
example : ∃ w' : NWriter Bool, (NWriter.writeMsg LineWriter.stored [(.noArgs .getPass, id), (.noArgs .badPass, id), (.noArgs .getPass, id)]
      { newNWriter 0 [] ⟨[], []⟩ with onMessage := [fun m => if m = .noArgs .badPass then .fail (.other 7) else .accept] }) = .val (some (.other 7), w') ∧
    refusal [fun m => if m = .noArgs .badPass then .fail (.other 7) else .accept] [(.noArgs .getPass, id), (.noArgs .badPass, id), (.noArgs .getPass, id)] =
      some (.other 7) := ⟨_, rfl, rfl⟩

end writing

end Verif.Props.NmdcDrops
