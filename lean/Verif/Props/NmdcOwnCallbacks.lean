import Verif.Props.NmdcOwnReader

/-!
# Callbacks that see messages of the caller's own types (C108)

`OnMessage` and `OnUnmarshalError` of a reader, with messages of any types.
-/

namespace Verif.Props.NmdcOwnCallbacks

open Verif.Go Verif.Nmdc Verif.Lineproto Verif.Spec
open Verif.Nmdc.Own (OReader Types Methods)
open Verif.Props.NmdcReader (afterKeepAlives)
open Verif.Props.NmdcOwnReader
open Verif.Props.LineReader (chunks toy)

variable {M Z : Type} (I : Inflater Z) (T : Types M)

/-- `r.ReadMsg()` returns `res`. -/
def Reads (r : OReader M Z) (res : Except Err (Option M)) (r' : OReader M Z) : Prop :=
  ∃ n, ∀ fuel ≥ n, r.readMsg T I fuel = .val (res, r')

/-- What the hooks say about a message: they are asked in order, and the first that does not accept it decides. -/
inductive Asked (m : M) : List (M → Hook) → Hook → Prop where
  | all (hs : List (M → Hook)) (h : ∀ g ∈ hs, g m = .accept) : Asked m hs .accept
  | drop (pre : List (M → Hook)) (g : M → Hook) (post : List (M → Hook)) (h : ∀ g ∈ pre, g m = .accept) (hg : g m = .drop) :
      Asked m (pre ++ g :: post) .drop
  | fail (pre : List (M → Hook)) (g : M → Hook) (post : List (M → Hook)) (e : Err) (h : ∀ g ∈ pre, g m = .accept) (hg : g m = .fail e) :
      Asked m (pre ++ g :: post) (.fail e)

/-- The result of a call of `ReadMsg` that a call of `ReadMsgTo` would have ended with `e` and the message `m`. -/
def result (e : Option Err) (m : M) : Except Err (Option M) :=
  match e with
  | none => .ok (some m)
  | some e => .error e

/-- The call goes on with the next lines like a call of `ReadMsgTo(m)`. -/
def GoesOn (r : OReader M Z) (lr : Reader Z) (m : M) : Prop :=
  ∀ e m' r', ReadsTo I T { r with lines := lr } m e m' r' → Reads I T r (result e m') r'

/-- What the callbacks must make of a decoding that left `m`. -/
def Handled (E : Own.Env M) (r : OReader M Z) (lr : Reader Z) (orig : Bytes) (res : Res Unit) (m : M) : Prop :=
  match res with
  | .panic => ∃ n, ∀ fuel ≥ n, r.readMsg T I fuel = .panic
  | .ok _ => ∀ a, Asked m E.msgHooks a →
    match a with
    | .accept => Reads I T r (.ok (some m)) { r with lines := lr }
    | .fail e => Reads I T r (.error e) { r with lines := lr }
    | .drop => GoesOn I T r lr m
  | .err e =>
    match E.unmarshalErr with
    | none => Reads I T r (.error e) { r with lines := lr }
    | some f =>
      match f orig e with
      | (true, e') => Reads I T r (result e' m) { r with lines := lr }
      | (false, _) => GoesOn I T r lr m

theorem asked_runAll {m : M} {hs : List (M → Hook)} {a : Hook} (h : Asked m hs a) : runAll m hs = a := by
  have hpre : ∀ (pre post : List (M → Hook)), (∀ g ∈ pre, g m = .accept) → runAll m (pre ++ post) = runAll m post := by
    intro pre post
    induction pre with
    | nil => intro _; rfl
    | cons g pre ih =>
      intro h
      rw [List.cons_append, runAll, h g (by simp)]
      exact ih fun g hg => h g (by simp [hg])
  cases h with
  | all hs h => have := hpre hs [] h; rw [List.append_nil] at this; rw [this]; rfl
  | drop pre g post h hg => rw [hpre _ _ h, runAll, hg]
  | fail pre g post e h hg => rw [hpre _ _ h, runAll, hg]

theorem decode_callbacks (E : Own.Env M) (henc : E.unknownEnc = none) {orig args : Bytes} {m : M} {st : Own.St M} :
    Own.decodeInto T E orig args m st = match T.unmarshal st.dec args m with
      | (.ok _, m') => Own.afterDecode E orig none m' (st.put m')
      | (.err e, m') => Own.afterDecode E orig (some e) m' (st.put m')
      | (.panic, _) => .panic := by
  unfold Own.decodeInto Own.tryUnmarshal
  obtain ⟨res, m'⟩ := T.unmarshal st.dec args m
  cases res <;> simp [Own.fallback, henc]

/-- **C108 (callbacks).** `ReadMsg` on a reader with hooks for messages and a callback for failed decodings, after any keep-alives: a fresh
message of the type of the line (a chat message if it is not a command) is given the text.  If that succeeds, the hooks are asked in the
order in which they were added; the message is returned if all accept it, and the error of the first hook that fails.  If it fails, the callback
gets the line and the error, and its error is returned in place of it, or, if it has none, the message as the method left it.  If a hook drops
the message, or the callback tells to go on, the call reads on as `ReadMsgTo` would with this message: into the same value, and a line of another
type is an error. -/
theorem callbacks (E : Own.Env M) (hka : E.keepAlive = none) (hraw : E.rawHooks = []) (henc : E.unknownEnc = none) (r : OReader M Z)
    (henv : r.env = fun _ => E) (n : Nat) (l : Bytes) (hl : IsLine delim l) (v : Verdict) (hv : LineIs r.maxCmdName l v) (lr : Reader Z)
    (hr : Reader.Runs I r.lines ((afterKeepAlives n l).map Obs.line) lr) :
    match v with
    | .violation => Reads I T r (.error .protocolViolation) { r with lines := lr }
    | .command typ args => Handled I T E r lr l.dropLast (T.unmarshal r.dec args (T.new typ)).1 (T.unmarshal r.dec args (T.new typ)).2
    | .chat text => Handled I T E r lr l.dropLast (T.unmarshal r.dec text T.chat).1 (T.unmarshal r.dec text T.chat).2 := by
  have hround := round_of T E hraw hl hv (r.start none [])
  obtain ⟨h1, h2, h3⟩ := loop_line I T E hka r henv n l lr hr (r.start none []) rfl 0
  have fin : ∀ e st', Own.round T E r.maxCmdName (l, none) (r.start none []) = .ret e st' → st'.rdec = r.dec →
      Reads I T r (match e with | none => .ok st'.cur | some e => .error e) { r with lines := lr } := by
    intro e st' h hd
    obtain ⟨b, hb⟩ := h1 e st' h
    refine ⟨b, fun f hf => ?_⟩
    cases e <;> simp only [OReader.readMsg, hb f hf, hd]
  have finp : Own.round T E r.maxCmdName (l, none) (r.start none []) = .panic → ∃ n, ∀ fuel ≥ n, r.readMsg T I fuel = .panic := by
    intro h
    obtain ⟨b, hb⟩ := h2 h
    exact ⟨b, fun f hf => by simp only [OReader.readMsg, hb f hf]⟩
  have fina : ∀ m, Own.round T E r.maxCmdName (l, none) (r.start none []) = .again (r.start (some m) []) → GoesOn I T r lr m := by
    intro m h e m' r' ⟨b, hb⟩
    obtain ⟨b1, hb1⟩ := h3 _ h rfl
    refine ⟨b + b1, fun fuel hf => ?_⟩
    obtain ⟨f, hf', hl'⟩ := hb1 fuel (by omega)
    have := hb f (by omega)
    simp only [OReader.readMsgTo] at this
    have hst : ({ r with lines := lr } : OReader M Z).start (some m) [] = r.start (some m) [] := rfl
    rw [hst] at this
    simp only [OReader.readMsg, hl']
    cases hlp : OReader.loop T I f 0 { r with lines := lr } (r.start (some m) []) with
    | panic => rw [hlp] at this; cases this
    | timeout => rw [hlp] at this; cases this
    | val y =>
      obtain ⟨e1, st1, r1⟩ := y
      rw [hlp] at this
      simp only [Exec.val.injEq, Prod.mk.injEq] at this
      obtain ⟨rfl, hc, rfl⟩ := this
      cases e1 with
      | none => simp only [hc, result]
      | some e => rfl
  have handled : ∀ (res : Res Unit) (m : M), Own.round T E r.maxCmdName (l, none) (r.start none []) =
        (match (res, m) with
        | (.ok _, m') => Own.afterDecode E l.dropLast none m' (r.start (some m') [])
        | (.err e, m') => Own.afterDecode E l.dropLast (some e) m' (r.start (some m') [])
        | (.panic, _) => .panic) → Handled I T E r lr l.dropLast res m := by
    intro res m h
    cases res with
    | panic => exact finp h
    | ok u =>
      intro a ha
      simp only [Own.afterDecode, asked_runAll ha] at h
      cases a with
      | accept => exact fin _ _ h rfl
      | fail e => exact fin _ _ h rfl
      | drop => exact fina m h
    | err e =>
      simp only [Own.afterDecode] at h
      simp only [Handled]
      cases hf : E.unmarshalErr with
      | none => rw [hf] at h; exact fin _ _ h rfl
      | some f =>
        rw [hf] at h
        simp only at h ⊢
        cases hfe : f l.dropLast e with
        | mk b e' =>
          rw [hfe] at h
          cases b with
          | false => exact fina m h
          | true =>
            have := fin _ _ h rfl
            cases e' <;> exact this
  cases v with
  | violation => exact fin _ _ hround rfl
  | command typ args =>
    apply handled
    rw [hround]
    simp only [Own.targetCmd, OReader.start, decode_callbacks T E henc, Own.St.put]
  | chat text =>
    apply handled
    rw [hround]
    simp only [Own.targetChat, OReader.start, decode_callbacks T E henc, Own.St.put]

/-! ## A concrete case -/

attribute [local instance] basicEntities

/-- Three pings; a hook drops the second, and errors are waived. -/
def demoEnv : Own.Env (Msg ⊕ Bytes) where
  msgHooks := [fun m => if m = .inr b!"21" then .drop else .accept]
  unmarshalErr := some fun l _ => (l ≠ b!"$Ping", none)

def demo (text : Bytes) : OReader (Msg ⊕ Bytes) Bool := { (Own.newOReader (chunks [text]) : OReader (Msg ⊕ Bytes) Bool) with env := fun _ => demoEnv }

/-- The lines of the input are there to be read. -/
theorem demo_runs : ∃ lr, Reader.Runs toy (demo b!"|$Ping 12|$Ping|$Ping 34|").lines ((afterKeepAlives 1 b!"$Ping 12|").map Obs.line) lr := by
  obtain ⟨r', h⟩ := LineReader.readLine_chunk_independent toy (chunks [b!"|$Ping 12|$Ping|$Ping 34|"]) (by unfold LineReader.DataOnly; decide) delim
    (demo b!"|$Ping 12|$Ping|$Ping 34|").lines.maxLine 0 (.inr (by decide +kernel))
  have : (splitLines delim (LineReader.bytesOf (chunks [b!"|$Ping 12|$Ping|$Ping 34|"]))).1 =
      [b!"|", b!"$Ping 12|", b!"$Ping|", b!"$Ping 34|"] := by decide +kernel
  rw [this] at h
  obtain ⟨r1, h1, _⟩ := NmdcReader.runs_split toy (os := (afterKeepAlives 1 b!"$Ping 12|").map Obs.line) h
  exact ⟨r1, h1⟩

example : IsLine delim b!"$Ping 12|" ∧ LineIs 32 b!"$Ping 12|" (.command b!"Ping" b!"12") := by
  refine ⟨⟨b!"$Ping 12", by decide, rfl⟩, .command b!"Ping" b!"12" ⟨by decide, by decide, ?_⟩ (by decide)⟩
  unfold NameChar
  decide +kernel

/-- The first ping is dropped, the second is refused and waived, the third comes; the message is made only once. -/
example : (match (demo b!"|$Ping 12|$Ping|$Ping 34|").readMsg (ping.types Msg.left pingReg) toy 40 with
    | .val (.ok (some (.inr x)), _) => some x
    | _ => none) = some b!"43" := by
  with_unfolding_all rfl

/-- After a dropped message only messages of the same type are taken. -/
example : (match (demo b!"|$Ping 12|$Hello joe|").readMsg (ping.types Msg.left pingReg) toy 40 with
    | .val (.error e, _) => some e
    | _ => none) = some (.unexpectedCommand b!"Ping" b!"Hello" b!"joe") := by
  with_unfolding_all rfl

end Verif.Props.NmdcOwnCallbacks
