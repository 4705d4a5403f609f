import Verif.Lineproto.ReaderSafe
import Verif.Nmdc.Reader
import Verif.Adc.Conn
import Verif.Props.NmdcPanics
import Verif.Props.AdcPanics
import Verif.Props.LineReaderTotal

/-!
# C76, C77: the NMDC and ADC readers always return, and which lines make them panic

Models: `Verif/Nmdc/Reader.lean`, `Verif/Adc/Conn.lean`.
-/

namespace Verif.Props.ConnTotal

open Verif.Go Verif.Lineproto

variable {Z : Type} (I : Inflater Z)

/-! ## Specification -/

/-- `line` is one of the lines that the line reader returns when it is asked again and again. -/
inductive Delivers : Reader Z → Bytes → Prop where
  | now {r r' : Reader Z} {fuel : Nat} {line : Bytes} (h : r.readLine I fuel = .val ((line, none), r')) : Delivers r line
  | later {r r' : Reader Z} {fuel : Nat} {line other : Bytes} (h : r.readLine I fuel = .val ((other, none), r'))
    (h' : Delivers r' line) : Delivers r line

/-- A line reader that any history of calls has led to; the transport does not return `(0, nil)`, or decompression was not used
(see `LineReaderTotal.empty_read_panics`). -/
def Reached (delim : Byte) (r : Reader Z) : Prop :=
  ∃ (s : Src) (cs : List (Nat × LineReaderTotal.Call)), (s.NoEmpty ∨ ∀ c ∈ cs, ∀ sched, c.2 ≠ .enableZlib sched) ∧
    LineReaderTotal.history I cs (newReader s delim) = .val r

theorem reached_sound {delim : Byte} {r : Reader Z} (h : Reached I delim r) : r.Sound := by
  obtain ⟨s, cs, h1, h2⟩ := h
  refine (LineReaderTotal.history_sound I cs (newReader s delim) ⟨by simp [newReader], .inl rfl⟩ ?_).2 r h2
  rcases h1 with h1 | h1
  · left; intro b hb; cases hb; exact h1
  · right; exact ⟨rfl, h1⟩

/-! ## NMDC -/

section nmdc

open Verif.Nmdc

variable [HtmlEntities] (left : Codec → Msg → Bytes → Msg)

/-- A reading call of the NMDC reader. -/
inductive NCall where
  | readMsg
  | readMsgTo (m : Option Msg)
  | readMsgToAny (arr : List Msg)

/-- What the calls return; a message is given by its value after the call. -/
inductive NRet where
  | msg (m : Except Err (Option Msg))
  | to (e : Option Err) (m : Option Msg)
  | any (i : Except Err (Option Nat)) (arr : List Msg)

/-- A call and its result. -/
def ncall (fuel : Nat) (r : NReader Z) : NCall → Exec (NRet × NReader Z)
  | .readMsg => match r.readMsg I left fuel with
    | .val (m, r') => .val (.msg m, r')
    | .panic => .panic
    | .timeout => .timeout
  | .readMsgTo m => match r.readMsgTo I left fuel m with
    | .val (e, m, r') => .val (.to e m, r')
    | .panic => .panic
    | .timeout => .timeout
  | .readMsgToAny arr => match r.readMsgToAny I left fuel arr with
    | .val (i, arr, r') => .val (.any i arr, r')
    | .panic => .panic
    | .timeout => .timeout

theorem nloop_mono : ∀ (f k : Nat) (r : NReader Z) (st : St),
    Exec.Ext (NReader.loop I left f k r st) (NReader.loop I left (f + 1) k r st) := by
  intro f
  induction f with
  | zero => intro k r st; exact .inl rfl
  | succ f ih =>
    intro k r st
    rw [NReader.loop, NReader.loop]
    rcases readLine_mono I f r.lines with h | h
    · rw [h]; exact .inl rfl
    · rw [← h]
      split
      · exact .inr rfl
      · exact .inr rfl
      · split
        · exact .inr rfl
        · exact ih _ _ _
        · exact .inr rfl

/-- A round is repeated only after a line. -/
theorem round_again {env : Env} {mx : Int} {res : Bytes × Option Err} {st st' : St}
    (h : round env left mx res st = .again st') : res.2 = none := by
  unfold round at h
  split at h
  · cases h
  · assumption

theorem nloop_settles (lr : Reader Z) : ∀ (k : Nat) (r : NReader Z) (st : St), r.lines = lr →
    Settles fun f => NReader.loop I left f k r st := by
  induction lr using Reader.less_wf.induction with
  | _ lr ih =>
    intro k r st hr
    obtain ⟨k0, x, hx, hk⟩ := readLine_settles I r.lines
    dsimp only at hk
    cases x with
    | timeout => exact absurd rfl hx
    | panic =>
      refine settles_of (fun f => nloop_mono I left f k r st) (k := k0 + 1) ?_
      rw [NReader.loop, hk k0 (Nat.le_refl _)]
      simp
    | val y =>
      obtain ⟨⟨line, e⟩, lr'⟩ := y
      cases hround : round (r.env k) left r.maxCmdName (line, e) st with
      | ret e' st' =>
        refine settles_of (fun f => nloop_mono I left f k r st) (k := k0 + 1) ?_
        rw [NReader.loop, hk k0 (Nat.le_refl _)]
        simp [hround]
      | panic =>
        refine settles_of (fun f => nloop_mono I left f k r st) (k := k0 + 1) ?_
        rw [NReader.loop, hk k0 (Nat.le_refl _)]
        simp [hround]
      | again st' =>
        have he := round_again left hround
        have hless := (readLine_less I (hk k0 (Nat.le_refl _))).2 he
        obtain ⟨k1, x1, hx1, hk1⟩ := ih lr' (hr ▸ hless) (k + 1) { r with lines := lr', dec := st'.rdec } st' rfl
        dsimp only at hk1
        refine settles_of (fun f => nloop_mono I left f k r st) (k := max k0 k1 + 1) ?_
        rw [NReader.loop, hk _ (Nat.le_max_left _ _)]
        simp only [hround]
        rw [hk1 _ (Nat.le_max_right _ _)]
        exact hx1

/-- **C76, NMDC.** `ReadMsg`, `ReadMsgTo` and `ReadMsgToAny` return: for every state of the reader, every script of the transport
and all callbacks there is one outcome that is reached with any sufficient amount of work. -/
theorem nmdc_calls_return (r : NReader Z) (c : NCall) :
    ∃ enough outcome, outcome ≠ .timeout ∧ ∀ fuel ≥ enough, ncall I left fuel r c = outcome := by
  cases c with
  | readMsg =>
    obtain ⟨k, x, hx, hk⟩ := nloop_settles I left r.lines 0 r (r.start none []) rfl
    dsimp only at hk
    cases x with
    | timeout => exact absurd rfl hx
    | panic => exact ⟨k, .panic, by simp, fun f hf => by simp [ncall, NReader.readMsg, hk f hf]⟩
    | val y =>
      obtain ⟨e, st, r'⟩ := y
      cases e with
      | some e => exact ⟨k, .val (.msg (.error e), r'), by simp, fun f hf => by simp [ncall, NReader.readMsg, hk f hf]⟩
      | none => exact ⟨k, .val (.msg (.ok st.cur), r'), by simp, fun f hf => by simp [ncall, NReader.readMsg, hk f hf]⟩
  | readMsgTo m =>
    cases m with
    | none => exact ⟨0, .panic, by simp, fun f hf => by simp [ncall, NReader.readMsgTo]⟩
    | some m =>
      obtain ⟨k, x, hx, hk⟩ := nloop_settles I left r.lines 0 r (r.start (some m) []) rfl
      dsimp only at hk
      cases x with
      | timeout => exact absurd rfl hx
      | panic => exact ⟨k, .panic, by simp, fun f hf => by simp [ncall, NReader.readMsgTo, hk f hf]⟩
      | val y =>
        obtain ⟨e, st, r'⟩ := y
        exact ⟨k, .val (.to e st.cur, r'), by simp, fun f hf => by simp [ncall, NReader.readMsgTo, hk f hf]⟩
  | readMsgToAny arr =>
    cases arr with
    | nil => exact ⟨0, .panic, by simp, fun f hf => by simp [ncall, NReader.readMsgToAny]⟩
    | cons m ms =>
      obtain ⟨k, x, hx, hk⟩ := nloop_settles I left r.lines 0 r (r.start none (m :: ms)) rfl
      dsimp only at hk
      cases x with
      | timeout => exact absurd rfl hx
      | panic => exact ⟨k, .panic, by simp, fun f hf => by simp [ncall, NReader.readMsgToAny, hk f hf]⟩
      | val y =>
        obtain ⟨e, st, r'⟩ := y
        cases e with
        | some e => exact ⟨k, .val (.any (.error e) st.arr, r'), by simp, fun f hf => by simp [ncall, NReader.readMsgToAny, hk f hf]⟩
        | none => exact ⟨k, .val (.any (.ok st.hit) st.arr, r'), by simp, fun f hf => by simp [ncall, NReader.readMsgToAny, hk f hf]⟩

theorem try_none {dec : Codec} {out : Msg} {args : Bytes} {st : St} (h : tryUnmarshal left dec out args st = none) :
    (∃ s, out = .search s) ∧ NmdcPanics.FatalSearch dec args := by
  unfold tryUnmarshal at h
  split at h
  · cases h
  · cases h
  · rename_i hp
    exact NmdcPanics.decoders_panic_iff.mp hp

theorem try_some {dec : Codec} {out out' : Msg} {args : Bytes} {st st' : St} {e : Err}
    (h : tryUnmarshal left dec out args st = some (some e, out', st')) : out' = left dec out args := by
  unfold tryUnmarshal at h
  split at h
  · simp at h
  · simp only [Option.some.injEq, Prod.mk.injEq] at h; exact h.2.1.symm
  · cases h

theorem decodeInto_panic (hl : ∀ dec m d, (∃ s, left dec m d = .search s) → ∃ s, m = .search s)
    {env : Env} {ol args : Bytes} {out : Msg} {st : St} (h : decodeInto env left ol args out st = .panic) :
    (∃ s, out = .search s) ∧ ∃ dec, NmdcPanics.FatalSearch dec args ∨ NmdcPanics.FatalSearch dec (mapRunes args) := by
  unfold decodeInto at h
  split at h
  · rename_i ht
    obtain ⟨h1, h2⟩ := try_none left ht
    exact ⟨h1, _, .inl h2⟩
  · rename_i err out1 st1 ht
    split at h
    · rename_i hf
      unfold fallback at hf
      split at hf
      · rename_i f text he
        have ho := try_some left ht
        split at hf
        · cases hf
        · simp only [Option.map_eq_none_iff] at hf
          obtain ⟨h1, h2⟩ := try_none left hf
          exact ⟨hl _ _ _ (ho ▸ h1), _, .inr h2⟩
        · simp only [Option.map_eq_none_iff] at hf
          obtain ⟨h1, h2⟩ := try_none left hf
          exact ⟨hl _ _ _ (ho ▸ h1), _, .inl h2⟩
      · cases hf
    · cases h
    · unfold afterDecode at h
      split at h
      · split at h
        · cases h
        · split at h <;> cases h
      · split at h <;> cases h

omit [HtmlEntities] in
theorem targetCmd_typ {st st' : St} {typ args : Bytes} {out : Msg} (h : targetCmd st typ args = .ok (out, st')) :
    out.typ = typ := by
  unfold targetCmd at h
  simp only at h
  split at h
  · cases h
  · simp only [Except.ok.injEq, Prod.mk.injEq] at h
    rw [← h.1]
    exact NmdcMessages.newMessage_typ typ
  · split at h
    · cases h
    · split at h
      · cases h
      · rename_i ht
        simp only [Except.ok.injEq, Prod.mk.injEq] at h
        rw [← h.1]
        simpa using ht

omit [HtmlEntities] in
theorem targetChat_chat {st st' : St} {args : Bytes} {out : Msg} (h : targetChat st args = .ok (out, st')) :
    out.isChat = true := by
  unfold targetChat at h
  simp only at h
  split at h
  · cases h
  · simp only [Except.ok.injEq, Prod.mk.injEq] at h
    rw [← h.1]
    rfl
  · split at h
    · rename_i hc
      simp only [Except.ok.injEq, Prod.mk.injEq] at h
      rw [← h.1]
      exact hc
    · cases h

theorem not_fatal_nil {dec : Codec} : ¬ NmdcPanics.FatalSearch dec [] := by
  intro h
  have := NmdcPanics.search_panics_iff (m := {}) (dec := dec) |>.mpr h
  cases this

/-- What a panicking round means: the line is a search with a fatal payload. -/
theorem round_panic (hl : ∀ dec m d, (∃ s, left dec m d = .search s) → ∃ s, m = .search s)
    {env : Env} {mx : Int} {res : Bytes × Option Err} {st : St} (h : round env left mx res st = .panic) :
    res.2 = none ∧ ∃ args, res.1 = b!"$Search " ++ args ++ b!"|" ∧
      ∃ dec, NmdcPanics.FatalSearch dec args ∨ NmdcPanics.FatalSearch dec (mapRunes args) := by
  unfold round at h
  split at h
  · cases h
  · rename_i he
    refine ⟨he, ?_⟩
    split at h
    · cases h
    rename_i hlast
    split at h
    · cases h
    split at h
    · split at h <;> cases h
    simp only [ne_eq, Decidable.not_not] at hlast
    have hline : res.1 = res.1.dropLast ++ b!"|" := by
      rcases List.eq_nil_or_concat res.1 with e | ⟨l, x, e⟩
      · rw [e] at hlast; cases hlast
      · rw [e] at hlast ⊢
        rw [List.concat_eq_append, List.getLast?_concat] at hlast
        rw [List.concat_eq_append, List.dropLast_concat]
        cases hlast
        rfl
    unfold roundBody at h
    split at h
    · cases h
    rename_i b line hb
    split at h
    · rename_i hd
      subst hd
      split at h
      rename_i cmd args hc
      split at h
      · cases h
      · cases h
      · split at h
        · split at h
          · cases h
          · rename_i out st' ht
            obtain ⟨⟨s, rfl⟩, dec, hf⟩ := decodeInto_panic left hl h
            have hcmd : cmd = b!"Search" := (targetCmd_typ ht).symm
            subst hcmd
            refine ⟨args, ?_, dec, hf⟩
            rw [hline, hb]
            unfold splitCmd at hc
            split at hc
            · simp only [Prod.mk.injEq] at hc
              obtain ⟨-, rfl⟩ := hc
              rcases hf with hf | hf
              · exact absurd hf not_fatal_nil
              · exact absurd hf (not_fatal_nil)
            · rename_i i hi
              simp only [Prod.mk.injEq] at hc
              obtain ⟨a, b, rfl, -, rfl⟩ := indexByte_some hi
              have h1 : a = b!"Search" := by simpa using hc.1
              have h2 : b = args := by simpa [List.drop_append, List.drop_eq_nil_of_le (Nat.le_succ a.length)] using hc.2
              rw [h1, h2]
              simp
        · cases h
    · split at h
      · cases h
      · cases h
      · split at h
        · cases h
        · rename_i out st' ht
          obtain ⟨⟨s, rfl⟩, -⟩ := decodeInto_panic left hl h
          cases targetChat_chat ht

theorem nloop_panic (hl : ∀ dec m d, (∃ s, left dec m d = .search s) → ∃ s, m = .search s) : ∀ (f k : Nat) (r : NReader Z) (st : St),
    r.lines.Sound → NReader.loop I left f k r st = .panic →
    ∃ args, Delivers I r.lines (b!"$Search " ++ args ++ b!"|") ∧
      ∃ dec, NmdcPanics.FatalSearch dec args ∨ NmdcPanics.FatalSearch dec (mapRunes args) := by
  intro f
  induction f with
  | zero => intro k r st _ h; cases h
  | succ f ih =>
    intro k r st hs h
    have safe := readLine_safe I f hs
    rw [NReader.loop] at h
    split at h
    · rename_i hp; exact absurd hp safe.1
    · cases h
    · rename_i res lr hr
      obtain ⟨line, e⟩ := res
      split at h
      · cases h
      · rename_i st' hround
        have he : e = none := round_again left hround
        subst he
        obtain ⟨args, h1, h2⟩ := ih _ _ _ (safe.2 _ _ hr).1 h
        exact ⟨args, .later hr h1, h2⟩
      · rename_i hround
        obtain ⟨he, args, ha, hf⟩ := round_panic left hl hround
        simp only at he ha
        subst he ha
        exact ⟨args, .now hr, hf⟩

/-- **C77, NMDC.** If reading a message panics then the call was made without a message to read into, or the peer has sent a search
with a hash that is too long. `left` does not change the type of a message. -/
theorem nmdc_panics_only (hl : ∀ dec m d, (∃ s, left dec m d = .search s) → ∃ s, m = .search s) (r : NReader Z)
    (hr : Reached I delim r.lines) (fuel : Nat) (c : NCall) (h : ncall I left fuel r c = .panic) :
    c = .readMsgTo none ∨ c = .readMsgToAny [] ∨
    ∃ args, Delivers I r.lines (b!"$Search " ++ args ++ b!"|") ∧
      ∃ dec, NmdcPanics.FatalSearch dec args ∨ NmdcPanics.FatalSearch dec (mapRunes args) := by
  have hs := reached_sound I hr
  cases c with
  | readMsg =>
    refine .inr (.inr (nloop_panic I left hl fuel 0 r (r.start none []) hs ?_))
    cases hx : NReader.loop I left fuel 0 r (r.start none []) with
    | panic => rfl
    | timeout => simp [ncall, NReader.readMsg, hx] at h
    | val y => obtain ⟨e, st, r'⟩ := y; cases e <;> simp [ncall, NReader.readMsg, hx] at h
  | readMsgTo m =>
    cases m with
    | none => exact .inl rfl
    | some m =>
      refine .inr (.inr (nloop_panic I left hl fuel 0 r (r.start (some m) []) hs ?_))
      cases hx : NReader.loop I left fuel 0 r (r.start (some m) []) with
      | panic => rfl
      | timeout => simp [ncall, NReader.readMsgTo, hx] at h
      | val y => simp [ncall, NReader.readMsgTo, hx] at h
  | readMsgToAny arr =>
    cases arr with
    | nil => exact .inr (.inl rfl)
    | cons m ms =>
      refine .inr (.inr (nloop_panic I left hl fuel 0 r (r.start none (m :: ms)) hs ?_))
      cases hx : NReader.loop I left fuel 0 r (r.start none (m :: ms)) with
      | panic => rfl
      | timeout => simp [ncall, NReader.readMsgToAny, hx] at h
      | val y => obtain ⟨e, st, r'⟩ := y; cases e <;> simp [ncall, NReader.readMsgToAny, hx] at h

end nmdc

section
attribute [local instance] basicEntities

/-- A peer sends a chat message and then such a search: the first call returns the message, the second panics. -/
example : ∃ r', ncall LineReader.toy (fun _ m _ => m) 20
      (Nmdc.newNReader [⟨b!"<a> b|$Search 1.2.3.4:412 F?T?0?9?TTH:" ++ List.replicate 40 c!"A" ++ b!"|", none⟩]) .readMsg =
        .val (.msg (.ok (some (.chat { name := b!"a", text := b!"b" }))), r') ∧
    ncall LineReader.toy (fun _ m _ => m) 20 r' .readMsg = .panic ∧ Reached LineReader.toy Nmdc.delim r'.lines := by
  refine ⟨_, by with_unfolding_all rfl, by with_unfolding_all rfl, ?_⟩
  refine ⟨[⟨b!"<a> b|$Search 1.2.3.4:412 F?T?0?9?TTH:" ++ List.replicate 40 c!"A" ++ b!"|", none⟩], [(20, .readLine)], ?_, ?_⟩
  · left; simp [Src.NoEmpty]
  · with_unfolding_all rfl

end

/-! ## ADC -/

section adc

open Verif.Adc

theorem aline_mono : ∀ (f k : Nat) (r : AReader Z), Exec.Ext (r.readPacketLine I f k) (r.readPacketLine I (f + 1) k) := by
  intro f
  induction f with
  | zero => intro k r; exact .inl rfl
  | succ f ih =>
    intro k r
    rw [AReader.readPacketLine, AReader.readPacketLine]
    rcases readLine_mono I f r.lines with h | h
    · rw [h]; exact .inl rfl
    · rw [← h]
      split
      · exact .inr rfl
      · exact .inr rfl
      · exact .inr rfl
      · split
        · exact .inr rfl
        · split
          · exact .inr rfl
          · split
            · exact .inr rfl
            · exact ih _ _

theorem aline_settles (lr : Reader Z) : ∀ (k : Nat) (r : AReader Z), r.lines = lr →
    Settles fun f => r.readPacketLine I f k := by
  induction lr using Reader.less_wf.induction with
  | _ lr ih =>
    intro k r hr
    obtain ⟨k0, x, hx, hk⟩ := readLine_settles I r.lines
    dsimp only at hk
    have now : r.readPacketLine I (k0 + 1) k ≠ .timeout → Settles fun f => r.readPacketLine I f k :=
      settles_of (fun f => aline_mono I f k r)
    cases x with
    | timeout => exact absurd rfl hx
    | panic => exact now (by rw [AReader.readPacketLine, hk k0 (Nat.le_refl _)]; simp)
    | val y =>
      obtain ⟨⟨s, e⟩, lr'⟩ := y
      cases e with
      | some e => exact now (by rw [AReader.readPacketLine, hk k0 (Nat.le_refl _)]; simp)
      | none =>
        by_cases h1 : s.getLast? ≠ some lineDelim
        · exact now (by rw [AReader.readPacketLine, hk k0 (Nat.le_refl _)]; simp [h1])
        by_cases h2 : s.length > 1
        · exact now (by rw [AReader.readPacketLine, hk k0 (Nat.le_refl _)]; simp [h1, h2])
        cases h3 : r.onKeepAlive k with
        | some e => exact now (by rw [AReader.readPacketLine, hk k0 (Nat.le_refl _)]; simp [h1, h2, h3])
        | none =>
          have hless := (readLine_less I (hk k0 (Nat.le_refl _))).2 rfl
          obtain ⟨k1, x1, hx1, hk1⟩ := ih lr' (hr ▸ hless) (k + 1) { r with lines := lr' } rfl
          dsimp only at hk1
          refine settles_of (fun f => aline_mono I f k r) (k := max k0 k1 + 1) ?_
          rw [AReader.readPacketLine, hk _ (Nat.le_max_left _ _)]
          simp only [h1, h2, h3, if_false]
          rw [hk1 _ (Nat.le_max_right _ _)]
          exact hx1

variable [ParseFloat]

/-- **C76, ADC.** `ReadPacket`, `ReadPacketRaw`, `ReadInfo` and `ReadClient` return: for every state of the reader, every script of
the transport and every callback there is one outcome that is reached with any sufficient amount of work. -/
theorem adc_calls_return (r : AReader Z) (c : Call) (room : Nat) :
    ∃ enough outcome, outcome ≠ .timeout ∧ ∀ fuel ≥ enough, r.read I c room fuel = outcome := by
  obtain ⟨k, x, hx, hk⟩ := aline_settles I r.lines 0 r rfl
  dsimp only at hk
  cases x with
  | timeout => exact absurd rfl hx
  | panic => exact ⟨k, .panic, by simp, fun f hf => by simp [AReader.read, hk f hf]⟩
  | val y =>
    obtain ⟨l, r'⟩ := y
    cases l with
    | error e => exact ⟨k, .val (.error e, r'), by simp, fun f hf => by simp [AReader.read, hk f hf]⟩
    | ok line =>
      cases hc : c.decode room line with
      | ok out => exact ⟨k, .val (.ok out, r'), by simp, fun f hf => by simp [AReader.read, hk f hf, hc]⟩
      | err e => exact ⟨k, .val (.error e, r'), by simp, fun f hf => by simp [AReader.read, hk f hf, hc]⟩
      | panic => exact ⟨k, .panic, by simp, fun f hf => by simp [AReader.read, hk f hf, hc]⟩

omit [ParseFloat] in
theorem aline_delivers : ∀ (f k : Nat) {r : AReader Z}, r.lines.Sound →
    r.readPacketLine I f k ≠ .panic ∧ ∀ line r', r.readPacketLine I f k = .val (.ok line, r') → Delivers I r.lines line := by
  intro f
  induction f with
  | zero => intro k r _; exact ⟨by simp [AReader.readPacketLine], fun _ _ h => by cases h⟩
  | succ f ih =>
    intro k r hs
    have safe := readLine_safe I f hs
    rw [AReader.readPacketLine]
    split
    · rename_i hp; exact absurd hp safe.1
    · exact ⟨by simp, fun _ _ h => by cases h⟩
    · exact ⟨by simp, fun _ _ h => by cases h⟩
    · rename_i s lr hr
      split
      · exact ⟨by simp, fun _ _ h => by cases h⟩
      · split
        · exact ⟨by simp, fun _ _ h => by cases h; exact .now hr⟩
        · split
          · exact ⟨by simp, fun _ _ h => by cases h⟩
          · have := ih (k + 1) (r := { r with lines := lr }) (safe.2 _ _ hr).1
            exact ⟨this.1, fun _ _ h => .later hr (this.2 _ _ h)⟩

/-- **C77, ADC.** If reading a packet panics then the peer has sent one of the lines that `AdcPanics` lists. -/
theorem adc_panics_only (r : AReader Z) (hr : Reached I lineDelim r.lines) (c : Call) (room fuel : Nat) (h : r.read I c room fuel = .panic) :
    ∃ line, Delivers I r.lines line ∧ (AdcPanics.FatalPacket room line ∨
      ∃ pk typ data, decodePacketRaw room line = .ok pk ∧ pk.message = .raw typ data ∧ AdcPanics.FatalPayload typ.bytes data) := by
  have hd := aline_delivers I fuel 0 (reached_sound I hr)
  unfold AReader.read at h
  split at h
  · rename_i hp; exact absurd hp hd.1
  · cases h
  · cases h
  · rename_i line r' hr
    refine ⟨line, hd.2 _ _ hr, ?_⟩
    split at h
    · cases h
    · cases h
    · rename_i hc
      rw [← AdcPanics.line_panics_iff]
      have key : decodePacketRaw room line = .panic ∨
          ∃ pk, decodePacketRaw room line = .ok pk ∧ decodeMessage pk.message = .panic := by
        cases c with
        | packet =>
          simp only [Call.decode, decodePacket, NmdcPanics.bind_eq_panic, reduceCtorEq, and_false, exists_false, or_false] at hc
          exact hc
        | raw =>
          simp only [Call.decode, NmdcPanics.bind_eq_panic, reduceCtorEq, and_false, exists_false, or_false] at hc
          exact .inl hc
        | info =>
          simp only [Call.decode, NmdcPanics.bind_eq_panic] at hc
          rcases hc with hc | ⟨pk, h1, h2⟩
          · exact .inl hc
          · refine .inr ⟨pk, h1, ?_⟩
            split at h2
            · simp only [NmdcPanics.bind_eq_panic, reduceCtorEq, and_false, exists_false, or_false] at h2
              exact h2
            · cases h2
        | client =>
          simp only [Call.decode, NmdcPanics.bind_eq_panic] at hc
          rcases hc with hc | ⟨pk, h1, h2⟩
          · exact .inl hc
          · refine .inr ⟨pk, h1, ?_⟩
            split at h2
            · simp only [NmdcPanics.bind_eq_panic, reduceCtorEq, and_false, exists_false, or_false] at h2
              exact h2
            · cases h2
      unfold decodePacket
      simp only [NmdcPanics.bind_eq_panic, reduceCtorEq, and_false, exists_false, or_false]
      exact key

/-- A peer sends a keep-alive and then a connection request without a token. -/
example : ((newAReader [⟨b!"\nCRCM ADC/1.0\n", none⟩] : AReader Bool).read LineReader.toy .packet 0 20 = .panic) ∧
    Reached LineReader.toy lineDelim (newAReader [⟨b!"\nCRCM ADC/1.0\n", none⟩] : AReader Bool).lines := by
  refine ⟨by with_unfolding_all rfl, ⟨[⟨b!"\nCRCM ADC/1.0\n", none⟩], [], .inr (by simp), rfl⟩⟩

end adc

end Verif.Props.ConnTotal
