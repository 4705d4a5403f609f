import Verif.Props.NmdcReader

/-!
# Unknown commands, encodings and callbacks of the NMDC reader (C59, C60, C62)
-/

namespace Verif.Props.NmdcReaderHooks

open Verif.Nmdc Verif.Go Verif.Lineproto Verif.Spec Verif.Props.NmdcMessages Verif.Props.NmdcReader Verif.Props.LineReader

variable [HtmlEntities] {Z : Type} (I : Inflater Z) (left : Codec → Msg → Bytes → Msg)

/-! ## C59 -/

omit [HtmlEntities] in
theorem marshal_raw {typ : Bytes} (h : typ ≠ []) (args : Bytes) (enc ord) : marshalMsg enc ord (.raw typ args) =
    .ok (if args = [] then b!"$" ++ typ ++ b!"|" else b!"$" ++ typ ++ b!" " ++ args ++ b!"|") := by
  have hh : msgHead typ = b!"$" ++ typ ++ b!" " := if_neg h
  show finishMsg ([] ++ msgHead typ) args = _
  rw [hh]
  unfold finishMsg
  by_cases ha : args = []
  · subst ha
    rw [if_pos rfl, if_pos rfl, if_neg (by simp), List.nil_append, List.dropLast_concat]; rfl
  · rw [if_neg ha, if_neg ha]; simp [delim]

/-- **C59.** A command that is not registered is read as a `RawMessage` with its name and its argument bytes, whatever
the decoder.  Encoding it (with any encoder) gives the same line, except that the space of a command with a space and no
arguments is lost. -/
theorem unknown_verbatim_partial (r : NReader Z) (henv : r.env = fun _ => {}) (n : Nat) (l typ args : Bytes) (hl : IsLine delim l)
    (hv : LineIs r.maxCmdName l (.command typ args)) (hreg : isRegistered typ = false) (lr : Reader Z)
    (hr : Lines I r (afterKeepAlives n l) lr) :
    Reads I left r (.ok (some (.raw typ args))) { r with lines := lr } ∧
    ∀ enc ord, marshalMsg enc ord (.raw typ args) = .ok (if l = b!"$" ++ typ ++ b!" |" then b!"$" ++ typ ++ b!"|" else l) := by
  refine ⟨?_, ?_⟩
  · have := dispatch I left r henv n l hl _ hv lr hr
    simp only [Decodes, newMessage_raw hreg, Msg.unmarshal] at this
    exact this
  · intro enc ord
    cases hv with
    | command _ _ ht h0 =>
      rw [marshal_raw ht.1]
      by_cases ha : args = []
      · subst ha
        rw [if_pos rfl, if_pos (by simp)]
      · rw [if_neg ha, if_neg (by intro h; apply ha; simpa using h)]
    | bare _ ht => rw [marshal_raw ht.1, if_pos rfl, if_neg (by simp)]

/-- The exception is real: `$Foo |` is written back as `$Foo|`, so the claim is false as stated. -/
theorem unknown_not_verbatim : ∃ (l : Bytes) (m : Msg) (r' : NReader Bool),
    LineIs 32 l (.command b!"Foo" []) ∧ isRegistered b!"Foo" = false ∧
    (newNReader [⟨l, none⟩] : NReader Bool).readMsg toy left 10 = .val (.ok (some m), r') ∧
    marshalMsg none id m = .ok b!"$Foo|" ∧ l ≠ b!"$Foo|" := by
  refine ⟨b!"$Foo |", .raw b!"Foo" [], _, ?_, by decide, rfl, by decide, by decide⟩
  exact .command b!"Foo" [] ((cmdNameOk_iff 32 _).mp (by decide)) (by decide)

/-! ## C60 -/

/-- A reader whose only callback is `OnUnknownEncoding`. -/
def onlyEnc (f : Bytes → Except Err Codec) : Nat → Env := fun _ => { unknownEnc := some f }

/-- What the fallback must do with a message `m` (half-decoded by the first attempt) and its arguments. -/
def FallsBack (f : Bytes → Except Err Codec) (r : NReader Z) (lr : Reader Z) (text : Bytes) (m : Msg) (args : Bytes) : Prop :=
  match f text with
  | .error e => Reads I left r (.error e) { r with lines := lr }
  | .ok (some d) => Decodes (some d) m args fun
      | .ok m' => Reads I left r (.ok (some m')) { r with lines := lr, dec := some d }
      | .error e => Reads I left r (.error e) { r with lines := lr, dec := some d }
  | .ok none => Decodes none m (mapRunes args) fun
      | .ok m' => Reads I left r (.ok (some m')) { r with lines := lr }
      | .error e => Reads I left r (.error e) { r with lines := lr }

/-- **C60.** With `OnUnknownEncoding` set to `f`: when decoding a message fails because of its text encoding, `f` is called
with the text.  If it fails, its error is returned; if it returns a decoder, the message is decoded again with it and it
is from now on the decoder of the reader; if it returns nil, the message is decoded again with the invalid bytes replaced and
the decoder stays. -/
theorem encoding_fallback (f : Bytes → Except Err Codec) (r : NReader Z) (henv : r.env = onlyEnc f) (n : Nat) (l : Bytes)
    (v : Verdict) (hv : LineIs r.maxCmdName l v) (lr : Reader Z)
    (hr : Lines I r (afterKeepAlives n l) lr) (text : Bytes) :
    (∀ typ args, v = .command typ args → (newMessage typ).unmarshal r.dec args = .err (.unknownEncoding text) →
      FallsBack I left f r lr text (left r.dec (newMessage typ) args) args) ∧
    (∀ t, v = .chat t → (Msg.chat {}).unmarshal r.dec t = .err (.unknownEncoding text) →
      FallsBack I left f r lr text (left r.dec (.chat {}) t) t) := by
  have base : ∀ e st, Consumes (onlyEnc f) left r.maxCmdName n [(l, none)] (r.start none []) (some (e, st)) →
      (∀ x, e = some x → Reads I left r (.error x) { r with lines := lr, dec := st.rdec }) ∧
      (e = none → Reads I left r (.ok st.cur) { r with lines := lr, dec := st.rdec }) := by
    intro e st h
    obtain ⟨k, hk⟩ := loop_of_consumes I (consumes_keepAlives (fun _ => rfl) n 0 (by simpa using h)) r lr henv rfl hr
    refine ⟨fun x hx => ⟨k, fun fl hf => ?_⟩, fun hx => ⟨k, fun fl hf => ?_⟩⟩
    · subst hx; rw [NReader.readMsg, hk fl hf]; rfl
    · subst hx; rw [NReader.readMsg, hk fl hf]; rfl
  -- the common part
  have key : ∀ (m : Msg) (args : Bytes), m.unmarshal r.dec args = .err (.unknownEncoding text) →
      round (onlyEnc f n) left r.maxCmdName (l, none) (r.start none []) =
        decodeInto (onlyEnc f n) left l.dropLast args m { r.start none [] with cur := some m } →
      FallsBack I left f r lr text (left r.dec m args) args := by
    intro m args hu hround
    unfold decodeInto tryUnmarshal at hround
    have hd : ({ r.start none [] with cur := some m } : St).dec = r.dec := rfl
    rw [hd, hu] at hround
    simp only [fallback, onlyEnc] at hround
    unfold FallsBack
    cases hf : f text with
    | error e =>
      simp only [hf] at hround
      exact (base _ _ (.last n _ _ _ _ hround)).1 e rfl
    | ok c =>
      cases c with
      | none =>
        simp only [hf, tryUnmarshal] at hround
        simp only [Decodes]
        cases hu2 : (left r.dec m args).unmarshal none (mapRunes args) with
        | panic => trivial
        | ok m' =>
          simp only [hu2, Option.map_some, afterDecode, runAll] at hround
          exact (base _ _ (.last n _ _ _ _ hround)).2 rfl
        | err e =>
          simp only [hu2, Option.map_some, afterDecode] at hround
          exact (base _ _ (.last n _ _ _ _ hround)).1 e rfl
      | some d =>
        simp only [hf, tryUnmarshal] at hround
        simp only [Decodes]
        cases hu2 : (left r.dec m args).unmarshal (some d) args with
        | panic => trivial
        | ok m' =>
          simp only [hu2, Option.map_some, afterDecode, runAll] at hround
          exact (base _ _ (.last n _ _ _ _ hround)).2 rfl
        | err e =>
          simp only [hu2, Option.map_some, afterDecode] at hround
          exact (base _ _ (.last n _ _ _ _ hround)).1 e rfl
  refine ⟨?_, ?_⟩
  · rintro typ args rfl hu
    refine key _ _ hu ?_
    have := round_command (env := onlyEnc f n) (left := left) (st := r.start none []) hv rfl
    simpa only [targetCmd, NReader.start] using this
  · rintro t rfl hu
    refine key _ _ hu ?_
    have := round_chat (env := onlyEnc f n) (left := left) (st := r.start none []) hv rfl
    simpa only [targetChat, NReader.start] using this

/-- **C60 (no callback).** Without the callback the error is returned and the decoder stays. -/
theorem no_fallback (r : NReader Z) (henv : r.env = fun _ => {}) (n : Nat) (l typ args : Bytes) (hl : IsLine delim l)
    (hv : LineIs r.maxCmdName l (.command typ args)) (lr : Reader Z) (hr : Lines I r (afterKeepAlives n l) lr) (text : Bytes)
    (hu : (newMessage typ).unmarshal r.dec args = .err (.unknownEncoding text)) :
    Reads I left r (.error (.unknownEncoding text)) { r with lines := lr } := by
  have := dispatch I left r henv n l hl _ hv lr hr
  simp only [Decodes, hu] at this
  exact this

/-- For types whose decoder does not look at the previous value, the second attempt is a fresh decoding. -/
theorem fallback_fresh (hleft : ∀ d m a, (left d m a).fresh = m.fresh ∧ Stale (left d m a) = Stale m) (m : Msg) (dec d : Codec)
    (args : Bytes) (hs : Stale m = false) : (left dec m args).unmarshal d args = m.unmarshal d args := by
  rw [reuse_partial d args (by rw [(hleft dec m args).2]; exact hs), reuse_partial d args hs, (hleft dec m args).1]

/-- The callback at work: with a decoder that maps the byte `E9` to `é`, a name is decoded and the decoder stays for the next
message, for which the callback is not called. -/
example : letI := basicEntities
    let d : Bytes → Option Bytes := fun s => some (s.flatMap fun b => if b = 0xE9 then [0xC3, 0xA9] else [b])
    let f : Bytes → Except Err Codec := fun t => if t = [0xE9] then .ok (some d) else .error (.other 1)
    ∃ r1 r2, ({ newNReader [⟨b!"$Hello " ++ [0xE9] ++ b!"|$Quit " ++ [0xE9, 0xE9] ++ b!"|", none⟩] with env := onlyEnc f } : NReader Bool).readMsg
      toy (fun _ m _ => m) 10 = .val (.ok (some (.name .hello [0xC3, 0xA9])), r1) ∧
    r1.readMsg toy (fun _ m _ => m) 10 = .val (.ok (some (.name .quit [0xC3, 0xA9, 0xC3, 0xA9])), r2) := by
  exact ⟨_, _, rfl, rfl⟩

omit [HtmlEntities] in
/-- The callback is not consulted when the decoder of a message hides the cause of its error: `ADCGET`, `ADCSND` and
the path of `UserCommand` (`msg_files.go:70`, `msg_chat.go:338`). The claim is false of them. -/
theorem fallback_missed : letI := basicEntities
    (newMessage b!"ADCGET").unmarshal none (b!"file " ++ [0xE9] ++ b!" 0 1") = .err (.other 42) ∧
    (newMessage b!"ADCSND").unmarshal none (b!"file " ++ [0xE9] ++ b!" 0 1") = .err (.other 42) ∧
    (newMessage b!"UserCommand").unmarshal none (b!"1 1 " ++ [0xE9] ++ b!"$<x> y") = .err (.other 22) := by
  letI := basicEntities
  exact ⟨by decide +kernel, by decide +kernel, by decide +kernel⟩

omit [HtmlEntities] in
/-- When the callback returns nil the invalid bytes are lost: a name of one byte becomes U+FFFD. -/
theorem fallback_nil_replaces : letI := basicEntities
    ∃ r', ({ newNReader [⟨b!"$Hello " ++ [0xE9] ++ b!"|", none⟩] with env := onlyEnc (fun _ => .ok none) } : NReader Bool).readMsg
      toy (fun _ m _ => m) 10 = .val (.ok (some (.name .hello [0xEF, 0xBF, 0xBD])), r') := by
  exact ⟨_, rfl⟩

/-! ## C62 -/

/-- With callbacks that do the same on every line, the loop does not count lines. -/
theorem loop_const (E : Env) (fuel : Nat) : ∀ (k k' : Nat) (r : NReader Z) (st : St), r.env = (fun _ => E) →
    NReader.loop I left fuel k r st = NReader.loop I left fuel k' r st := by
  induction fuel with
  | zero => intros; rfl
  | succ fuel ih =>
    intro k k' r st he
    unfold NReader.loop
    cases r.lines.readLine I fuel with
    | panic => rfl
    | timeout => rfl
    | val p =>
      obtain ⟨res, lr⟩ := p
      simp only [he]
      split
      · rfl
      · exact ih _ _ _ _ rfl
      · rfl

/-- A round that goes on with an unchanged state is invisible. -/
theorem skip_round (E : Env) (r : NReader Z) (henv : r.env = fun _ => E) (res0 : Bytes × Option Err) (lr : Reader Z)
    (hr : Lines I r [res0] lr) (hround : round E left r.maxCmdName res0 (r.start none []) = .again (r.start none []))
    (res : Except Err (Option Msg)) (r' : NReader Z) (h : Reads I left { r with lines := lr } res r') : Reads I left r res r' := by
  obtain ⟨n, hn⟩ := h
  cases hr with
  | line _ r1 _ _ _ hl ht =>
    cases ht
    obtain ⟨k, hk⟩ := hl
    refine ⟨n + k + 1, fun fuel hf => ?_⟩
    obtain ⟨f, rfl⟩ : ∃ f, fuel = f + 1 := ⟨fuel - 1, by omega⟩
    have := hn f (by omega)
    unfold NReader.readMsg at this ⊢
    rw [NReader.loop, hk f (by omega)]
    have h' : round (r.env 0) left r.maxCmdName res0 (r.start none []) = .again (r.start none []) := by rw [henv]; exact hround
    simp only [h']
    have hs : ({ r with lines := lr } : NReader Z).start none [] = r.start none [] := rfl
    rw [hs] at this
    rw [loop_const I left E f (0 + 1) 0 _ _ (by exact henv)]
    exact this

/-- The raw hooks of `env` on a line. -/
def rawVerdict (env : Env) (v : Verdict) : Hook :=
  match v with
  | .violation => .accept
  | .command typ args => runAll () (env.rawHooks.map fun h _ => h (some typ) args)
  | .chat text => runAll () (env.rawHooks.map fun h _ => h none text)

theorem round_raw {env : Env} {max : Int} {l : Bytes} {v : Verdict} {st : St} (hv : LineIs max l v) (hne : v ≠ .violation) :
    (∀ e, rawVerdict env v = .fail e → round env left max (l, none) st = .ret (some e) st) ∧
    (rawVerdict env v = .drop → round env left max (l, none) st = .again st) := by
  cases v with
  | violation => exact absurd rfl hne
  | command typ args =>
    have key : ∀ (rest : Bytes), (0 : Byte) ∉ rest → CmdName max typ → splitCmd (typ ++ rest) = (typ, args) →
        round env left max (b!"$" ++ typ ++ rest ++ b!"|", none) st =
        match rawVerdict env (.command typ args) with
        | .fail e => .ret (some e) st
        | .drop => .again st
        | .accept => match targetCmd st typ args with
          | .error e => .ret (some e) st
          | .ok (out, st') => decodeInto env left (b!"$" ++ typ ++ rest) args out st' := by
      intro rest h0 hn hsp
      have hd : (b!"$" ++ typ ++ rest ++ b!"|").dropLast = b!"$" ++ typ ++ rest := by
        rw [List.dropLast_concat]
      unfold round
      simp only
      rw [if_neg (by rw [List.getLast?_concat]; simp [delim]), if_neg (by simp [(cmdName_clean hn).2.1, h0]), hd, if_neg (by simp)]
      simp only [List.cons_append, List.nil_append, roundBody, if_true, hsp, rawVerdict, (cmdNameOk_iff max typ).mpr hn]
      rfl
    have : ∃ x, round env left max (l, none) st = match rawVerdict env (.command typ args) with
        | .fail e => .ret (some e) st
        | .drop => .again st
        | .accept => x := by
      cases hv with
      | command _ _ hn h0 =>
        have := key (b!" " ++ args) (by simp [h0]) hn (by simpa using splitCmd_args (cmdName_clean hn).1)
        exact ⟨_, by rw [← List.append_assoc] at this; exact this⟩
      | bare _ hn =>
        have := key [] (by simp) hn (by simpa using splitCmd_bare (cmdName_clean hn).1)
        exact ⟨_, by rw [List.append_nil] at this; exact this⟩
    obtain ⟨x, hx⟩ := this
    exact ⟨fun e h => by rw [hx, h], fun h => by rw [hx, h]⟩
  | chat text =>
    cases hv with
    | chat _ hne hd h0 =>
      have hdl : (text ++ b!"|").dropLast = text := by rw [List.dropLast_concat]
      have : round env left max (text ++ b!"|", none) st = match rawVerdict env (.chat text) with
          | .fail e => .ret (some e) st
          | .drop => .again st
          | .accept => match targetChat st text with
            | .error e => .ret (some e) st
            | .ok (out, st') => decodeInto env left text text out st' := by
        unfold round
        simp only
        rw [if_neg (by simp [delim]), if_neg (by simp [h0]), hdl, if_neg hne]
        cases text with
        | nil => simp at hne
        | cons b t =>
          have : b ≠ c!"$" := by simpa using hd
          simp only [roundBody, if_neg this, rawVerdict]
          rfl
      exact ⟨fun e h => by rw [this, h], fun h => by rw [this, h]⟩

/-- **C62 (raw hooks).** A message dropped by an `OnRawMessage` hook is skipped: `ReadMsg` does what it would do if the
stream began after it.  An error of such a hook is returned. -/
theorem raw_hooks (E : Env) (r : NReader Z) (henv : r.env = fun _ => E) (l : Bytes) (v : Verdict) (hv : LineIs r.maxCmdName l v)
    (hne : v ≠ .violation) (lr : Reader Z) (hr : Lines I r [(l, none)] lr) :
    (rawVerdict E v = .drop → ∀ res r', Reads I left { r with lines := lr } res r' → Reads I left r res r') ∧
    (∀ e, rawVerdict E v = .fail e → Reads I left r (.error e) { r with lines := lr }) := by
  refine ⟨fun h res r' => skip_round I left E r henv _ lr hr ((round_raw left hv hne).2 h) res r', fun e h => ?_⟩
  obtain ⟨k, hk⟩ := loop_of_consumes I (.last 0 _ (r.start none []) _ _ ((round_raw (env := E) left hv hne).1 e h)) r lr
    henv rfl hr
  exact ⟨k, fun f hf => by rw [NReader.readMsg, hk f hf]; rfl⟩

/-- **C62 (keep-alives).** A keep-alive is skipped, or the error of `OnKeepAlive` is returned. -/
theorem keepAlive_hook (E : Env) (r : NReader Z) (henv : r.env = fun _ => E) (lr : Reader Z) (hr : Lines I r [([delim], none)] lr) :
    (E.keepAlive = none → ∀ res r', Reads I left { r with lines := lr } res r' → Reads I left r res r') ∧
    (∀ e, E.keepAlive = some e → Reads I left r (.error e) { r with lines := lr }) := by
  refine ⟨fun h res r' => skip_round I left E r henv _ lr hr (round_keepAlive h) res r', fun e h => ?_⟩
  have hround : round E left r.maxCmdName ([delim], none) (r.start none []) = .ret (some e) (r.start none []) := by
    unfold round; simp [h, delim]
  obtain ⟨k, hk⟩ := loop_of_consumes I (.last 0 _ (r.start none []) _ _ hround) r lr henv rfl hr
  exact ⟨k, fun f hf => by rw [NReader.readMsg, hk f hf]; rfl⟩

/-- **C62 (message hooks and decoding errors).** With the raw hooks accepting a command that decodes to `m`: if the
`OnMessage` hooks accept it, it is returned; if one fails, its error is returned.  If the command does not decode,
the error goes through `OnUnmarshalError`. -/
theorem message_hooks (E : Env) (hE : E.unknownEnc = none) (r : NReader Z) (henv : r.env = fun _ => E) (l typ args : Bytes)
    (hv : LineIs r.maxCmdName l (.command typ args)) (hraw : rawVerdict E (.command typ args) = .accept)
    (lr : Reader Z) (hr : Lines I r [(l, none)] lr) :
    (∀ m, (newMessage typ).unmarshal r.dec args = .ok m → runAll m E.msgHooks = .accept →
      Reads I left r (.ok (some m)) { r with lines := lr }) ∧
    (∀ m e, (newMessage typ).unmarshal r.dec args = .ok m → runAll m E.msgHooks = .fail e →
      Reads I left r (.error e) { r with lines := lr }) ∧
    (∀ e, (newMessage typ).unmarshal r.dec args = .err e → E.unmarshalErr = none →
      Reads I left r (.error e) { r with lines := lr }) ∧
    (∀ e f e', (newMessage typ).unmarshal r.dec args = .err e → E.unmarshalErr = some f → f l.dropLast e = (true, some e') →
      Reads I left r (.error e') { r with lines := lr }) := by
  have hround := round_command (env := E) (left := left) (st := r.start none []) hv hraw
  simp only [targetCmd, NReader.start, decodeInto, tryUnmarshal, St.put] at hround
  have fin : ∀ e st, round E left r.maxCmdName (l, none) (r.start none []) = .ret e st → st.rdec = r.dec →
      (∀ x, e = some x → Reads I left r (.error x) { r with lines := lr }) ∧
      (e = none → Reads I left r (.ok st.cur) { r with lines := lr }) := by
    intro e st h hd
    obtain ⟨k, hk⟩ := loop_of_consumes I (.last 0 _ (r.start none []) _ _ h) r lr henv rfl hr
    refine ⟨fun x hx => ⟨k, fun f hf => ?_⟩, fun hx => ⟨k, fun f hf => ?_⟩⟩
    · subst hx; rw [NReader.readMsg, hk f hf]; simp only [loopResult, hd]
    · subst hx; rw [NReader.readMsg, hk f hf]; simp only [loopResult, hd]
  refine ⟨?_, ?_, ?_, ?_⟩
  · intro m hu hh
    simp only [hu, fallback, hE, afterDecode, hh] at hround
    exact (fin _ _ hround rfl).2 rfl
  · intro m e hu hh
    simp only [hu, fallback, hE, afterDecode, hh] at hround
    exact (fin _ _ hround rfl).1 _ rfl
  · intro e hu hh
    simp only [hu, fallback, hE, afterDecode, hh] at hround
    exact (fin _ _ hround rfl).1 _ rfl
  · intro e f e' hu hf hh
    simp only [hu, fallback, hE, afterDecode, hf, hh] at hround
    exact (fin _ _ hround rfl).1 _ rfl

/-- **C62 is false for `OnMessage`.** After a message of type `typ` dropped by an `OnMessage` hook, the same `ReadMsg` call
refuses every command of another type with an `ErrUnexpectedCommand`, although no type was asked for: the variable that
holds the dropped message is not cleared (`reader.go:177,324`). -/
theorem dropped_message_poisons (E : Env) (hE : E.unknownEnc = none) (r : NReader Z) (henv : r.env = fun _ => E)
    (l l' typ typ' args args' : Bytes) (m : Msg) (hv : LineIs r.maxCmdName l (.command typ args))
    (hv' : LineIs r.maxCmdName l' (.command typ' args'))
    (hraw : rawVerdict E (.command typ args) = .accept) (hraw' : rawVerdict E (.command typ' args') = .accept)
    (hu : (newMessage typ).unmarshal r.dec args = .ok m) (hdrop : runAll m E.msgHooks = .drop) (hne : typ' ≠ typ)
    (lr : Reader Z) (hr : Lines I r [(l, none), (l', none)] lr) :
    Reads I left r (.error (.unexpectedCommand typ typ' args')) { r with lines := lr } := by
  have hround := round_command (env := E) (left := left) (st := r.start none []) hv hraw
  simp only [targetCmd, NReader.start, decodeInto, tryUnmarshal, St.put, hu, fallback, hE, afterDecode, hdrop] at hround
  have hmt : m.typ = typ := by rw [(unmarshal_typ hu).1, newMessage_typ]
  have htyp : typ ≠ [] := by cases hv with | command _ _ h => exact h.1 | bare _ h => exact h.1
  have hc : m.isChat = false := by
    cases m <;> first | rfl | (simp only [Msg.typ] at hmt; exact absurd hmt.symm htyp)
  have hround' := round_command (env := E) (left := left) (st := ⟨r.dec, r.dec, some m, [], none⟩) hv' hraw'
  simp only [targetCmd, hc, hmt, ne_eq, Ne.symm hne, not_false_eq_true, if_true, Bool.false_eq_true, if_false] at hround'
  obtain ⟨k, hk⟩ := loop_of_consumes I (.more 0 _ _ (r.start none []) _ _ hround (.last 1 _ _ _ _ hround')) r lr henv rfl hr
  exact ⟨k, fun f hf => by rw [NReader.readMsg, hk f hf]; rfl⟩

omit [HtmlEntities] in
/-- A hook that drops greetings makes the next command unreadable. -/
theorem drop_example : letI := basicEntities
    let E : Env := { msgHooks := [fun m => if m = .name .hello b!"joe" then .drop else .accept] }
    ∃ r', ({ newNReader [⟨b!"$Hello joe|$GetPass|", none⟩] with env := fun _ => E } : NReader Bool).readMsg toy (fun _ m _ => m) 10 =
      .val (.error (.unexpectedCommand b!"Hello" b!"GetPass" []), r') := ⟨_, rfl⟩

omit [HtmlEntities] in
/-- A hook that drops what joe says makes the next message without a name look like one of joe's. -/
theorem drop_leaks : letI := basicEntities
    let E : Env := { msgHooks := [fun m => if m = .chat { name := b!"joe", text := b!"hi" } then .drop else .accept] }
    ∃ r', ({ newNReader [⟨b!"<joe> hi|hub restarts|", none⟩] with env := fun _ => E } : NReader Bool).readMsg toy (fun _ m _ => m) 10 =
      .val (.ok (some (.chat { name := b!"joe", text := b!"hub restarts" })), r') := ⟨_, rfl⟩

/-- **C62 (an error handler that says "skip").** If `OnUnmarshalError` returns false for a command that does not decode, the
line is skipped and the call reads on, but the message of the skipped line stays the target: a command of the same type is
decoded into it and returned, any other is refused with an `ErrUnexpectedCommand`.  `hleft` says that a decoder that fails
does not change the type of the message. -/
theorem undecodable_skipped (E : Env) (hE : E.unknownEnc = none) (r : NReader Z) (henv : r.env = fun _ => E)
    (l l' typ typ' args args' : Bytes) (e : Err) (f : Bytes → Err → Bool × Option Err) (e' : Option Err)
    (hv : LineIs r.maxCmdName l (.command typ args)) (hv' : LineIs r.maxCmdName l' (.command typ' args'))
    (hraw : rawVerdict E (.command typ args) = .accept) (hraw' : rawVerdict E (.command typ' args') = .accept)
    (hu : (newMessage typ).unmarshal r.dec args = .err e) (hf : E.unmarshalErr = some f) (hskip : f l.dropLast e = (false, e'))
    (hleft : (left r.dec (newMessage typ) args).typ = typ)
    (lr : Reader Z) (hr : Lines I r [(l, none), (l', none)] lr) :
    (typ' ≠ typ → Reads I left r (.error (.unexpectedCommand typ typ' args')) { r with lines := lr }) ∧
    (∀ m, typ' = typ → (left r.dec (newMessage typ) args).unmarshal r.dec args' = .ok m → runAll m E.msgHooks = .accept →
      Reads I left r (.ok (some m)) { r with lines := lr }) := by
  have hround := round_command (env := E) (left := left) (st := r.start none []) hv hraw
  simp only [targetCmd, NReader.start, decodeInto, tryUnmarshal, St.put, hu, fallback, hE, afterDecode, hf, hskip] at hround
  generalize hm : left r.dec (newMessage typ) args = m0 at hround hleft ⊢
  have htyp : typ ≠ [] := by cases hv with | command _ _ h => exact h.1 | bare _ h => exact h.1
  have hc : m0.isChat = false := by
    cases m0 <;> first | rfl | (simp only [Msg.typ] at hleft; exact absurd hleft.symm htyp)
  have hround' := round_command (env := E) (left := left) (st := ⟨r.dec, r.dec, some m0, [], none⟩) hv' hraw'
  refine ⟨fun hne => ?_, fun m hty hu' hacc => ?_⟩
  · simp only [targetCmd, hc, hleft, ne_eq, Ne.symm hne, not_false_eq_true, if_true, Bool.false_eq_true, if_false] at hround'
    obtain ⟨k, hk⟩ := loop_of_consumes I (.more 0 _ _ (r.start none []) _ _ hround (.last 1 _ _ _ _ hround')) r lr henv rfl hr
    exact ⟨k, fun f hf => by rw [NReader.readMsg, hk f hf]; rfl⟩
  · subst hty
    simp only [targetCmd, hc, hleft, ne_eq, not_true_eq_false, Bool.false_eq_true, if_false, decodeInto, tryUnmarshal, hu', St.put,
      fallback, hE, afterDecode, hacc] at hround'
    obtain ⟨k, hk⟩ := loop_of_consumes I (.more 0 _ _ (r.start none []) _ _ hround (.last 1 _ _ _ _ hround')) r lr henv rfl hr
    exact ⟨k, fun f hf => by rw [NReader.readMsg, hk f hf]; rfl⟩

omit [HtmlEntities] in
/-- A bad `$GetPass` is skipped and the next one is read. -/
example : letI := basicEntities
    let E : Env := { unmarshalErr := some fun _ _ => (false, none) }
    ∃ r', ({ newNReader [⟨b!"$GetPass x|$GetPass|", none⟩] with env := fun _ => E } : NReader Bool).readMsg toy (fun _ m _ => m) 10 =
      .val (.ok (some (.noArgs .getPass)), r') := ⟨_, rfl⟩

omit [HtmlEntities] in
/-- But a command of another type after it is refused. -/
example : letI := basicEntities
    let E : Env := { unmarshalErr := some fun _ _ => (false, none) }
    ∃ r', ({ newNReader [⟨b!"$GetPass x|$Hello joe|", none⟩] with env := fun _ => E } : NReader Bool).readMsg toy (fun _ m _ => m) 10 =
      .val (.error (.unexpectedCommand b!"GetPass" b!"Hello" b!"joe"), r') := ⟨_, rfl⟩

omit [HtmlEntities] in
/-- `OnUnmarshalError` that returns `(true, nil)` delivers a message that was not decoded. -/
theorem error_swallowed : letI := basicEntities
    let E : Env := { unmarshalErr := some fun _ _ => (true, none) }
    ∃ r', ({ newNReader [⟨b!"$GetPass x|", none⟩] with env := fun _ => E } : NReader Bool).readMsg toy (fun _ m _ => m) 10 =
      .val (.ok (some (.noArgs .getPass)), r') := ⟨_, rfl⟩

/-! ## Further findings -/

omit [HtmlEntities] in
/-- A `RawMessage` target of `ReadMsgToAny` takes every line and then refuses it, unless it already has the name: the branch
for `RawMessage` (`reader.go:212,262`) has no use. -/
theorem raw_target_refuses : letI := basicEntities
    (∃ r', (newNReader [⟨b!"$Foo x|", none⟩] : NReader Bool).readMsgToAny toy left 10 [.raw [] []] =
      .val (.error (.unexpectedCommand [] b!"Foo" b!"x"), [.raw [] []], r')) ∧
    (∃ r', (newNReader [⟨b!"hi|", none⟩] : NReader Bool).readMsgToAny toy left 10 [.raw [] [], .chat {}] =
      .val (.error (.unexpectedCommand [] [] b!"hi"), [.raw [] [], .chat {}], r')) := ⟨⟨_, rfl⟩, ⟨_, rfl⟩⟩

/-- `ReadMsgTo(nil)` and `ReadMsgToAny()` panic without reading anything, whatever the reader (`reader.go:128,138`). -/
theorem no_target_panics (r : NReader Z) (fuel : Nat) :
    r.readMsgTo I left fuel none = .panic ∧ r.readMsgToAny I left fuel [] = .panic := ⟨rfl, rfl⟩

/-- A peer can make `ReadMsg` panic: any stream whose next line is a command on which the decoder panics. -/
theorem remote_panic (r : NReader Z) (henv : r.env = fun _ => {}) (n : Nat) (l typ args : Bytes)
    (hv : LineIs r.maxCmdName l (.command typ args)) (hu : (newMessage typ).unmarshal r.dec args = .panic) (lr : Reader Z)
    (hr : Lines I r (afterKeepAlives n l) lr) : ∃ k, ∀ fuel ≥ k, r.readMsg I left fuel = .panic := by
  have hround := round_command (env := {}) (left := left) (st := r.start none []) hv rfl
  simp only [targetCmd, NReader.start, decode_quiet, hu] at hround
  obtain ⟨k, hk⟩ := loop_of_consumes I (consumes_keepAlives (fun _ => rfl) n 0 (.panic (0 + n) _ (r.start none []) hround)) r lr henv rfl hr
  exact ⟨k, fun f hf => by rw [NReader.readMsg, hk f hf]; rfl⟩

omit [HtmlEntities] in
/-- Such a line exists (`search_decoder_panics`), in whatever chunks it arrives. -/
theorem remote_panic_search (s : Src) (hs : Props.LineReader.DataOnly s)
    (hb : Props.LineReader.bytesOf s = b!"$Search Hub:joe F?T?0?9?TTH:" ++ List.replicate 40 c!"A" ++ b!"|") : letI := basicEntities
    ∃ k, ∀ fuel ≥ k, (newNReader s : NReader Z).readMsg I left fuel = .panic := by
  letI := basicEntities
  obtain ⟨lr, hr⟩ := Props.LineReader.readLine_chunk_independent (Z := Z) I s hs delim maxLineDef 0 (.inr (by rw [hb]; decide +kernel))
  have hsp : splitLines delim (Props.LineReader.bytesOf s) =
      ([b!"$Search Hub:joe F?T?0?9?TTH:" ++ List.replicate 40 c!"A" ++ b!"|"], []) := by rw [hb]; decide +kernel
  rw [hsp] at hr
  obtain ⟨r1, h1, -⟩ := runs_split (Z := Z) I (os := [Obs.line (b!"$Search Hub:joe F?T?0?9?TTH:" ++ List.replicate 40 c!"A" ++ b!"|", none)]) hr
  refine remote_panic I left (newNReader s) rfl 0
    (b!"$Search Hub:joe F?T?0?9?TTH:" ++ List.replicate 40 c!"A" ++ b!"|") b!"Search" (b!"Hub:joe F?T?0?9?TTH:" ++ List.replicate 40 c!"A") ?_ ?_ r1 ?_
  · exact .command b!"Search" _ ((cmdNameOk_iff 32 _).mp (by decide +kernel)) (by decide +kernel)
  · exact search_decoder_panics
  · exact h1

end Verif.Props.NmdcReaderHooks
