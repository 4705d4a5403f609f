import Verif.Nmdc.ReaderLemmas
import Verif.Props.LineReader
import Verif.Props.NmdcMessages

/-!
# Reading NMDC messages (C32, C33, C59)
-/

namespace Verif.Props.NmdcReader

open Verif.Nmdc Verif.Go Verif.Lineproto Verif.Spec Verif.Props.NmdcMessages

variable [HtmlEntities] {Z : Type} (I : Inflater Z) (left : Codec → Msg → Bytes → Msg)

/-- `r.ReadMsg()` returns `res` and leaves the reader in state `r'`. -/
def Reads (r : NReader Z) (res : Except Err (Option Msg)) (r' : NReader Z) : Prop :=
  ∃ n, ∀ fuel ≥ n, r.readMsg I left fuel = .val (res, r')

/-- `r.ReadMsgTo(m)` returns `e`, the message is now `m'`. -/
def ReadsTo (r : NReader Z) (m : Msg) (e : Option Err) (m' : Msg) (r' : NReader Z) : Prop :=
  ∃ n, ∀ fuel ≥ n, r.readMsgTo I left fuel (some m) = .val (e, some m', r')

/-- `r.ReadMsgToAny(arr...)` returns `res` (the position of the message decoded, or an error), the messages are now
`arr'`. -/
def ReadsToAny (r : NReader Z) (arr : List Msg) (res : Except Err (Option Nat)) (arr' : List Msg) (r' : NReader Z) : Prop :=
  ∃ n, ∀ fuel ≥ n, r.readMsgToAny I left fuel arr = .val (res, arr', r')

/-- The next results of `ReadLine` on the connection of `r`. -/
def Lines (r : NReader Z) (ls : List (Bytes × Option Err)) (lr : Reader Z) : Prop :=
  Reader.Runs I r.lines (ls.map Obs.line) lr

/-- `n` keep-alives and a line. -/
def afterKeepAlives (n : Nat) (l : Bytes) : List (Bytes × Option Err) :=
  List.replicate n ([delim], none) ++ [(l, none)]

/-- What decoding into the message `m` gives: the decoded message or the error; on a panic nothing is claimed. -/
def Decodes (dec : Codec) (m : Msg) (args : Bytes) (P : Except Err Msg → Prop) : Prop :=
  match m.unmarshal dec args with
  | .ok m' => P (.ok m')
  | .err e => P (.error e)
  | .panic => True

theorem decode_quiet {orig args : Bytes} {m : Msg} {st : St} :
    decodeInto {} left orig args m st = match m.unmarshal st.dec args with
      | .ok m' => .ret none (st.put m')
      | .err e => .ret (some e) (st.put (left st.dec m args))
      | .panic => .panic := by
  unfold decodeInto tryUnmarshal
  cases m.unmarshal st.dec args with
  | ok m' => simp [fallback, afterDecode, runAll]
  | err e => simp [fallback, afterDecode]
  | panic => rfl

/-- **C32.** On a connection without callbacks whose next lines are some keep-alives and the line `l`, `ReadMsg`
skips the keep-alives and then

* reports a protocol violation if the line is one (NUL byte; bad command name);
* decodes the arguments of a command with the type registered for its name, or as a `RawMessage`;
* decodes any other line as a chat message;

and the reader stands after the line. -/
theorem dispatch (r : NReader Z) (henv : r.env = fun _ => {}) (n : Nat) (l : Bytes) (hl : IsLine delim l) (v : Verdict)
    (hv : LineIs r.maxCmdName l v) (lr : Reader Z) (hr : Lines I r (afterKeepAlives n l) lr) :
    match v with
    | .violation => Reads I left r (.error .protocolViolation) { r with lines := lr }
    | .command typ args => Decodes r.dec (newMessage typ) args fun
        | .ok m => Reads I left r (.ok (some m)) { r with lines := lr }
        | .error e => Reads I left r (.error e) { r with lines := lr }
    | .chat text => Decodes r.dec (.chat {}) text fun
        | .ok m => Reads I left r (.ok (some m)) { r with lines := lr }
        | .error e => Reads I left r (.error e) { r with lines := lr } := by
  have base : ∀ o, Consumes (fun _ => {}) left r.maxCmdName n [(l, none)] (r.start none []) o →
      ∃ k, ∀ fuel ≥ k, NReader.loop I left fuel 0 r (r.start none []) = loopResult r lr o := fun o h =>
    loop_of_consumes I (consumes_keepAlives (fun _ => rfl) n 0 (by simpa using h)) r lr henv rfl hr
  cases v with
  | violation =>
    obtain ⟨k, hk⟩ := base _ (.last n _ _ _ _ (round_violation hv hl rfl))
    exact ⟨k, fun f hf => by simp only [NReader.readMsg, hk f hf, loopResult]; rfl⟩
  | command typ args =>
    have hround := round_command (env := {}) (left := left) (st := r.start none []) hv rfl
    simp only [targetCmd, NReader.start, decode_quiet, St.put] at hround
    simp only [Decodes]
    cases hu : (newMessage typ).unmarshal r.dec args with
    | panic => trivial
    | ok m =>
      simp only [hu] at hround
      obtain ⟨k, hk⟩ := base _ (.last n _ _ _ _ hround)
      exact ⟨k, fun f hf => by simp only [NReader.readMsg, hk f hf, loopResult]⟩
    | err e =>
      simp only [hu] at hround
      obtain ⟨k, hk⟩ := base _ (.last n _ _ _ _ hround)
      exact ⟨k, fun f hf => by simp only [NReader.readMsg, hk f hf, loopResult]⟩
  | chat text =>
    have hround := round_chat (env := {}) (left := left) (st := r.start none []) hv rfl
    simp only [targetChat, NReader.start, decode_quiet, St.put] at hround
    simp only [Decodes]
    cases hu : (Msg.chat {}).unmarshal r.dec text with
    | panic => trivial
    | ok m =>
      simp only [hu] at hround
      obtain ⟨k, hk⟩ := base _ (.last n _ _ _ _ hround)
      exact ⟨k, fun f hf => by simp only [NReader.readMsg, hk f hf, loopResult]⟩
    | err e =>
      simp only [hu] at hround
      obtain ⟨k, hk⟩ := base _ (.last n _ _ _ _ hround)
      exact ⟨k, fun f hf => by simp only [NReader.readMsg, hk f hf, loopResult]⟩

/-- The verdict, computed. -/
def classify (max : Int) (l : Bytes) : Verdict :=
  if (0 : Byte) ∈ l then .violation
  else match l.dropLast with
    | [] => .chat []
    | b :: line =>
      if b = c!"$" then
        match splitCmd line with
        | (cmd, args) => if cmdNameOk max cmd then .command cmd args else .violation
      else .chat (b :: line)

omit [HtmlEntities] in
theorem classify_of {max : Int} {l : Bytes} {v : Verdict} (h : LineIs max l v) : classify max l = v := by
  have key : ∀ (t rest a : Bytes), splitCmd (t ++ rest) = (t, a) → (0 : Byte) ∉ b!"$" ++ t ++ rest ++ b!"|" →
      classify max (b!"$" ++ t ++ rest ++ b!"|") = if cmdNameOk max t then .command t a else .violation := by
    intro t rest a hsp h0
    unfold classify
    rw [if_neg h0, List.dropLast_concat]
    simp only [List.cons_append, List.nil_append, if_true, hsp]
  cases h with
  | nul _ h0 => unfold classify; rw [if_pos h0]
  | command t a ht h0 =>
    have := key t (b!" " ++ a) a (by simpa using splitCmd_args (cmdName_clean ht).1) (by simp [(cmdName_clean ht).2.1, h0])
    rw [if_pos ((cmdNameOk_iff max t).mpr ht)] at this
    simpa only [List.append_assoc] using this
  | bare t ht =>
    have := key t [] [] (by simpa using splitCmd_bare (cmdName_clean ht).1) (by simp [(cmdName_clean ht).2.1])
    rw [if_pos ((cmdNameOk_iff max t).mpr ht)] at this
    simpa only [List.append_nil] using this
  | badName t rest hs hn hr =>
    by_cases h0 : (0 : Byte) ∈ b!"$" ++ t ++ rest ++ b!"|"
    · unfold classify; rw [if_pos h0]
    · have hsp : ∃ a, splitCmd (t ++ rest) = (t, a) := by
        rcases hr with rfl | hr
        · exact ⟨[], by simpa using splitCmd_bare hs⟩
        · cases rest with
          | nil => simp at hr
          | cons b a => simp at hr; subst hr; exact ⟨a, splitCmd_args hs⟩
      obtain ⟨a, hsp⟩ := hsp
      rw [key t rest a hsp h0, if_neg (fun h => hn ((cmdNameOk_iff max t).mp h))]
  | chat t hne hd h0 =>
    unfold classify
    rw [if_neg (by simp [h0]), List.dropLast_concat]
    cases t with
    | nil => simp at hne
    | cons b t => simp only; rw [if_neg (by simpa using hd)]

omit [HtmlEntities] in
/-- **C32 (all lines are covered).** Every line but the keep-alive is a violation, a command or a chat message, and only
one of them. -/
theorem lines_covered (max : Int) (l : Bytes) (hl : IsLine delim l) (hne : l ≠ [delim]) :
    (∃ v, LineIs max l v) ∧ ∀ v v', LineIs max l v → LineIs max l v' → v = v' :=
  ⟨lineIs_total hl hne, fun _ _ h h' => (classify_of h).symm.trans (classify_of h')⟩

/-- Examples of the three verdicts. -/
example : LineIs 32 b!"$Hello joe smith|" (.command b!"Hello" b!"joe smith") ∧ LineIs 32 b!"$Hello|" (.command b!"Hello" []) ∧
    LineIs 32 b!"<joe> $hi|" (.chat b!"<joe> $hi") ∧ LineIs 3 b!"$Hello joe|" .violation ∧ LineIs 32 b!"$ joe|" .violation ∧
    LineIs 32 b!"$He+llo|" .violation := by
  have hn : CmdName 32 b!"Hello" := by
    refine ⟨by decide, by decide, ?_⟩
    unfold NameChar; decide +kernel
  refine ⟨.command b!"Hello" b!"joe smith" hn (by decide), .bare b!"Hello" hn, .chat b!"<joe> $hi" (by decide) (by decide) (by decide),
    .badName b!"Hello" b!" joe" (by decide) (fun h => absurd h.2.1 (by decide)) (.inr rfl),
    .badName [] b!" joe" (by decide) (fun h => absurd h.1 (by decide)) (.inr rfl),
    .badName b!"He+llo" [] (by decide) (fun h => ?_) (.inl rfl)⟩
  exact absurd (h.2.2 c!"+" (by decide)) (by unfold NameChar; decide)

/-- Errors of the connection, `io.EOF` included, are returned as they are, also after keep-alives; an unterminated tail is
lost. -/
theorem read_error (r : NReader Z) (henv : r.env = fun _ => {}) (n : Nat) (tail : Bytes) (e : Err) (lr : Reader Z)
    (hr : Lines I r (List.replicate n ([delim], none) ++ [(tail, some e)]) lr) :
    Reads I left r (.error e) { r with lines := lr } := by
  obtain ⟨k, hk⟩ := loop_of_consumes I (consumes_keepAlives (fun _ => rfl) n 0
    (.last (0 + n) _ (r.start none []) _ _ round_error)) r lr henv rfl hr
  exact ⟨k, fun f hf => by rw [NReader.readMsg, hk f hf]; rfl⟩

/-! ## A whole conversation -/

/-- Successive calls of `ReadMsg` and their results. -/
inductive MsgRuns : NReader Z → List (Except Err (Option Msg)) → NReader Z → Prop where
  | nil (r : NReader Z) : MsgRuns r [] r
  | cons (r r1 r2 : NReader Z) (res : Except Err (Option Msg)) (rest : List (Except Err (Option Msg)))
      (h : Reads I left r res r1) (t : MsgRuns r1 rest r2) : MsgRuns r (res :: rest) r2

/-- What `ReadMsg` must deliver for a line. -/
def Delivers (dec : Codec) (max : Int) (l : Bytes) (res : Except Err (Option Msg)) : Prop :=
  ∃ v, LineIs max l v ∧ match v with
    | .violation => res = .error .protocolViolation
    | .command typ args => (∃ m, (newMessage typ).unmarshal dec args = .ok m ∧ res = .ok (some m)) ∨
        ∃ e, (newMessage typ).unmarshal dec args = .err e ∧ res = .error e
    | .chat text => (∃ m, (Msg.chat {}).unmarshal dec text = .ok m ∧ res = .ok (some m)) ∨
        ∃ e, (Msg.chat {}).unmarshal dec text = .err e ∧ res = .error e

/-- The lines of a conversation (keep-alives among them) and the results of the calls of `ReadMsg` on it. -/
inductive Conversation (dec : Codec) (max : Int) : List Bytes → List (Except Err (Option Msg)) → Prop where
  | nil : Conversation dec max [] []
  | keepAlive (ls : List Bytes) (rs : List (Except Err (Option Msg))) (t : Conversation dec max ls rs) :
      Conversation dec max ([delim] :: ls) rs
  | line (l : Bytes) (ls : List Bytes) (res : Except Err (Option Msg)) (rs : List (Except Err (Option Msg)))
      (hne : l ≠ [delim]) (hl : IsLine delim l) (h : Delivers dec max l res) (t : Conversation dec max ls rs) :
      Conversation dec max (l :: ls) (res :: rs)

theorem reads_delivers (r : NReader Z) (henv : r.env = fun _ => {}) (n : Nat) (l : Bytes) (hl : IsLine delim l)
    {res : Except Err (Option Msg)} (hd : Delivers r.dec r.maxCmdName l res) (lr : Reader Z)
    (hr : Lines I r (afterKeepAlives n l) lr) : Reads I left r res { r with lines := lr } := by
  obtain ⟨v, hv, h⟩ := hd
  have := dispatch I left r henv n l hl v hv lr hr
  cases v with
  | violation => simp only at h; subst h; exact this
  | command typ args =>
    simp only [Decodes] at this h
    rcases h with ⟨m, hm, rfl⟩ | ⟨e, he, rfl⟩
    · rw [hm] at this; exact this
    · rw [he] at this; exact this
  | chat text =>
    simp only [Decodes] at this h
    rcases h with ⟨m, hm, rfl⟩ | ⟨e, he, rfl⟩
    · rw [hm] at this; exact this
    · rw [he] at this; exact this

omit [HtmlEntities] in
theorem runs_split {r r2 : Reader Z} {os os' : List Obs} (h : Reader.Runs I r (os ++ os') r2) :
    ∃ r1, Reader.Runs I r os r1 ∧ Reader.Runs I r1 os' r2 := by
  induction os generalizing r with
  | nil => exact ⟨r, .nil r, h⟩
  | cons o os ih =>
    cases h with
    | line _ r1 _ res _ h t =>
      obtain ⟨r1, h1, h2⟩ := ih t
      exact ⟨r1, .line _ _ _ _ _ h h1, h2⟩
    | zlib _ r1 _ sched _ h t =>
      obtain ⟨r1, h1, h2⟩ := ih t
      exact ⟨r1, .zlib _ _ _ _ _ h h1, h2⟩
    | binary _ r1 r2 _ sz left left1 reads _ hb hr hc t =>
      obtain ⟨r1, h1, h2⟩ := ih t
      exact ⟨r1, .binary _ _ _ _ _ _ _ _ _ hb hr hc h1, h2⟩

/-- **C32 (a stream of lines).** Successive calls of `ReadMsg` deliver the messages of the lines in order, skipping the
keep-alives, and then the error that ended the stream. -/
theorem conversation (ls : List Bytes) (rs : List (Except Err (Option Msg))) (r : NReader Z) (henv : r.env = fun _ => {})
    (hc : Conversation r.dec r.maxCmdName ls rs) (tail : Bytes) (e : Err) (lr : Reader Z)
    (hr : Lines I r (ls.map (fun l => (l, none)) ++ [(tail, some e)]) lr) :
    MsgRuns I left r (rs ++ [.error e]) { r with lines := lr } := by
  have main : ∀ (ls : List Bytes) (rs : List (Except Err (Option Msg))) (n : Nat) (r : NReader Z), r.env = (fun _ => {}) →
      Conversation r.dec r.maxCmdName ls rs →
      Lines I r (List.replicate n ([delim], none) ++ (ls.map (fun l => (l, none)) ++ [(tail, some e)])) lr →
      MsgRuns I left r (rs ++ [.error e]) { r with lines := lr } := by
    intro ls
    induction ls with
    | nil =>
      intro rs n r henv hc hr
      cases hc
      exact .cons _ _ _ _ _ (read_error I left r henv n tail e lr hr) (.nil _)
    | cons l ls ih =>
      intro rs n r henv hc hr
      cases hc with
      | keepAlive _ _ t =>
        refine ih rs (n + 1) r henv t ?_
        rw [List.replicate_succ']
        simpa using hr
      | line _ _ res rs hne hl h t =>
        have hr' : Reader.Runs I r.lines ((afterKeepAlives n l).map Obs.line ++
            (ls.map (fun l => (l, none)) ++ [(tail, some e)]).map Obs.line) lr := by
          rw [← List.map_append]; simpa [afterKeepAlives, Lines] using hr
        obtain ⟨r1, h1, h2⟩ := runs_split I hr'
        refine .cons _ { r with lines := r1 } _ _ _ (reads_delivers I left r henv n l hl h r1 h1) ?_
        exact ih rs 0 { r with lines := r1 } henv t (by simpa [Lines] using h2)
  exact main ls rs 0 r henv hc (by simpa using hr)

/-- The same from the bytes of the connection: for every chunking. -/
theorem conversation_stream (s : Src) (hs : Props.LineReader.DataOnly s) (max : Int) (rs : List (Except Err (Option Msg)))
    (hmax : max ≤ 0 ∨ (∀ l ∈ (splitLines delim (Props.LineReader.bytesOf s)).1, (l.length : Int) ≤ max) ∧
      ((splitLines delim (Props.LineReader.bytesOf s)).2.length : Int) < max) (dec : Codec) (maxCmdName : Int)
    (hc : Conversation dec maxCmdName (splitLines delim (Props.LineReader.bytesOf s)).1 rs) :
    ∃ r', MsgRuns I left { lines := (newReader s delim).setMaxLine max, dec, maxCmdName } (rs ++ [.error .eof]) r' := by
  obtain ⟨lr, hr⟩ := Props.LineReader.readLine_chunk_independent I s hs delim max 0 hmax
  refine ⟨_, conversation I left _ rs _ rfl hc (splitLines delim (Props.LineReader.bytesOf s)).2 .eof lr ?_⟩
  simp only [List.replicate_zero, List.append_nil] at hr
  simpa [Lines, Function.comp_def] using hr

/-- A conversation: a keep-alive, a name, an unknown command, a bad line, a chat message, a decoding error. -/
example : letI := basicEntities
    Conversation none 32 [b!"|", b!"$Hello joe|", b!"|", b!"$Foo 1 2|", b!"$|", b!"<joe> hi|", b!"$GetPass x|"]
      [.ok (some (.name .hello b!"joe")), .ok (some (.raw b!"Foo" b!"1 2")), .error .protocolViolation,
       .ok (some (.chat { name := b!"joe", text := b!"hi" })), .error (.other 14)] := by
  letI := basicEntities
  have hl : ∀ b : Bytes, delim ∉ b → IsLine delim (b ++ [delim]) := fun b h => ⟨b, h, rfl⟩
  have nm : ∀ t : Bytes, t ≠ [] → (t.length : Int) ≤ 32 → isASCII t = true → CmdName 32 t := by
    intro t h1 h2 h3
    exact (cmdNameOk_iff 32 t).mp (by simp [cmdNameOk, h1, h2, h3])
  refine .keepAlive _ _ (.line _ _ _ _ (by decide) (hl b!"$Hello joe" (by decide)) ?_ (.keepAlive _ _ (.line _ _ _ _ (by decide)
    (hl b!"$Foo 1 2" (by decide)) ?_ (.line _ _ _ _ (by decide) (hl b!"$" (by decide)) ?_ (.line _ _ _ _ (by decide)
    (hl b!"<joe> hi" (by decide)) ?_ (.line _ _ _ _ (by decide) (hl b!"$GetPass x" (by decide)) ?_ .nil))))))
  · exact ⟨_, .command b!"Hello" b!"joe" (nm _ (by decide) (by decide) (by decide)) (by decide), .inl ⟨_, by decide +kernel, rfl⟩⟩
  · exact ⟨_, .command b!"Foo" b!"1 2" (nm _ (by decide) (by decide) (by decide)) (by decide), .inl ⟨_, by decide +kernel, rfl⟩⟩
  · exact ⟨_, .badName [] [] (by decide) (fun h => h.1 rfl) (.inl rfl), rfl⟩
  · exact ⟨_, .chat b!"<joe> hi" (by decide) (by decide) (by decide), .inl ⟨_, by decide +kernel, rfl⟩⟩
  · exact ⟨_, .command b!"GetPass" b!"x" (nm _ (by decide) (by decide) (by decide)) (by decide), .inr ⟨_, by decide +kernel, rfl⟩⟩

/-! ## C33 -/

/-- **C33 (`ReadMsgTo`).** On a connection without callbacks, after any keep-alives, `ReadMsgTo(m)`

* reports a violation and leaves `m` alone;
* decodes a command that has the name of `m` into `m` itself;
* decodes a chat line into `m` if `m` is a chat message;
* otherwise leaves `m` alone and returns an error with the received name (empty for chat) and arguments. -/
theorem read_to (r : NReader Z) (henv : r.env = fun _ => {}) (m : Msg) (n : Nat) (l : Bytes) (hl : IsLine delim l)
    (v : Verdict) (hv : LineIs r.maxCmdName l v) (lr : Reader Z) (hr : Lines I r (afterKeepAlives n l) lr) :
    match v with
    | .violation => ReadsTo I left r m (some .protocolViolation) m { r with lines := lr }
    | .command typ args =>
      if m.typ = typ then
        Decodes r.dec m args fun
          | .ok m' => ReadsTo I left r m none m' { r with lines := lr }
          | .error e => ∃ m', ReadsTo I left r m (some e) m' { r with lines := lr }
      else ReadsTo I left r m (some (.unexpectedCommand m.typ typ args)) m { r with lines := lr }
    | .chat text =>
      if m.isChat then
        Decodes r.dec m text fun
          | .ok m' => ReadsTo I left r m none m' { r with lines := lr }
          | .error e => ∃ m', ReadsTo I left r m (some e) m' { r with lines := lr }
      else ReadsTo I left r m (some (.unexpectedCommand m.typ [] text)) m { r with lines := lr } := by
  have base : ∀ o, Consumes (fun _ => {}) left r.maxCmdName n [(l, none)] (r.start (some m) []) o →
      ∃ k, ∀ fuel ≥ k, NReader.loop I left fuel 0 r (r.start (some m) []) = loopResult r lr o := fun o h =>
    loop_of_consumes I (consumes_keepAlives (fun _ => rfl) n 0 (by simpa using h)) r lr henv rfl hr
  have fin : ∀ e m', Consumes (fun _ => {}) left r.maxCmdName n [(l, none)] (r.start (some m) [])
      (some (e, ⟨r.dec, r.dec, some m', [], none⟩)) → ReadsTo I left r m e m' { r with lines := lr } := by
    intro e m' h
    obtain ⟨k, hk⟩ := base _ h
    exact ⟨k, fun f hf => by rw [NReader.readMsgTo, hk f hf]; rfl⟩
  cases v with
  | violation => exact fin _ _ (.last n _ _ _ _ (round_violation hv hl rfl))
  | command typ args =>
    have hround := round_command (env := {}) (left := left) (st := r.start (some m) []) hv rfl
    have htyp : typ ≠ [] := by cases hv with | command _ _ h => exact h.1 | bare _ h => exact h.1
    simp only [targetCmd, NReader.start] at hround
    simp only
    split
    · rename_i ht
      have hc : m.isChat = false := by
        cases m <;> first | rfl | (simp only [Msg.typ] at ht; exact absurd ht.symm htyp)
      rw [hc] at hround
      simp only [Bool.false_eq_true, if_false, ht, ne_eq, not_true_eq_false, decode_quiet, St.put] at hround
      simp only [Decodes]
      cases hu : m.unmarshal r.dec args with
      | panic => trivial
      | ok m' => simp only [hu] at hround; exact fin _ _ (.last n _ _ _ _ hround)
      | err e => simp only [hu] at hround; exact ⟨_, fin _ _ (.last n _ _ _ _ hround)⟩
    · rename_i ht
      by_cases hc : m.isChat = true
      · have : m.typ = [] := by cases m <;> first | rfl | (simp [Msg.isChat] at hc)
        simp only [hc, if_true] at hround
        rw [this]
        exact fin _ _ (.last n _ _ _ _ hround)
      · simp only [hc, ne_eq, ht, not_false_eq_true, if_true] at hround
        exact fin _ _ (.last n _ _ _ _ hround)
  | chat text =>
    have hround := round_chat (env := {}) (left := left) (st := r.start (some m) []) hv rfl
    simp only [targetChat, NReader.start] at hround
    simp only
    split
    · rename_i hc
      simp only [hc, if_true, decode_quiet, St.put] at hround
      simp only [Decodes]
      cases hu : m.unmarshal r.dec text with
      | panic => trivial
      | ok m' => simp only [hu] at hround; exact fin _ _ (.last n _ _ _ _ hround)
      | err e => simp only [hu] at hround; exact ⟨_, fin _ _ (.last n _ _ _ _ hround)⟩
    · rename_i hc
      simp only [hc] at hround
      exact fin _ _ (.last n _ _ _ _ hround)

/-- `m` is at position `i` and is the first with property `p`. -/
def FirstWith (p : Msg → Bool) (arr : List Msg) (i : Nat) (m : Msg) : Prop :=
  arr[i]? = some m ∧ p m = true ∧ ∀ j m', j < i → arr[j]? = some m' → p m' = false

omit [HtmlEntities] in
theorem pick_spec (p : Msg → Bool) (arr : List Msg) (k : Nat) :
    (∀ i m, FirstWith p arr i m → pick p arr k = some (k + i, m)) ∧ ((∀ m ∈ arr, p m = false) → pick p arr k = none) := by
  induction arr generalizing k with
  | nil => exact ⟨fun i m h => by simp [FirstWith] at h, fun _ => rfl⟩
  | cons x arr ih =>
    constructor
    · intro i m h
      unfold pick
      cases i with
      | zero =>
        obtain ⟨h1, h2, _⟩ := h
        simp at h1; subst h1
        rw [if_pos h2]; rfl
      | succ i =>
        obtain ⟨h1, h2, h3⟩ := h
        have hx : p x = false := h3 0 x (by omega) rfl
        rw [if_neg (by simp [hx])]
        rw [(ih (k + 1)).1 i m ⟨by simpa using h1, h2, fun j m' hj hm => h3 (j + 1) m' (by omega) (by simpa using hm)⟩]
        congr 2; omega
    · intro h
      unfold pick
      rw [if_neg (by simp [h x (by simp)])]
      exact (ih (k + 1)).2 fun m hm => h m (by simp [hm])

/-- The targets that may take a line: a raw message, a message of the same name; for chat, a chat message. -/
def takes (v : Verdict) (m : Msg) : Bool :=
  match v with
  | .violation => false
  | .command typ _ => m.isRaw || m.typ = typ
  | .chat _ => m.isRaw || m.isChat

/-- The name and arguments of a line, as an error reports them. -/
def received : Verdict → Bytes × Bytes
  | .violation => ([], [])
  | .command typ args => (typ, args)
  | .chat text => ([], text)

/-- The message is of the type of the line. -/
def sameType (v : Verdict) (m : Msg) : Prop :=
  match v with
  | .violation => False
  | .command typ _ => m.typ = typ
  | .chat _ => m.isChat = true

/-- **C33 (`ReadMsgToAny`).** On a connection without callbacks, after any keep-alives, `ReadMsgToAny(arr...)`

* reports a violation;
* if no target takes the line, returns an error with the name of the first target and the received name and arguments;
* otherwise, if the first target that takes the line is of its type, decodes the line into that very target and
  returns it;
* otherwise (that target is a `RawMessage` of another name) returns an error with the received name and arguments.

In all cases the other targets are left alone. -/
theorem read_to_any (r : NReader Z) (henv : r.env = fun _ => {}) (first : Msg) (more : List Msg) (n : Nat) (l : Bytes)
    (hl : IsLine delim l) (v : Verdict) (hv : LineIs r.maxCmdName l v) (lr : Reader Z)
    (hr : Lines I r (afterKeepAlives n l) lr) :
    (v = .violation → ReadsToAny I left r (first :: more) (.error .protocolViolation) (first :: more) { r with lines := lr }) ∧
    (v ≠ .violation → (∀ m ∈ first :: more, takes v m = false) →
      ReadsToAny I left r (first :: more) (.error (.unexpectedCommand first.typ (received v).1 (received v).2)) (first :: more)
        { r with lines := lr }) ∧
    (∀ i m, FirstWith (takes v) (first :: more) i m →
      (sameType v m → Decodes r.dec m (received v).2 fun
        | .ok m' => ReadsToAny I left r (first :: more) (.ok (some i)) ((first :: more).set i m') { r with lines := lr }
        | .error e => ∃ m', ReadsToAny I left r (first :: more) (.error e) ((first :: more).set i m') { r with lines := lr }) ∧
      (¬ sameType v m → m.isRaw = true ∧
        ReadsToAny I left r (first :: more) (.error (.unexpectedCommand m.typ (received v).1 (received v).2)) (first :: more)
          { r with lines := lr })) := by
  generalize harr : first :: more = arr
  have fin : ∀ e st, Consumes (fun _ => {}) left r.maxCmdName n [(l, none)] (r.start none arr)
      (some (e, st)) → st.rdec = r.dec →
      (∀ x, e = some x → ReadsToAny I left r arr (.error x) st.arr { r with lines := lr }) ∧
      (e = none → ReadsToAny I left r arr (.ok st.hit) st.arr { r with lines := lr }) := by
    intro e st h hd
    obtain ⟨k, hk⟩ := loop_of_consumes I (consumes_keepAlives (fun _ => rfl) n 0 (by simpa using h)) r lr henv rfl hr
    subst harr
    refine ⟨fun x hx => ⟨k, fun f hf => ?_⟩, fun hx => ⟨k, fun f hf => ?_⟩⟩
    · subst hx; rw [NReader.readMsgToAny, hk f hf]; simp only [loopResult, hd]
    · subst hx; rw [NReader.readMsgToAny, hk f hf]; simp only [loopResult, hd]
  have hput : ∀ i m', (St.mk (r.start none arr).dec (r.start none arr).rdec (r.start none arr).cur arr (some i)).put m' = ⟨r.dec, r.dec, none, arr.set i m', some i⟩ := by
    intro i m'; subst harr; rfl
  cases v with
  | violation =>
    refine ⟨fun _ => (fin _ _ (.last n _ _ _ _ (round_violation hv hl rfl)) rfl).1 _ rfl, fun h => absurd rfl h, ?_⟩
    intro i m h
    exact absurd h.2.1 (by simp [takes])
  | command typ args =>
    have hround := round_command (env := {}) (left := left) (st := r.start none arr) hv rfl
    have htyp : typ ≠ [] := by cases hv with | command _ _ h => exact h.1 | bare _ h => exact h.1
    have harr' : (r.start none arr).arr = first :: more := by rw [← harr]; rfl
    simp only [targetCmd, harr'] at hround
    refine ⟨fun h => by simp at h, ?_, ?_⟩
    · intro _ hno
      have : pick (fun m => m.isRaw || decide (m.typ = typ)) arr 0 = none := (pick_spec (takes (.command typ args)) arr 0).2 hno
      rw [harr, this] at hround
      exact (fin _ _ (.last n _ _ _ _ hround) rfl).1 _ rfl
    · intro i m hf
      have : pick (fun m => m.isRaw || decide (m.typ = typ)) arr 0 = some (i, m) := by
        have := (pick_spec (takes (.command typ args)) arr 0).1 i m hf
        rwa [Nat.zero_add] at this
      rw [harr, this] at hround
      simp only at hround
      refine ⟨fun hs => ?_, fun hs => ?_⟩
      · simp only [sameType] at hs
        have hc : m.isChat = false := by
          cases m <;> first | rfl | (simp only [Msg.typ] at hs; exact absurd hs.symm htyp)
        rw [hc] at hround
        simp only [Bool.false_eq_true, if_false, hs, ne_eq, not_true_eq_false, decode_quiet, hput] at hround
        simp only [Decodes, received]
        have hdec : (r.start none arr).dec = r.dec := rfl
        rw [hdec] at hround
        cases hu : m.unmarshal r.dec args with
        | panic => trivial
        | ok m' => simp only [hu] at hround; exact (fin _ _ (.last n _ _ _ _ hround) rfl).2 rfl
        | err e => simp only [hu] at hround; exact ⟨_, (fin _ _ (.last n _ _ _ _ hround) rfl).1 _ rfl⟩
      · simp only [sameType] at hs
        have hraw : m.isRaw = true := by
          have := hf.2.1
          simpa [takes, hs] using this
        have hc : m.isChat = false := by cases m <;> first | rfl | (simp [Msg.isRaw] at hraw)
        rw [hc] at hround
        simp only [Bool.false_eq_true, if_false, hs, ne_eq, not_false_eq_true, if_true] at hround
        exact ⟨hraw, (fin _ _ (.last n _ _ _ _ hround) rfl).1 _ rfl⟩
  | chat text =>
    have hround := round_chat (env := {}) (left := left) (st := r.start none arr) hv rfl
    have harr' : (r.start none arr).arr = first :: more := by rw [← harr]; rfl
    simp only [targetChat, harr'] at hround
    refine ⟨fun h => by simp at h, ?_, ?_⟩
    · intro _ hno
      have : pick (fun m => m.isRaw || m.isChat) arr 0 = none := (pick_spec (takes (.chat text)) arr 0).2 hno
      rw [harr, this] at hround
      exact (fin _ _ (.last n _ _ _ _ hround) rfl).1 _ rfl
    · intro i m hf
      have : pick (fun m => m.isRaw || m.isChat) arr 0 = some (i, m) := by
        have := (pick_spec (takes (.chat text)) arr 0).1 i m hf
        rwa [Nat.zero_add] at this
      rw [harr, this] at hround
      simp only at hround
      refine ⟨fun hs => ?_, fun hs => ?_⟩
      · simp only [sameType] at hs
        simp only [hs, if_true, decode_quiet, hput] at hround
        simp only [Decodes, received]
        have hdec : (r.start none arr).dec = r.dec := rfl
        rw [hdec] at hround
        cases hu : m.unmarshal r.dec text with
        | panic => trivial
        | ok m' => simp only [hu] at hround; exact (fin _ _ (.last n _ _ _ _ hround) rfl).2 rfl
        | err e => simp only [hu] at hround; exact ⟨_, (fin _ _ (.last n _ _ _ _ hround) rfl).1 _ rfl⟩
      · simp only [sameType] at hs
        have hraw : m.isRaw = true := by
          have := hf.2.1
          simpa [takes, hs] using this
        simp only [hs] at hround
        exact ⟨hraw, (fin _ _ (.last n _ _ _ _ hround) rfl).1 _ rfl⟩

end Verif.Props.NmdcReader
