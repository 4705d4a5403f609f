import Verif.Nmdc.Writer
import Verif.Props.LineDuplex
import Verif.Props.NmdcReader
import Verif.Props.NmdcMessages
import Verif.Props.NmdcLines
import Verif.Props.NmdcChat

/-!
# What one side of an NMDC connection sends the other side receives (C34)
-/

namespace Verif.Props.NmdcConn

open Verif.Go Verif.Nmdc Verif.Lineproto Verif.Spec
open Verif.Props.LineReader (chunks toy)
open Verif.Props.LineWriter (Seg sections stored)
open Verif.Props.LineDuplex (Part segsOf readObs Proper lines_arrive)
open Verif.Props.NmdcReader

variable [HtmlEntities] {D : Type} (C : Deflater D) {Z : Type} (I : Inflater Z) (left : Codec → Msg → Bytes → Msg)

/-! ## Messages that survive the trip -/

/-- The message `x.1`, written while its map is visited in the order `x.2`, is a line that the reader delivers as `m'`. -/
def Travels (enc dec : Codec) (max : Int) (x : Msg × Order) (m' : Msg) : Prop :=
  ∃ l, marshalTo enc x.2 [] x.1 = .ok l ∧ l ≠ [delim] ∧ IsLine delim l ∧ Delivers dec max l (.ok (some m'))

/-- A command survives if its name is a command name, its payload has no delimiter and no NUL, and the payload decodes. -/
theorem command_travels {enc dec : Codec} {max : Int} {m m' : Msg} {ord : Order} {p : Bytes} (hn : CmdName max m.typ)
    (hm : m.marshal enc ord = .ok p) (hbar : delim ∉ p) (h0 : (0 : Byte) ∉ p)
    (hu : (newMessage m.typ).unmarshal dec p = .ok m') : Travels enc dec max (m, ord) m' := by
  have hne : m.typ ≠ [] := hn.1
  have hclean := cmdName_clean hn
  have hb : delim ∉ m.typ := fun h => by
    have := hn.2.2 _ h
    revert this; unfold NameChar; decide
  by_cases hp : p = []
  · subst hp
    have hmt : marshalTo enc ord [] m = .ok (b!"$" ++ m.typ ++ b!"|") := by
      unfold marshalTo
      rw [hm]
      simp [finishMsg, msgHead, hne, bind, Res.bind, List.dropLast_append_of_ne_nil, delim, List.dropLast_cons_of_ne_nil]
    refine ⟨_, hmt, by simp [delim], ⟨b!"$" ++ m.typ, by simp [hb]; decide, by simp [delim]⟩, .command m.typ [], .bare _ hn, .inl ⟨_, hu, rfl⟩⟩
  · have hmt : marshalTo enc ord [] m = .ok (b!"$" ++ m.typ ++ b!" " ++ p ++ b!"|") := by
      unfold marshalTo
      rw [hm]
      simp [finishMsg, msgHead, hne, bind, Res.bind, hp, delim]
    refine ⟨_, hmt, by simp [delim], ⟨b!"$" ++ m.typ ++ b!" " ++ p, by simp [hb, hbar]; decide, by simp [delim]⟩,
      .command m.typ p, ?_, .inl ⟨_, hu, rfl⟩⟩
    exact .command _ _ hn h0

/-- A chat message survives if its text is not empty, does not begin with `$`, has no delimiter and no NUL, and decodes. -/
theorem chat_travels {enc dec : Codec} {max : Int} {c : ChatMessage} {m' : Msg} {ord : Order} {p : Bytes}
    (hm : (Msg.chat c).marshal enc ord = .ok p) (hne : p ≠ []) (hd : p.head? ≠ some c!"$") (hbar : delim ∉ p)
    (h0 : (0 : Byte) ∉ p) (hu : (Msg.chat {}).unmarshal dec p = .ok m') : Travels enc dec max (.chat c, ord) m' := by
  have hmt : marshalTo enc ord [] (.chat c) = .ok (p ++ b!"|") := by
    unfold marshalTo
    rw [hm]
    simp [finishMsg, msgHead, Msg.typ, bind, Res.bind, hne, delim]
  exact ⟨_, hmt, by simp [delim, hne], ⟨p, hbar, by simp [delim]⟩, .chat p, .chat p hne hd h0, .inl ⟨_, hu, rfl⟩⟩

/-- For the registered commands it is enough that the payload has no NUL, that it decodes, and that the fields written without
escaping have no delimiter. -/
theorem registered_travels {enc dec : Codec} {m m' : Msg} {ord : Order} {p : Bytes} (hraw : m.isRaw = false)
    (hc : m.isChat = false) (hm : m.marshal enc ord = .ok p) (hbar : c!"|" ∉ NmdcLines.rawFields ord m) (h0 : (0 : Byte) ∉ p)
    (hu : m.fresh.unmarshal dec p = .ok m') : Travels enc dec 32 (m, ord) m' := by
  have hn : CmdName 32 m.typ := by
    have e1 : ∀ k : ErrKind, cmdNameOk 32 k.typ = true := by intro k; cases k <;> decide
    have e2 : ∀ k : NameKind, cmdNameOk 32 k.typ = true := by intro k; cases k <;> decide
    have e3 : ∀ k : TextKind, cmdNameOk 32 k.typ = true := by intro k; cases k <;> decide
    have e4 : ∀ k : ArgsKind, cmdNameOk 32 k.typ = true := by intro k; cases k <;> decide
    have e5 : ∀ k : ValueKind, cmdNameOk 32 k.typ = true := by intro k; cases k <;> decide
    have e6 : ∀ k : ListKind, cmdNameOk 32 k.typ = true := by intro k; cases k <;> decide
    apply (cmdNameOk_iff 32 _).mp
    cases m <;> simp only [Msg.typ]
    all_goals first | exact e1 _ | exact e2 _ | exact e3 _ | exact e4 _ | exact e5 _ | exact e6 _ | (cases hraw; done) | (cases hc; done) | decide
  refine command_travels hn hm (fun h => hbar ((NmdcLines.payload_bar hm).mp h)) h0 ?_
  rw [(NmdcMessages.newMessage_registered hraw).1]
  exact hu

/-- Chat messages: those with a round trip (`NmdcChat.chat_roundtrip`), if name and text are not both empty. -/
theorem chat_message_travels {enc dec : Codec} (hl : Lossless enc dec) {m : ChatMessage} {ord : Order} {p : Bytes}
    (hname : m.name ≠ [] ∧ NameOk enc m.name ∨ m.name = [] ∧ ∀ e, enc.run m.text = .ok e → e.head? ≠ some c!"<")
    (htext : TextOk enc m.text) (h : m.marshal enc = .ok p) (hne : p ≠ []) (max : Int) :
    Travels enc dec max (.chat m, ord) (.chat m) := by
  have hm : (Msg.chat m).marshal enc ord = .ok p := h
  have hu : (Msg.chat {}).unmarshal dec p = .ok (.chat m) := by
    have := NmdcChat.chat_roundtrip hl hname htext h
    simp only [Msg.unmarshal, this]
    rfl
  have hp : p.head? ≠ some c!"$" ∧ (0 : Byte) ∉ p := by
    unfold ChatMessage.marshal at h
    simp only at h
    split at h
    · obtain ⟨n, hn, h⟩ := Res.bind_eq_ok.mp h
      obtain ⟨x, hx, h⟩ := Res.bind_eq_ok.mp h
      obtain ⟨t, ht, h⟩ := Res.bind_eq_ok.mp h
      cases hx
      cases h
      have hct := str_marshal_clean ht
      have hcn := name_marshal_clean hn
      refine ⟨by simp, ?_⟩
      simp only [List.mem_append, not_or]
      exact ⟨⟨⟨by decide, fun h => (hcn _ h).2.2.2.2.1 rfl⟩, by decide⟩, fun h => (hct _ h).2.2 rfl⟩
    · obtain ⟨x, hx, h⟩ := Res.bind_eq_ok.mp h
      obtain ⟨t, ht, h⟩ := Res.bind_eq_ok.mp h
      cases hx
      cases h
      have hct := str_marshal_clean ht
      refine ⟨fun hd => ?_, fun h => (hct _ h).2.2 rfl⟩
      cases t with
      | nil => simp at hd
      | cons c t =>
        simp at hd
        subst hd
        exact (hct c!"$" (by simp)).1 rfl
  exact chat_travels hm hne hp.1 (fun hb => absurd ((NmdcLines.payload_bar hm).mp hb) (by simp [NmdcLines.rawFields])) hp.2 hu

/-! ## The writer -/

/-- The line of a message, if it has one. -/
def lineD (enc : Codec) (x : Msg × Order) : Bytes :=
  match marshalTo enc x.2 [] x.1 with
  | .ok l => l
  | _ => []

/-- Calls that send messages, keep-alives and nothing else. -/
def Quiet : NOp → Prop
  | .keepAlive | .msgs _ | .flush => True
  | _ => False

/-- The messages given to these calls. -/
def sentMsgs : List NOp → List (Msg × Order)
  | [] => []
  | .msgs ms :: ops => ms ++ sentMsgs ops
  | _ :: ops => sentMsgs ops

/-- The lines these calls write. -/
def sentLines (enc : Codec) : List NOp → List Bytes
  | [] => []
  | .msgs ms :: ops => ms.map (lineD enc) ++ sentLines enc ops
  | .keepAlive :: ops => [delim] :: sentLines enc ops
  | _ :: ops => sentLines enc ops

/-- The calls of the line writer behind a call of the message writer. -/
def wops (enc : Codec) : NOp → List WOp
  | .keepAlive => [.line [delim]]
  | .msgs ms => ms.map fun x => .line (lineD enc x)
  | .flush => [.flush]
  | .zOn lvl => [.line b!"$ZOn|", .enable lvl]
  | .zOff => [.disable]
  | .close => [.close]
  | .onMessage _ | .setEncoder _ => []

omit [HtmlEntities] in
theorem run_append {a b : List WOp} {w w1 w2 : Writer D} {rs rs'} (h1 : Writer.run C a w = .val (rs, w1))
    (h2 : Writer.run C b w1 = .val (rs', w2)) : Writer.run C (a ++ b) w = .val (rs ++ rs', w2) := by
  induction a generalizing w rs with
  | nil => simp only [Writer.run] at h1; cases h1; simpa using h2
  | cons op a ih =>
    simp only [Writer.run] at h1
    simp only [List.cons_append, Writer.run]
    cases hs : w.step C op with
    | panic => rw [hs] at h1; cases h1
    | timeout => rw [hs] at h1; cases h1
    | val x =>
      obtain ⟨r, w0⟩ := x
      rw [hs] at h1
      simp only at h1 ⊢
      cases hr : Writer.run C a w0 with
      | panic => rw [hr] at h1; cases h1
      | timeout => rw [hr] at h1; cases h1
      | val y =>
        rw [hr] at h1
        cases h1
        rw [ih hr]
        rfl

omit [HtmlEntities] in
/-- The run of a successful call of the line writer. -/
theorem run_one {op : WOp} {f : Writer D → Exec (Option Err × Writer D)} {w w1 : Writer D}
    (hst : w.step C op = match f w with | .val (e, w) => .val ((0, e), w) | .panic => .panic | .timeout => .timeout)
    (h : f w = .val (none, w1)) : Writer.run C [op] w = .val ([(0, none)], w1) := by
  simp only [Writer.run, hst, h]

omit [HtmlEntities] in
theorem writeLoop_lines (ms : List (Msg × Order)) : ∀ (w w' : NWriter D), w.onMessage = [] →
    (∀ x ∈ ms, ∃ l, marshalTo w.enc x.2 [] x.1 = .ok l) → w.writeLoop C ms = .val (none, w') →
    ∃ rs, Writer.run C (ms.map fun x => .line (lineD w.enc x)) w.lines = .val (rs, w'.lines) ∧ (∀ r ∈ rs, r.2 = none) ∧
      w'.onMessage = [] ∧ w'.enc = w.enc := by
  induction ms with
  | nil =>
    intro w w' hh _ h
    simp only [NWriter.writeLoop] at h
    cases h
    exact ⟨[], rfl, by simp, hh, rfl⟩
  | cons x ms ih =>
    intro w w' hh hm h
    obtain ⟨l, hl⟩ := hm x (by simp)
    obtain ⟨m, ord⟩ := x
    simp only [NWriter.writeLoop, hh, runAll, hl] at h
    have hld : lineD w.enc (m, ord) = l := by simp only [lineD] at hl ⊢; rw [hl]
    cases hw : w.lines.writeLine C l with
    | panic => rw [hw] at h; cases h
    | timeout => rw [hw] at h; cases h
    | val y =>
      obtain ⟨e, lw⟩ := y
      rw [hw] at h
      cases e with
      | some e => cases h
      | none =>
        simp only at h
        obtain ⟨rs, h1, h2, h3, h4⟩ := ih { w with lines := lw } w' hh (fun x hx => hm x (by simp [hx]))
          (by rw [← h]; congr 1; cases w; simp_all)
        refine ⟨(0, none) :: rs, ?_, by simpa using h2, h3, h4⟩
        simp only [List.map_cons, hld]
        exact run_append C (a := [.line l]) (rs := [(0, none)]) (run_one C (f := fun w => w.writeLine C l) rfl hw) h1

omit [HtmlEntities] in
theorem step_lines (op : NOp) (hop : Quiet op ∨ (∃ lvl, op = .zOn lvl) ∨ op = .zOff) (w w' : NWriter D) (hh : w.onMessage = [])
    (hm : ∀ x ∈ sentMsgs [op], ∃ l, marshalTo w.enc x.2 [] x.1 = .ok l) (h : w.step C op = .val (none, w')) :
    ∃ rs, Writer.run C (wops w.enc op) w.lines = .val (rs, w'.lines) ∧ (∀ r ∈ rs, r.2 = none) ∧ w'.onMessage = [] ∧
      w'.enc = w.enc := by
  have lift1 : ∀ (o : WOp) (f : Writer D → Exec (Option Err × Writer D)) (w w' : NWriter D), w.onMessage = [] →
      (w.lines.step C o = match f w.lines with | .val (e, w) => .val ((0, e), w) | .panic => .panic | .timeout => .timeout) →
      w.lift (f w.lines) = .val (none, w') →
      ∃ rs, Writer.run C [o] w.lines = .val (rs, w'.lines) ∧ (∀ r ∈ rs, r.2 = none) ∧ w'.onMessage = [] ∧ w'.enc = w.enc := by
    intro o f w w' hh hst h
    cases hf : f w.lines with
    | panic => rw [hf] at h; cases h
    | timeout => rw [hf] at h; cases h
    | val y =>
      obtain ⟨e, lw⟩ := y
      rw [hf] at h
      simp only [NWriter.lift] at h
      cases h
      exact ⟨_, run_one C hst hf, by simp, hh, rfl⟩
  cases op with
  | keepAlive => exact lift1 _ _ w w' hh rfl h
  | flush => exact lift1 _ _ w w' hh rfl h
  | zOff => exact lift1 _ _ w w' hh rfl h
  | msgs ms =>
    simp only [NWriter.step, NWriter.writeMsg] at h
    split at h
    · cases h
    · exact writeLoop_lines C ms w w' hh (by simpa [sentMsgs] using hm) h
  | zOn lvl =>
    simp only [NWriter.step, NWriter.zOn] at h
    cases hw : w.lines.writeLine C b!"$ZOn|" with
    | panic => rw [hw] at h; cases h
    | timeout => rw [hw] at h; cases h
    | val y =>
      obtain ⟨e, lw⟩ := y
      rw [hw] at h
      cases e with
      | some e => cases h
      | none =>
        simp only at h
        obtain ⟨rs, h1, h2, h3, h4⟩ := lift1 (.enable lvl) _ { w with lines := lw } w' hh rfl h
        refine ⟨(0, none) :: rs, ?_, by simpa using h2, h3, h4⟩
        exact run_append C (a := [.line b!"$ZOn|"]) (rs := [(0, none)]) (run_one C (f := fun w => w.writeLine C b!"$ZOn|") rfl hw) h1
  | close => simp [Quiet] at hop
  | onMessage f => simp [Quiet] at hop
  | setEncoder e => simp [Quiet] at hop

omit [HtmlEntities] in
theorem sentMsgs_append (a b : List NOp) : sentMsgs (a ++ b) = sentMsgs a ++ sentMsgs b := by
  induction a with
  | nil => rfl
  | cons op a ih => cases op <;> simp [sentMsgs, ih]

omit [HtmlEntities] in
theorem run_lines (ops : List NOp) : ∀ (w w' : NWriter D) (es : List (Option Err)),
    (∀ op ∈ ops, Quiet op ∨ (∃ lvl, op = .zOn lvl) ∨ op = .zOff) → w.onMessage = [] →
    (∀ x ∈ sentMsgs ops, ∃ l, marshalTo w.enc x.2 [] x.1 = .ok l) → NWriter.run C ops w = .val (es, w') → (∀ e ∈ es, e = none) →
    ∃ rs, Writer.run C (ops.flatMap (wops w.enc)) w.lines = .val (rs, w'.lines) ∧ (∀ r ∈ rs, r.2 = none) := by
  induction ops with
  | nil =>
    intro w w' es _ _ _ h _
    simp only [NWriter.run] at h
    cases h
    exact ⟨[], rfl, by simp⟩
  | cons op ops ih =>
    intro w w' es hq hh hm h he
    rw [show op :: ops = [op] ++ ops from rfl, sentMsgs_append] at hm
    simp only [NWriter.run] at h
    cases hs : w.step C op with
    | panic => rw [hs] at h; cases h
    | timeout => rw [hs] at h; cases h
    | val y =>
      obtain ⟨e, w1⟩ := y
      rw [hs] at h
      simp only at h
      cases hr : NWriter.run C ops w1 with
      | panic => rw [hr] at h; cases h
      | timeout => rw [hr] at h; cases h
      | val y =>
        obtain ⟨es1, w2⟩ := y
        rw [hr] at h
        cases h
        have : e = none := he e (by simp)
        subst this
        obtain ⟨rs, h1, h2, h3, h4⟩ := step_lines C op (hq op (by simp)) w w1 hh
          (fun x hx => hm x (by simp only [List.mem_append]; exact .inl hx)) hs
        obtain ⟨rs', h5, h6⟩ := ih w1 w' es1 (fun o ho => hq o (by simp [ho])) h3
          (fun x hx => by rw [h4]; exact hm x (by simp only [List.mem_append]; exact .inr hx)) hr (fun e' h' => he e' (by simp [h']))
        refine ⟨rs ++ rs', ?_, ?_⟩
        · rw [List.flatMap_cons]
          rw [h4] at h5
          exact run_append C h1 h5
        · intro r hr
          rcases List.mem_append.mp hr with hr | hr
          · exact h2 r hr
          · exact h6 r hr

/-! ## The whole connection -/

/-- A phase of a conversation: calls in the clear, then `ZOnLevel(lvl)`, calls, and `DisableZlib`. -/
structure Phase where
  plain : List NOp
  lvl : Int
  zlib : List NOp

/-- The calls of the sending side. -/
def callsOf : List Phase → List NOp → List NOp
  | [], final => final
  | p :: ps, final => p.plain ++ .zOn p.lvl :: (p.zlib ++ .zOff :: callsOf ps final)

/-- What the receiving side sees of a call. -/
inductive MsgObs where
  | msg (res : Except Err (Option Msg))
  | zlib (sched : List (Nat × Bool))

/-- Calls of `ReadMsg` and `EnableZlib` by the receiving side, with their results. -/
inductive MsgSession : NReader Z → List MsgObs → NReader Z → Prop where
  | nil (r : NReader Z) : MsgSession r [] r
  | msg (r r1 r2 : NReader Z) (res : Except Err (Option Msg)) (rest : List MsgObs) (h : Reads I left r res r1)
      (t : MsgSession r1 rest r2) : MsgSession r (.msg res :: rest) r2
  | zlib (r : NReader Z) (lr : Reader Z) (r2 : NReader Z) (sched : List (Nat × Bool)) (rest : List MsgObs)
      (h : r.lines.EnablesZlib I sched lr) (t : MsgSession { r with lines := lr } rest r2) : MsgSession r (.zlib sched :: rest) r2

/-- The messages it must receive: `img` says what becomes of a message; after each `ZOn` it switches on decompression. -/
def received (img : Msg × Order → Msg) (sched : List (Nat × Bool)) : List Phase → List NOp → List MsgObs
  | [], final => (sentMsgs final).map fun x => .msg (.ok (some (img x)))
  | p :: ps, final =>
    ((sentMsgs p.plain).map fun x => .msg (.ok (some (img x)))) ++
      .msg (.ok (some (.noArgs .zOn))) :: .zlib sched :: ((sentMsgs p.zlib).map fun x => .msg (.ok (some (img x)))) ++
      received img sched ps final

omit [HtmlEntities] in
theorem conversation_append [HtmlEntities] {dec : Codec} {max : Int} {a b : List Bytes} {ra rb : List (Except Err (Option Msg))}
    (h : Conversation dec max a ra) (h' : Conversation dec max b rb) : Conversation dec max (a ++ b) (ra ++ rb) := by
  induction h with
  | nil => exact h'
  | keepAlive ls rs _ ih => exact .keepAlive _ _ ih
  | line l ls res rs hne hl h _ ih => exact .line _ _ _ _ hne hl h ih

theorem travels_line {enc dec : Codec} {max : Int} {x : Msg × Order} {m' : Msg} (h : Travels enc dec max x m') :
    Conversation dec max [lineD enc x] [.ok (some m')] := by
  obtain ⟨l, h1, h2, h3, h4⟩ := h
  have : lineD enc x = l := by unfold lineD; rw [h1]
  rw [this]
  exact .line _ _ _ _ h2 h3 h4 .nil

theorem calls_conversation {enc dec : Codec} {max : Int} {img : Msg × Order → Msg} (ops : List NOp) (hq : ∀ op ∈ ops, Quiet op)
    (ht : ∀ x ∈ sentMsgs ops, Travels enc dec max x (img x)) :
    Conversation dec max (sentLines enc ops) ((sentMsgs ops).map fun x => .ok (some (img x))) := by
  have hms : ∀ ms : List (Msg × Order), (∀ x ∈ ms, Travels enc dec max x (img x)) →
      Conversation dec max (ms.map (lineD enc)) (ms.map fun x => .ok (some (img x))) := by
    intro ms
    induction ms with
    | nil => intro _; exact .nil
    | cons x ms ih =>
      intro h
      exact conversation_append (travels_line (h x (by simp))) (ih fun y hy => h y (by simp [hy]))
  induction ops with
  | nil => exact .nil
  | cons op ops ih =>
    have hq' : ∀ o ∈ ops, Quiet o := fun o ho => hq o (by simp [ho])
    cases op with
    | keepAlive => exact .keepAlive _ _ (ih hq' ht)
    | flush => exact ih hq' ht
    | msgs ms =>
      simp only [sentMsgs, sentLines, List.map_append, List.mem_append] at ht ⊢
      exact conversation_append (hms ms fun x hx => ht x (.inl hx)) (ih hq' fun x hx => ht x (.inr hx))
    | zOn lvl => exact absurd (hq (.zOn lvl) (by simp)) (by simp [Quiet])
    | zOff => exact absurd (hq .zOff (by simp)) (by simp [Quiet])
    | close => exact absurd (hq .close (by simp)) (by simp [Quiet])
    | onMessage f => exact absurd (hq (.onMessage f) (by simp)) (by simp [Quiet])
    | setEncoder e => exact absurd (hq (.setEncoder e) (by simp)) (by simp [Quiet])

/-- The lines of the phases. -/
def partsOf (enc : Codec) (ps : List Phase) : List Part :=
  ps.map fun p => ⟨sentLines enc p.plain ++ [b!"$ZOn|"], sentLines enc p.zlib⟩

omit [HtmlEntities] in
theorem add_add (s : Seg) (a b : Bytes) : (s.add a).add b = s.add (a ++ b) := by
  cases s <;> simp [Seg.add]

omit [HtmlEntities] in
theorem add_nil (s : Seg) : s.add [] = s := by
  cases s <;> simp [Seg.add]

omit [HtmlEntities] in
theorem sections_quiet (enc : Codec) (ops : List NOp) (hq : ∀ op ∈ ops, Quiet op) (cur : Seg) (rest : List WOp) :
    sections [] cur (ops.flatMap (wops enc) ++ rest) = sections [] (cur.add (sentLines enc ops).flatten) rest := by
  have hms : ∀ (ms : List (Msg × Order)) (cur : Seg) (rest : List WOp),
      sections [] cur ((ms.map fun x => .line (lineD enc x)) ++ rest) = sections [] (cur.add (ms.map (lineD enc)).flatten) rest := by
    intro ms
    induction ms with
    | nil => intro cur rest; simp [add_nil]
    | cons x ms ih =>
      intro cur rest
      simp only [List.map_cons, List.cons_append, sections, runHooks, if_true, List.flatten_cons]
      rw [ih, add_add]
  induction ops generalizing cur with
  | nil => simp [sentLines, add_nil]
  | cons op ops ih =>
    have hq' : ∀ o ∈ ops, Quiet o := fun o ho => hq o (by simp [ho])
    rw [List.flatMap_cons, List.append_assoc]
    cases op with
    | keepAlive =>
      simp only [wops, sentLines, List.cons_append, List.nil_append, sections, runHooks, if_true, List.flatten_cons]
      rw [ih hq', add_add]; rfl
    | flush =>
      simp only [wops, sentLines, List.cons_append, List.nil_append, sections]
      exact ih hq' cur
    | msgs ms =>
      simp only [wops, sentLines, List.flatten_append]
      rw [hms, ih hq', add_add]
    | zOn lvl => exact absurd (hq (.zOn lvl) (by simp)) (by simp [Quiet])
    | zOff => exact absurd (hq .zOff (by simp)) (by simp [Quiet])
    | close => exact absurd (hq .close (by simp)) (by simp [Quiet])
    | onMessage f => exact absurd (hq (.onMessage f) (by simp)) (by simp [Quiet])
    | setEncoder e => exact absurd (hq (.setEncoder e) (by simp)) (by simp [Quiet])

/-- Only sending calls in the phases. -/
def QuietPhases (ps : List Phase) (final : List NOp) : Prop :=
  (∀ p ∈ ps, (∀ op ∈ p.plain, Quiet op) ∧ ∀ op ∈ p.zlib, Quiet op) ∧ ∀ op ∈ final, Quiet op

omit [HtmlEntities] in
theorem sections_calls (enc : Codec) (ps : List Phase) (final : List NOp) (hq : QuietPhases ps final) :
    (sections [] (.plain []) ((callsOf ps final).flatMap (wops enc))).1 ++
      [(sections [] (.plain []) ((callsOf ps final).flatMap (wops enc))).2] = segsOf (partsOf enc ps) (sentLines enc final) := by
  induction ps with
  | nil =>
    have := sections_quiet enc final hq.2 (.plain []) []
    simp only [List.append_nil] at this
    simp only [callsOf, this, sections, partsOf, List.map_nil, segsOf]
    simp [Seg.add]
  | cons p ps ih =>
    have ih := ih ⟨fun q hq' => hq.1 q (by simp [hq']), hq.2⟩
    have h1 := (hq.1 p (by simp)).1
    have h2 := (hq.1 p (by simp)).2
    simp only [callsOf, List.flatMap_append, List.flatMap_cons]
    rw [sections_quiet enc p.plain h1]
    simp only [wops, List.cons_append, List.nil_append, sections, runHooks, if_true]
    rw [sections_quiet enc p.zlib h2]
    simp only [sections, partsOf, List.map_cons, segsOf, List.cons_append]
    simp only [partsOf] at ih
    rw [ih]
    simp [Seg.add]

/-- Keep-alives that a sequence of reads leaves unread. -/
def trail : Nat → List Bytes → Nat
  | n, [] => n
  | n, l :: ls => if l = [delim] then trail (n + 1) ls else trail 0 ls

omit [HtmlEntities] in
theorem trail_last (n : Nat) (ls : List Bytes) (l : Bytes) (h : l ≠ [delim]) : trail n (ls ++ [l]) = 0 := by
  induction ls generalizing n with
  | nil => simp [trail, h]
  | cons x ls ih => simp only [List.cons_append, trail]; split <;> exact ih _

/-- Reading the messages of some lines: what is left is the rest after some keep-alives. -/
theorem session_lines (ls : List Bytes) : ∀ (rs : List (Except Err (Option Msg))) (n : Nat) (r : NReader Z) (os : List Obs)
    (lr : Reader Z) (obs : List MsgObs) (r2 : NReader Z), r.env = (fun _ => {}) → Conversation r.dec r.maxCmdName ls rs →
    Reader.Runs I r.lines (List.replicate n (Obs.line ([delim], none)) ++ (ls.map (fun l => Obs.line (l, none)) ++ os)) lr →
    (∀ r1, Reader.Runs I r1 (List.replicate (trail n ls) (Obs.line ([delim], none)) ++ os) lr →
      MsgSession I left { r with lines := r1 } obs r2) →
    MsgSession I left r (rs.map .msg ++ obs) r2 := by
  induction ls with
  | nil =>
    intro rs n r os lr obs r2 _ hc hr hk
    cases hc
    exact hk r.lines (by simpa [trail] using hr)
  | cons l ls ih =>
    intro rs n r os lr obs r2 henv hc hr hk
    cases hc with
    | keepAlive _ _ t =>
      refine ih rs (n + 1) r os lr obs r2 henv t ?_ ?_
      · rw [List.replicate_succ']; simpa using hr
      · simpa [trail] using hk
    | line _ _ res rs hne hl h t =>
      have hr' : Reader.Runs I r.lines ((afterKeepAlives n l).map Obs.line ++
          (List.replicate 0 (Obs.line ([delim], none)) ++ (ls.map (fun l => Obs.line (l, none)) ++ os))) lr := by
        simpa [afterKeepAlives] using hr
      obtain ⟨r1, h1, h2⟩ := runs_split I hr'
      refine .msg _ { r with lines := r1 } _ _ _ (reads_delivers I left r henv n l hl h r1 h1) ?_
      refine ih rs 0 { r with lines := r1 } os lr obs r2 henv t h2 ?_
      simpa [trail, hne] using hk

/-- The part of the receiving side, from the lines. -/
theorem session_phases {enc dec : Codec} {maxCmdName : Int} (h3 : 3 ≤ maxCmdName) {img : Msg × Order → Msg} (sched : List (Nat × Bool))
    (ps : List Phase) (final : List NOp) (hq : QuietPhases ps final)
    (ht : ∀ x ∈ sentMsgs (callsOf ps final), Travels enc dec maxCmdName x (img x)) (lr : Reader Z) :
    ∀ (n : Nat) (r : NReader Z), r.env = (fun _ => {}) → r.dec = dec → r.maxCmdName = maxCmdName →
    Reader.Runs I r.lines (List.replicate n (Obs.line ([delim], none)) ++
      (readObs sched (partsOf enc ps) (sentLines enc final) ++ [.line ([], some .eof)])) lr →
    MsgSession I left r (received img sched ps final ++ [.msg (.error .eof)]) { r with lines := lr } := by
  have hname : CmdName maxCmdName b!"ZOn" := ⟨by decide, h3, by unfold NameChar; decide⟩
  have hzon : Conversation dec maxCmdName [b!"$ZOn|"] [.ok (some (.noArgs .zOn))] :=
    .line _ _ _ _ (by decide) ⟨b!"$ZOn", by decide, rfl⟩ ⟨_, .bare b!"ZOn" hname, .inl ⟨_, rfl, rfl⟩⟩ .nil
  induction ps with
  | nil =>
    intro n r he hd hm hr
    subst hd hm
    have := session_lines I left (sentLines enc final) _ n r [.line ([], some .eof)] lr [.msg (.error .eof)] { r with lines := lr } he
      (calls_conversation final hq.2 ht) (by simpa [readObs, partsOf] using hr) (fun r1 h1 => by
        refine .msg _ _ _ _ _ (read_error I left { r with lines := r1 } he (trail n (sentLines enc final)) [] .eof lr ?_) (.nil _)
        simpa [Lines] using h1)
    simpa [received, Function.comp_def] using this
  | cons p ps ih =>
    intro n r he hd hm hr
    subst hd hm
    have ih := ih ⟨fun q hq' => hq.1 q (by simp [hq']), hq.2⟩
    have h1 := (hq.1 p (by simp)).1
    have h2 := (hq.1 p (by simp)).2
    simp only [callsOf, sentMsgs_append, sentMsgs, List.mem_append] at ht
    have c1 := conversation_append (calls_conversation p.plain h1 fun x hx => ht x (.inl hx)) hzon
    have c2 := calls_conversation p.zlib h2 fun x hx => ht x (.inr (.inl hx))
    have := session_lines I left _ _ n r
      (.zlib sched :: ((sentLines enc p.zlib).map fun l => .line (l, none)) ++ (readObs sched (partsOf enc ps) (sentLines enc final) ++ [.line ([], some .eof)]))
      lr (.zlib sched :: ((sentMsgs p.zlib).map fun x => .msg (.ok (some (img x)))) ++ (received img sched ps final ++ [.msg (.error .eof)]))
      { r with lines := lr } he c1 (by simpa [readObs, partsOf] using hr) ?_
    · simpa [received, Function.comp_def] using this
    · intro r1 hr1
      rw [trail_last _ _ _ (by decide)] at hr1
      simp only [List.replicate_zero, List.nil_append, List.cons_append] at hr1
      cases hr1 with
      | zlib _ r1' _ _ _ hz hrest =>
        refine .zlib _ r1' _ _ _ hz ?_
        have := session_lines I left _ _ 0 { r with lines := r1' }
          (readObs sched (partsOf enc ps) (sentLines enc final) ++ [.line ([], some .eof)]) lr
          (received img sched ps final ++ [.msg (.error .eof)]) { r with lines := lr } he c2 (by simpa using hrest) ?_
        · simpa [Function.comp_def] using this
        · intro r2 hr2
          exact ih (fun x hx => ht x (.inr (.inr hx))) _ { r with lines := r2 } he rfl rfl hr2

/-- Lines are within the limit of the reader (a limit of zero or less is no limit). -/
def Short (enc : Codec) (max : Int) (x : Msg × Order) : Prop := max ≤ 0 ∨ ((lineD enc x).length : Int) ≤ max

omit [HtmlEntities] in
theorem mem_sentLines {enc : Codec} {ops : List NOp} {l : Bytes} (h : l ∈ sentLines enc ops) :
    l = [delim] ∨ ∃ x ∈ sentMsgs ops, l = lineD enc x := by
  induction ops with
  | nil => simp [sentLines] at h
  | cons op ops ih =>
    cases op with
    | keepAlive =>
      simp only [sentLines, List.mem_cons] at h
      rcases h with h | h
      · exact .inl h
      · exact ih h
    | msgs ms =>
      simp only [sentLines, List.mem_append, List.mem_map] at h
      rcases h with ⟨x, hx, rfl⟩ | h
      · exact .inr ⟨x, by simp [sentMsgs, hx], rfl⟩
      · rcases ih h with h | ⟨x, hx, h⟩
        · exact .inl h
        · exact .inr ⟨x, by simp [sentMsgs, hx], h⟩
    | _ => exact ih h

theorem travels_isLine {enc dec : Codec} {max : Int} {x : Msg × Order} {m' : Msg} (h : Travels enc dec max x m') :
    IsLine delim (lineD enc x) := by
  obtain ⟨l, h1, _, h3, _⟩ := h
  have : lineD enc x = l := by unfold lineD; rw [h1]
  rw [this]; exact h3

/-- **C34.** One side makes any calls of `WriteMsg` (with one or many messages), `WriteKeepAlive` and `Flush`, with compressed
phases begun by `ZOnLevel` and ended by `DisableZlib`, all of which succeed, and flushes.  Then the other side, calling
`ReadMsg` and switching on decompression after each `ZOn`, receives the same messages in the same order and then the end of
the stream: for every buffer size, every behaviour of the timeout callback and of the sink, every compressor and
decompressor that fit together, every pair of text encodings and every splitting of the bytes by the transport.  `img` says
what becomes of a message on its way; for messages with a round trip it is the identity. -/
theorem connection (law : C.Law I) (size : Int) (tmo : List (Option Err)) (script : List SEv) (enc dec : Codec)
    (ps : List Phase) (final : List NOp) (hq : QuietPhases ps final) (max maxCmdName : Int) (hmax : max ≤ 0 ∨ 5 ≤ max)
    (hcmd : 3 ≤ maxCmdName) (img : Msg × Order → Msg)
    (ht : ∀ x ∈ sentMsgs (callsOf ps final), Travels enc dec maxCmdName x (img x) ∧ Short enc max x)
    {es : List (Option Err)} {w w' : NWriter D}
    (hrun : NWriter.run C (callsOf ps final) { newNWriter size tmo ⟨[], script⟩ with enc } = .val (es, w))
    (hok : ∀ e ∈ es, e = none) (hf : w.step C .flush = .val (none, w'))
    (cs : List Bytes) (hcs : ∀ c ∈ cs, c ≠ []) (hsent : cs.flatten = w'.lines.sink.sent) (sched : List (Nat × Bool)) :
    ∃ r', MsgSession I left { lines := (newReader (chunks cs) delim).setMaxLine max, dec, maxCmdName }
      (received img sched ps final ++ [.msg (.error .eof)]) r' := by
  have hall : ∀ op ∈ callsOf ps final, Quiet op ∨ (∃ lvl, op = .zOn lvl) ∨ op = .zOff := by
    clear ht hrun hsent
    induction ps with
    | nil => intro op h; exact .inl (hq.2 op h)
    | cons p ps ih =>
      intro op h
      simp only [callsOf, List.mem_append, List.mem_cons] at h
      rcases h with h | rfl | h | rfl | h
      · exact .inl ((hq.1 p (by simp)).1 op h)
      · exact .inr (.inl ⟨_, rfl⟩)
      · exact .inl ((hq.1 p (by simp)).2 op h)
      · exact .inr (.inr rfl)
      · exact ih ⟨fun q hq' => hq.1 q (by simp [hq']), hq.2⟩ op h
  obtain ⟨rs, h1, h2⟩ := run_lines C _ _ w es hall rfl
    (fun x hx => by obtain ⟨l, h, _⟩ := (ht x hx).1; exact ⟨l, h⟩) hrun hok
  have hnc : WOp.close ∉ (callsOf ps final).flatMap (wops enc) := by
    intro h
    obtain ⟨op, h3, h4⟩ := List.mem_flatMap.mp h
    rcases hall op h3 with h5 | ⟨_, rfl⟩ | rfl
    · cases op <;> simp [wops, Quiet] at h4 h5
    · simp [wops] at h4
    · simp [wops] at h4
  have hfl : w.lines.flush C = .val (none, w'.lines) := by
    simp only [NWriter.step] at hf
    cases hw : w.lines.flush C with
    | panic => rw [hw] at hf; cases hf
    | timeout => rw [hw] at hf; cases hf
    | val y => obtain ⟨e, lw⟩ := y; rw [hw] at hf; simp only [NWriter.lift] at hf; cases hf; rfl
  have hlines : ∀ ops : List NOp, (∀ x ∈ sentMsgs ops, x ∈ sentMsgs (callsOf ps final)) → ∀ l ∈ sentLines enc ops,
      IsLine delim l ∧ (max ≤ 0 ∨ (l.length : Int) ≤ max) := by
    intro ops hs l hl
    rcases mem_sentLines hl with rfl | ⟨x, hx, rfl⟩
    · refine ⟨⟨[], by simp, rfl⟩, ?_⟩
      simp only [List.length_cons, List.length_nil]
      omega
    · exact ⟨travels_isLine (ht x (hs x hx)).1, (ht x (hs x hx)).2⟩
  have hp : Proper delim max (partsOf enc ps) (sentLines enc final) := by
    have hsub : ∀ ps : List Phase, (∀ p ∈ ps, (∀ x ∈ sentMsgs p.plain, x ∈ sentMsgs (callsOf ps final)) ∧
        ∀ x ∈ sentMsgs p.zlib, x ∈ sentMsgs (callsOf ps final)) ∧ ∀ x ∈ sentMsgs final, x ∈ sentMsgs (callsOf ps final) := by
      intro ps
      induction ps with
      | nil => exact ⟨by simp, fun x h => h⟩
      | cons q ps ih =>
        simp only [callsOf, sentMsgs_append, sentMsgs, List.mem_append]
        refine ⟨?_, fun x h => .inr (.inr (ih.2 x h))⟩
        intro p hp
        rcases List.mem_cons.mp hp with rfl | hp
        · exact ⟨fun x h => .inl h, fun x h => .inr (.inl h)⟩
        · exact ⟨fun x h => .inr (.inr ((ih.1 p hp).1 x h)), fun x h => .inr (.inr ((ih.1 p hp).2 x h))⟩
    refine ⟨?_, hlines final (hsub ps).2⟩
    intro q hq'
    obtain ⟨p, hpm, rfl⟩ := List.mem_map.mp hq'
    refine ⟨by simp, ?_⟩
    intro l hl
    simp only [List.mem_append, List.mem_singleton] at hl
    rcases hl with (hl | rfl) | hl
    · exact hlines p.plain ((hsub ps).1 p hpm).1 l hl
    · exact ⟨⟨b!"$ZOn", by decide, rfl⟩, by simpa using hmax⟩
    · exact hlines p.zlib ((hsub ps).1 p hpm).2 l hl
  obtain ⟨lr, hlr⟩ := lines_arrive C I law size tmo script _ hnc h1 h2 hfl (partsOf enc ps) (sentLines enc final) delim max hp
    (sections_calls enc ps final hq) cs hcs hsent sched
  exact ⟨_, session_phases I left hcmd sched ps final hq (fun x hx => (ht x hx).1) lr 0
    { lines := (newReader (chunks cs) delim).setMaxLine max, dec, maxCmdName } rfl rfl rfl (by simpa using hlr)⟩

/-- **`Unmarshal` undoes `Marshal`**, for every message with a round trip whose line is within the default limit. -/
theorem unmarshal_marshal {enc dec : Codec} {ord : Order} {m m' : Msg} (h : Travels enc dec 32 (m, ord) m') {l : Bytes}
    (hl : marshalMsg enc ord m = .ok l) (hlen : (l.length : Int) ≤ maxLineDef) :
    ∃ k, ∀ fuel ≥ k, unmarshalMsg I left fuel dec l = .val (.ok (some m')) := by
  obtain ⟨l', h1, h2, h3, h4⟩ := h
  have : l' = l := by
    unfold marshalMsg at hl
    simp only [h1] at hl
    exact Res.ok.inj hl
  subst this
  have hne : l' ≠ [] := by obtain ⟨b, _, rfl⟩ := h3; simp
  have hses : Props.LineReader.Session I delim maxLineDef ⟨false, [], [l'].flatten⟩ [.line] [⟨false, [], l'⟩] := by
    rw [show [l'].flatten = l' by simp]
    exact .cons _ _ _ _ _ (.line ⟨false, [], l'⟩ l' [] (by simp) h3 (.inr hlen)) (.nil _)
  obtain ⟨rs, r', hruns, hshow⟩ := Props.LineReader.session_exact I [l'] (by simpa using hne) delim maxLineDef _ _ hses
  match rs, hshow with
  | [o], hshow =>
    have ho : o = .line (l', none) := by
      cases hshow.1 with
      | line l2 rest h hl2 =>
        rw [Props.LineDuplex.isLine_unique hl2 h3 (r := rest) (r' := []) (by simpa using h.symm)]
      | tail h => exact absurd (Props.LineDuplex.isLine_not_tail (r := []) h3) (by simpa using h)
    subst ho
    obtain ⟨k, hk⟩ := reads_delivers I left ({ lines := newReader (chunks [l']) delim, dec } : NReader Z) rfl 0 l' h3 h4 r' hruns
    refine ⟨k, fun fuel hf => ?_⟩
    have := hk fuel hf
    unfold unmarshalMsg
    have hsrc : bytesReader l' = chunks [l'] := by simp [bytesReader, hne, chunks]
    rw [hsrc]
    simp only [newNReader]
    rw [this]
  | [], h => exact absurd h (by simp [Props.LineReader.AllShow])
  | _ :: _ :: _, h => exact absurd h.2 (by simp [Props.LineReader.AllShow])

/-! ## Examples and findings -/

omit [HtmlEntities] in
/-- A conversation that meets the hypotheses: a keep-alive, three messages in two calls, a compressed phase with a flush and a
keep-alive, and a last message, with a buffer of 3 bytes. -/
example : letI := basicEntities
    let ps : List Phase := [⟨[.keepAlive, .msgs [(.name .hello b!"joe", id), (.chat ⟨b!"joe", b!"$5 | ok"⟩, id)]], 6,
      [.msgs [(.noArgs .getPass, id)], .flush, .keepAlive]⟩]
    let final : List NOp := [.msgs [(.chat ⟨[], b!"hub restarts"⟩, id)]]
    QuietPhases ps final ∧
    (∀ x ∈ sentMsgs (callsOf ps final), Travels none none 32 x x.1 ∧ Short none 32768 x) ∧
    ∃ es w w', NWriter.run stored (callsOf ps final) (newNWriter 3 [] ⟨[], []⟩) = .val (es, w) ∧ (∀ e ∈ es, e = none) ∧
      w.step stored .flush = .val (none, w') ∧
      b!"|$Hello joe|<joe> &#36;5 &#124; ok|$ZOn|" <+: w'.lines.sink.sent := by
  letI := basicEntities
  refine ⟨?_, ?_, _, _, _, rfl, by decide, rfl, ?_⟩
  · refine ⟨?_, ?_⟩
    · intro p hp
      simp only [List.mem_singleton] at hp
      subst hp
      constructor <;> intro op h <;> simp only [List.mem_cons, List.not_mem_nil, or_false] at h
      · rcases h with rfl | rfl <;> trivial
      · rcases h with rfl | rfl | rfl <;> trivial
    · intro op h
      simp only [List.mem_singleton] at h
      subst h; trivial
  · intro x hx
    simp only [callsOf, sentMsgs, List.cons_append, List.nil_append, List.append_nil, List.mem_cons, List.not_mem_nil, or_false] at hx
    rcases hx with rfl | rfl | rfl | rfl
    · exact ⟨registered_travels rfl rfl rfl (by decide) (by decide) (by decide +kernel), .inr (by decide +kernel)⟩
    · exact ⟨chat_travels rfl (by decide) (by decide) (by decide) (by decide) (by decide +kernel), .inr (by decide +kernel)⟩
    · exact ⟨registered_travels rfl rfl rfl (by decide) (by decide) (by decide +kernel), .inr (by decide +kernel)⟩
    · exact ⟨chat_travels rfl (by decide) (by decide) (by decide) (by decide) (by decide +kernel), .inr (by decide +kernel)⟩
  · decide +kernel

omit [HtmlEntities] in
/-- **C63, in part.** On a writer without recorded error, `WriteMsg` of one message: an error of a hook is returned and a message
that a hook refuses is not written, in both cases without any effect on the connection; a message that all hooks accept is
written as it would be without hooks.  Calls with several messages that all hooks accept are as without hooks. -/
theorem writer_hooks_partial (x : Msg × Order) (w : NWriter D) (he : w.lines.err = none) :
    (∀ e, runAll x.1 w.onMessage = .fail e → w.writeMsg C [x] = .val (some e, w)) ∧
    (runAll x.1 w.onMessage = .drop → w.writeMsg C [x] = .val (none, w)) ∧
    (∀ xs, (∀ y ∈ xs, runAll y.1 w.onMessage = .accept) → w.writeMsg C xs =
      match NWriter.writeMsg C xs { w with onMessage := [] } with
      | .val (e, w1) => .val (e, { w1 with onMessage := w.onMessage })
      | .panic => .panic
      | .timeout => .timeout) := by
  refine ⟨fun e h => ?_, fun h => ?_, fun xs h => ?_⟩
  · obtain ⟨m, ord⟩ := x
    simp only [NWriter.writeMsg, he, NWriter.writeLoop, h]
  · obtain ⟨m, ord⟩ := x
    simp only [NWriter.writeMsg, he, NWriter.writeLoop, h]
  · simp only [NWriter.writeMsg, he]
    clear he
    induction xs generalizing w with
    | nil => rfl
    | cons y ms ih =>
      obtain ⟨m, ord⟩ := y
      simp only [NWriter.writeLoop, h (m, ord) (by simp), runAll]
      cases hm : marshalTo w.enc ord [] m with
      | panic => rfl
      | err e => rfl
      | ok l =>
        simp only
        cases hl : w.lines.writeLine C l with
        | panic => rfl
        | timeout => rfl
        | val v =>
          obtain ⟨e, lw⟩ := v
          cases e with
          | some e => rfl
          | none => exact ih { w with lines := lw } (fun y hy => h y (by simp [hy]))

omit [HtmlEntities] in
/-- **Finding.** An `OnMessage` hook of the writer that skips a message makes `WriteMsg` skip all later messages of the same call
too, and report success: nothing is written after it. -/
theorem drop_ends_batch (ms : List (Msg × Order)) (x : Msg × Order) (rest : List (Msg × Order)) (w w1 : NWriter D)
    (hw : w.writeLoop C ms = .val (none, w1)) (hall : ∀ y ∈ ms, runAll y.1 w.onMessage = .accept)
    (hx : runAll x.1 w.onMessage = .drop) : w.writeLoop C (ms ++ x :: rest) = .val (none, w1) := by
  induction ms generalizing w with
  | nil =>
    obtain ⟨m, ord⟩ := x
    simp only [NWriter.writeLoop] at hw
    cases hw
    simp only [List.nil_append, NWriter.writeLoop, hx]
  | cons y ms ih =>
    obtain ⟨m, ord⟩ := y
    simp only [List.cons_append, NWriter.writeLoop, hall (m, ord) (by simp)] at hw ⊢
    cases hm : marshalTo w.enc ord [] m with
    | panic => rw [hm] at hw; cases hw
    | err e => rw [hm] at hw; cases hw
    | ok l =>
      rw [hm] at hw
      simp only at hw ⊢
      cases hl : w.lines.writeLine C l with
      | panic => rw [hl] at hw; cases hw
      | timeout => rw [hl] at hw; cases hw
      | val v =>
        obtain ⟨e, lw⟩ := v
        rw [hl] at hw
        cases e with
        | some e => cases hw
        | none =>
          simp only at hw ⊢
          exact ih _ hw (fun y hy => hall y (by simp [hy])) hx

/-- The callbacks that a call registers. -/
def registers : NOp → List (Msg → Hook)
  | .onMessage h => [h]
  | _ => []

omit [HtmlEntities] in
theorem writeLoop_onMessage : ∀ (ms : List (Msg × Order)) (w w' : NWriter D) (e : Option Err),
    w.writeLoop C ms = .val (e, w') → w'.onMessage = w.onMessage := by
  intro ms
  induction ms with
  | nil => intro w w' e h; cases h; rfl
  | cons y ms ih =>
    intro w w' e h
    obtain ⟨m, ord⟩ := y
    simp only [NWriter.writeLoop] at h
    split at h
    · cases h; rfl
    · cases h; rfl
    · split at h
      · cases h
      · cases h; rfl
      · split at h
        · cases h
        · cases h
        · cases h; rfl
        · exact (ih _ _ _ h :)

omit [HtmlEntities] in
/-- **C63 (all callbacks run, in the order of registration).** After any calls that return, the callbacks of a writer are those
given to `OnMessage`, in order; the next `WriteMsg` asks them in that order (`runAll`) and stops at the first that does not
accept. -/
theorem callbacks_in_order (ops : List NOp) (w w' : NWriter D) (es : List (Option Err))
    (h : NWriter.run C ops w = .val (es, w')) : w'.onMessage = w.onMessage ++ ops.flatMap registers := by
  induction ops generalizing w es with
  | nil => simp only [NWriter.run] at h; cases h; simp
  | cons op ops ih =>
    simp only [NWriter.run] at h
    have lift : ∀ (x : Exec (Option Err × Writer D)) (w w1 : NWriter D) e, NWriter.lift w x = .val (e, w1) → w1.onMessage = w.onMessage := by
      intro x w w1 e hx
      cases x with
      | panic => cases hx
      | timeout => cases hx
      | val v => cases hx; rfl
    cases hs : w.step C op with
    | panic => rw [hs] at h; cases h
    | timeout => rw [hs] at h; cases h
    | val v =>
      obtain ⟨e, w1⟩ := v
      rw [hs] at h
      simp only at h
      cases hr : NWriter.run C ops w1 with
      | panic => rw [hr] at h; cases h
      | timeout => rw [hr] at h; cases h
      | val v2 =>
        obtain ⟨es2, w2⟩ := v2
        rw [hr] at h
        cases h
        have h1 : w1.onMessage = w.onMessage ++ registers op := by
          cases op with
          | keepAlive => simpa [registers] using lift _ _ _ _ hs
          | flush => simpa [registers] using lift _ _ _ _ hs
          | zOff => simpa [registers] using lift _ _ _ _ hs
          | close => simpa [registers] using lift _ _ _ _ hs
          | onMessage f => cases hs; rfl
          | setEncoder f => cases hs; simp [registers]
          | msgs ms =>
            simp only [NWriter.step, NWriter.writeMsg] at hs
            split at hs
            · cases hs; simp [registers]
            · simpa [registers] using writeLoop_onMessage C _ _ _ _ hs
          | zOn lvl =>
            simp only [NWriter.step, NWriter.zOn] at hs
            split at hs
            · cases hs
            · cases hs
            · cases hs; simp [registers]
            · simpa [registers] using lift _ _ _ _ hs
        rw [ih _ _ hr, h1]
        simp

/-- Two callbacks: the first accepts everything but `$GetPass`, the second fails on it and everything else. -/
example : ∃ w, NWriter.run stored [.onMessage fun m => if m = .noArgs .getPass then .drop else .accept,
      .onMessage fun _ => .fail .protocolViolation, .msgs [(.noArgs .getPass, id)], .msgs [(.name .hello b!"joe", id)]]
      (newNWriter 0 [] ⟨[], []⟩) = .val ([none, none, none, some .protocolViolation], w) := ⟨_, rfl⟩

/-- With two messages of which the hook skips the first, nothing is sent. -/
example : ∃ w w', NWriter.run stored [.onMessage fun m => if m = .noArgs .getPass then .drop else .accept,
      .msgs [(.noArgs .getPass, id), (.name .hello b!"joe", id)], .flush] (newNWriter 0 [] ⟨[], []⟩) = .val ([none, none, none], w) ∧
    w.lines.sink.sent = [] ∧ w' = w := ⟨_, _, rfl, rfl, rfl⟩

end Verif.Props.NmdcConn
