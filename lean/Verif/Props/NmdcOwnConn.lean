import Verif.Props.NmdcOwnReader

/-!
# Messages of the caller's own types on a connection (C109)
-/

namespace Verif.Props.NmdcOwnConn

open Verif.Go Verif.Nmdc Verif.Lineproto Verif.Spec
open Verif.Nmdc.Own (Out Op OWriter Ending OReader Types Methods understood withOwn NoAsk KeepsRaw)
open Verif.Props.NmdcOwnWriter
open Verif.Props.NmdcOwnReader
open Verif.Props.LineReader (chunks toy)
open Verif.Props.LineWriter (stored)

variable [HtmlEntities] {D : Type} (C : Deflater D) {Z : Type} (I : Inflater Z) {U : Type}

/-- A phase of a conversation: calls in the clear, then `ZOnLevel(lvl)`, calls, and `DisableZlib`. -/
structure Phase where
  plain : List Op
  lvl : Int
  zlib : List Op

/-- The calls of the sending side. -/
def callsOf : List Phase → List Op → List Op
  | [], final => final
  | p :: ps, final => p.plain ++ .zOn p.lvl :: (p.zlib ++ .zOff :: callsOf ps final)

/-- Calls that send messages, keep-alives and nothing else. -/
def Quiet : Op → Prop
  | .keepAlive | .msgs _ | .flush => True
  | _ => False

def QuietPhases (ps : List Phase) (final : List Op) : Prop :=
  (∀ p ∈ ps, (∀ op ∈ p.plain, Quiet op) ∧ ∀ op ∈ p.zlib, Quiet op) ∧ ∀ op ∈ final, Quiet op

/-- The message `m`, of whatever type, arrives as `v`: its method adds a text without delimiter and NUL, its name is a command name, and the
method of the type registered for the name (by the caller, or by the package, or else `RawMessage`) makes `v` of the text; or it is a chat
message. The line is not too long. -/
def Arrives (calls : List (Bytes × U)) (u : Methods U) (enc dec : Codec) (maxCmdName max : Int) (m : Out) (v : Msg ⊕ U) : Prop :=
  Adds m ∧ ∃ p, m.put enc (msgHead m.typ) = (.ok (), msgHead m.typ ++ p) ∧ delim ∉ p ∧ (0 : Byte) ∉ p ∧
    (max ≤ 0 ∨ ((msgHead m.typ ++ p).length + 1 : Int) ≤ max) ∧
    ((CmdName maxCmdName m.typ ∧
        ((∃ x y, calls.lookup m.typ = some x ∧ u.unmarshal dec p x = (.ok (), y) ∧ v = .inr y) ∨
         (calls.lookup m.typ = none ∧ ∃ m', (newMessage m.typ).unmarshal dec p = .ok m' ∧ v = .inl m'))) ∨
      (m.typ = [] ∧ p ≠ [] ∧ p.head? ≠ some c!"$" ∧ ∃ m', (Msg.chat {}).unmarshal dec p = .ok m' ∧ v = .inl m'))

/-- The messages the receiving side must see; after each `ZOn` it switches on decompression. -/
def received (img : Out → Msg ⊕ U) (sched : List (Nat × Bool)) : List Phase → List Op → List (OwnObs U)
  | [], final => (given final).map fun m => .msg (.ok (some (img m)))
  | p :: ps, final =>
    ((given p.plain).map fun m => .msg (.ok (some (img m)))) ++
      .msg (.ok (some (.inl (.noArgs .zOn)))) :: .zlib sched :: ((given p.zlib).map fun m => .msg (.ok (some (img m)))) ++
      received img sched ps final

/-! ## The same with raw messages -/

/-- The raw message with the same line. -/
def rawOf (enc : Codec) (m : Out) : Msg × Order := (.raw m.typ ((text enc m).getD []), id)

def rawPhase (enc : Codec) (p : Phase) : NmdcConn.Phase := ⟨rawOps enc p.plain, p.lvl, rawOps enc p.zlib⟩

omit [HtmlEntities] in
theorem rawOps_append (enc : Codec) (a b : List Op) (h : ∀ op ∈ a, Quiet op) : rawOps enc (a ++ b) = rawOps enc a ++ rawOps enc b := by
  induction a with
  | nil => rfl
  | cons op a ih =>
    have ih := ih fun o ho => h o (by simp [ho])
    have hq := h op (by simp)
    cases op <;> first | exact hq.elim | (simp only [List.cons_append, rawOps, ih])

omit [HtmlEntities] in
theorem rawOps_quiet (enc : Codec) (a : List Op) (h : ∀ op ∈ a, Quiet op) : ∀ op ∈ rawOps enc a, NmdcConn.Quiet op := by
  induction a with
  | nil => simp [rawOps]
  | cons op a ih =>
    have ih := ih fun o ho => h o (by simp [ho])
    have hq := h op (by simp)
    cases op <;> first | exact hq.elim | skip
    all_goals
      intro o ho
      simp only [rawOps, List.mem_cons] at ho
      rcases ho with rfl | ho
      · trivial
      · exact ih o ho

omit [HtmlEntities] in
theorem rawOps_calls (enc : Codec) (ps : List Phase) (final : List Op) (hq : QuietPhases ps final) :
    rawOps enc (callsOf ps final) = NmdcConn.callsOf (ps.map (rawPhase enc)) (rawOps enc final) := by
  induction ps with
  | nil => rfl
  | cons p ps ih =>
    have ih := ih ⟨fun q h => hq.1 q (by simp [h]), hq.2⟩
    simp only [callsOf, List.map_cons, NmdcConn.callsOf, rawPhase]
    rw [rawOps_append enc _ _ (hq.1 p (by simp)).1]
    simp only [rawOps]
    rw [rawOps_append enc _ _ (hq.1 p (by simp)).2]
    simp only [rawOps, ih]

omit [HtmlEntities] in
theorem given_append (a b : List Op) : given (a ++ b) = given a ++ given b := by
  induction a with
  | nil => rfl
  | cons op a ih => cases op <;> simp [given, ih]

omit [HtmlEntities] in
theorem sent_raw (enc : Codec) (ops : List Op) (hq : ∀ op ∈ ops, Quiet op) (h : ∀ m ∈ given ops, (text enc m).isSome = true) :
    NmdcConn.sentMsgs (rawOps enc ops) = (given ops).map (rawOf enc) := by
  have hb : ∀ ms : List Out, (∀ m ∈ ms, (text enc m).isSome = true) → rawBatch enc ms = ms.map (rawOf enc) := by
    intro ms
    induction ms with
    | nil => intro _; rfl
    | cons m ms ih =>
      intro h
      obtain ⟨p, hp⟩ := Option.isSome_iff_exists.mp (h m (by simp))
      simp only [rawBatch, hp, List.map_cons, rawOf, Option.getD_some]
      rw [ih fun x hx => h x (by simp [hx])]
  induction ops with
  | nil => rfl
  | cons op ops ih =>
    have hq' := hq op (by simp)
    cases op <;> first | exact hq'.elim | skip
    · exact ih (fun o ho => hq o (by simp [ho])) h
    · rename_i ms
      simp only [given, List.mem_append] at h
      simp only [rawOps, NmdcConn.sentMsgs, given, List.map_append]
      rw [hb ms fun m hm => h m (.inl hm), ih (fun o ho => hq o (by simp [ho])) fun m hm => h m (.inr hm)]
    · exact ih (fun o ho => hq o (by simp [ho])) h

omit [HtmlEntities] in
theorem ends_ok (enc : Codec) (ms : List Out) (h : ∀ m ∈ ms, (text enc m).isSome = true) : ends enc ms = .ret none := by
  induction ms with
  | nil => rfl
  | cons m ms ih =>
    have := h m (by simp)
    unfold text at this
    unfold ends
    cases hr : (Own.marshalTo enc [] m).1 with
    | ok _ => exact ih fun x hx => h x (by simp [hx])
    | err e => rw [hr] at this; cases this
    | panic => rw [hr] at this; cases this

omit [HtmlEntities] in
theorem endings_ok (enc : Codec) (ops : List Op) (hq : ∀ op ∈ ops, Quiet op ∨ (∃ lvl, op = .zOn lvl) ∨ op = .zOff)
    (h : ∀ m ∈ given ops, (text enc m).isSome = true) (es : List (Option Err)) (hl : es.length = ops.length) :
    endings enc ops es = es.map .ret := by
  induction ops generalizing es with
  | nil => cases es <;> first | rfl | cases hl
  | cons op ops ih =>
    cases es with
    | nil => cases hl
    | cons e es =>
      have hq' := hq op (by simp)
      have hl' : es.length = ops.length := by simpa using hl
      have hrest : ∀ op ∈ ops, Quiet op ∨ (∃ lvl, op = .zOn lvl) ∨ op = .zOff := fun o ho => hq o (by simp [ho])
      cases op
      case msgs ms =>
        simp only [given, List.mem_append] at h
        cases e with
        | none => simp only [endings, ends_ok enc ms fun m hm => h m (.inl hm), ih hrest (fun m hm => h m (.inr hm)) es hl', List.map_cons]
        | some e => simp only [endings, ih hrest (fun m hm => h m (.inr hm)) es hl', List.map_cons]
      case setEncoder c => rcases hq' with hq' | ⟨_, hq'⟩ | hq' <;> first | exact hq'.elim | cases hq'
      all_goals
        cases e <;> simp only [endings, ih hrest h es hl', List.map_cons]

omit [HtmlEntities] in
theorem run_length (ops : List NOp) (w : NWriter D) {es : List (Option Err)} {w' : NWriter D} (h : NWriter.run C ops w = .val (es, w')) :
    es.length = ops.length := by
  induction ops generalizing w es with
  | nil => cases h; rfl
  | cons op ops ih =>
    rw [NWriter.run] at h
    cases hs : w.step C op with
    | panic => rw [hs] at h; cases h
    | timeout => rw [hs] at h; cases h
    | val y =>
      obtain ⟨e, w1⟩ := y
      rw [hs] at h
      simp only at h
      cases hr : NWriter.run C ops w1 with
      | panic => rw [hr] at h; cases h
      | timeout => rw [hr] at h; cases h
      | val y =>
        obtain ⟨es1, w2⟩ := y
        rw [hr] at h
        cases h
        simp [ih w1 hr]

omit [HtmlEntities] in
theorem rawOps_length (enc : Codec) (ops : List Op) : (rawOps enc ops).length = ops.length := by
  induction ops generalizing enc with
  | nil => rfl
  | cons op ops ih => cases op <;> simp [rawOps, ih]

/-- What the package alone makes of the raw message. -/
def rawImg (dec : Codec) (x : Msg × Order) : Msg :=
  match x.1 with
  | .raw t p =>
    match (if t = [] then Msg.chat {} else newMessage t).unmarshal dec p with
    | .ok m => m
    | _ => x.1
  | m => m

theorem arrives_raw {calls : List (Bytes × U)} {reg : Registry.Reg Bytes (Msg ⊕ U)} (hreg : Own.Knows calls reg) {u : Methods U}
    {enc dec : Codec} {maxCmdName max : Int} {m : Out} {v : Msg ⊕ U} (h : Arrives calls u enc dec maxCmdName max m v) :
    (text enc m).isSome = true ∧ NmdcConn.Travels enc dec maxCmdName (rawOf enc m) (rawImg dec (rawOf enc m)) ∧
    NmdcConn.Short enc max (rawOf enc m) ∧ understood calls u dec (rawImg dec (rawOf enc m)) = .ok v := by
  obtain ⟨hadd, p, hput, hbar, h0, hlen, hkind⟩ := h
  have hform := marshal_form enc [] p m (by simpa using hput)
  rw [List.nil_append] at hform
  have hne : p = [] → msgHead m.typ ≠ [] := by
    intro hp
    rcases hkind with ⟨hn, _⟩ | ⟨_, hp', _⟩
    · simp [msgHead, hn.1]
    · exact absurd hp hp'
  obtain ⟨l, hl⟩ : ∃ l, Own.marshalTo enc [] m = (.ok (), l) := by
    rw [hform]
    by_cases hp : p = []
    · rw [if_pos hp, if_neg (hne hp)]; exact ⟨_, rfl⟩
    · rw [if_neg hp]; exact ⟨_, rfl⟩
  obtain ⟨p', hp1, hp2⟩ := adds_line hadd hl
  have hpp : p' = p := by
    have : text enc m = some p := by simp [text, hl, hput]
    rw [this] at hp1
    exact (Option.some.inj hp1).symm
  subst hpp
  have hraw : rawOf enc m = (.raw m.typ p', id) := by simp [rawOf, hp1]
  have hshort : NmdcConn.Short enc max (rawOf enc m) := by
    unfold NmdcConn.Short
    rcases hlen with h | h
    · exact .inl h
    · refine .inr ?_
      have hld : NmdcConn.lineD enc (rawOf enc m) = l := by
        unfold NmdcConn.lineD
        rw [hraw]
        simp only [hp2]
      rw [hld]
      have : (l.length : Int) ≤ ((msgHead m.typ ++ p').length + 1 : Int) := by
        rw [hform] at hl
        by_cases hp : p' = []
        · rw [if_pos hp, if_neg (hne hp)] at hl
          cases hl
          subst hp
          rw [List.append_nil, List.length_append, List.length_dropLast]
          simp
        · rw [if_neg hp] at hl
          cases hl
          simp
          omega
      omega
  refine ⟨by rw [hp1]; rfl, ?_, hshort, ?_⟩
  · rw [hraw]
    rcases hkind with ⟨hn, hk⟩ | ⟨ht, hp, hd, m', hu, _⟩
    · have hu : (newMessage m.typ).unmarshal dec p' = .ok (rawImg dec (.raw m.typ p', id)) := by
        have hex : ∃ m', (newMessage m.typ).unmarshal dec p' = .ok m' := by
          rcases hk with ⟨x, y, hx, _, _⟩ | ⟨_, m', hu, _⟩
          · have := hreg m.typ
            rw [hx] at this
            simp only [newMessage, this.1, Option.getD_none, Msg.unmarshal]
            exact ⟨_, rfl⟩
          · exact ⟨m', hu⟩
        obtain ⟨m', hu⟩ := hex
        simp only [rawImg, if_neg hn.1, hu]
      exact NmdcConn.command_travels (m := .raw m.typ p') (p := p') hn rfl hbar h0 hu
    · refine ⟨p' ++ b!"|", ?_, by simp [delim, hp], ⟨p', hbar, by simp [delim]⟩, .chat p', .chat p' hp hd h0, .inl ⟨m', hu, ?_⟩⟩
      · have : marshalTo enc id [] (.raw m.typ p') = finishMsg (msgHead m.typ) p' := rfl
        rw [this]
        simp [finishMsg, hp, msgHead, ht, delim]
      · simp only [rawImg, ht, if_true, hu]
  · rw [hraw]
    rcases hkind with ⟨hn, hk⟩ | ⟨ht, hp, hd, m', hu, hv⟩
    · rcases hk with ⟨x, y, hx, hu, hv⟩ | ⟨hx, m', hu, hv⟩
      · have := hreg m.typ
        rw [hx] at this
        have h1 : rawImg dec (.raw m.typ p', id) = .raw m.typ p' := by
          simp only [rawImg, if_neg hn.1, newMessage, this.1, Option.getD_none, Msg.unmarshal]
        rw [h1]
        simp only [understood, hx, hu, hv]
      · have h1 : rawImg dec (.raw m.typ p', id) = m' := by
          simp only [rawImg, if_neg hn.1, hu]
        rw [h1, hv]
        cases hm' : m' with
        | raw t d =>
          obtain ⟨d', hd'⟩ := Own.unmarshal_raw hu hm'
          have ht : t = m.typ := by
            unfold newMessage at hd'
            cases hlk : lookup m.typ with
            | some x => rw [hlk] at hd'; exact absurd hd' (Own.lookup_raw hlk)
            | none => rw [hlk] at hd'; cases hd'; rfl
          simp only [understood, ht, hx]
        | _ => rfl
    · have h1 : rawImg dec (.raw m.typ p', id) = m' := by
        simp only [rawImg, ht, if_true, hu]
      rw [h1, hv]
      cases hm' : m' with
      | raw t d =>
        obtain ⟨d', hd'⟩ := Own.unmarshal_raw hu hm'
        cases hd'
      | _ => rfl

omit [HtmlEntities] in
theorem received_seen (calls : List (Bytes × U)) (u : Methods U) (dec enc : Codec) (g : Msg × Order → Msg) (img : Out → Msg ⊕ U)
    (sched : List (Nat × Bool)) (ps : List Phase) (final : List Op) (hq : QuietPhases ps final)
    (h : ∀ m ∈ given (callsOf ps final), (text enc m).isSome = true ∧ understood calls u dec (g (rawOf enc m)) = .ok (img m)) :
    (NmdcConn.received g sched (ps.map (rawPhase enc)) (rawOps enc final)).map (seen calls u dec) =
      (received img sched ps final).map some := by
  have hb : ∀ ops : List Op, (∀ op ∈ ops, Quiet op) →
      (∀ m ∈ given ops, (text enc m).isSome = true ∧ understood calls u dec (g (rawOf enc m)) = .ok (img m)) →
      ((NmdcConn.sentMsgs (rawOps enc ops)).map fun x => NmdcConn.MsgObs.msg (.ok (some (g x)))).map (seen calls u dec) =
        ((given ops).map fun m => OwnObs.msg (.ok (some (img m)))).map some := by
    intro ops hq h
    rw [sent_raw enc ops hq fun m hm => (h m hm).1, List.map_map, List.map_map, List.map_map]
    apply List.map_congr_left
    intro m hm
    simp only [Function.comp, seen, (h m hm).2]
  induction ps with
  | nil => exact hb final hq.2 h
  | cons p ps ih =>
    have hg : given (callsOf (p :: ps) final) = given p.plain ++ (given p.zlib ++ given (callsOf ps final)) := by
      simp [callsOf, given_append, given]
    rw [hg] at h
    have ih := ih ⟨fun q h => hq.1 q (by simp [h]), hq.2⟩ fun m hm => h m (by simp [hm])
    have h1 := hb p.plain (hq.1 p (by simp)).1 fun m hm => h m (by simp [hm])
    have h2 := hb p.zlib (hq.1 p (by simp)).2 fun m hm => h m (by simp [hm])
    simp only [List.map_cons, NmdcConn.received, received, rawPhase, List.map_append] at h1 h2 ih ⊢
    rw [h1, h2, ih]
    rfl

/-- **C109.** One side makes any calls of `WriteMsg`, with messages of any types, `WriteKeepAlive` and `Flush`, with compressed phases, all
of which succeed, and flushes.  The other side, which has registered types of its own, calls `ReadMsg` and switches on decompression after
each `ZOn`: it receives the messages in order, each decoded by the method of the type registered for its name, and then the end of the stream:
for every buffer size, every behaviour of the timeout callback and the sink, every compressor and decompressor that fit together, every pair
of text encodings, every splitting of the bytes by the transport, and all methods. -/
theorem connection (law : C.Law I) (size : Int) (tmo : List (Option Err)) (script : List SEv) (enc dec : Codec)
    (ps : List Phase) (final : List Op) (hq : QuietPhases ps final) (max maxCmdName : Int) (hmax : max ≤ 0 ∨ 5 ≤ max)
    (hcmd : 3 ≤ maxCmdName) (calls : List (Bytes × U)) (u : Methods U) (left : Codec → Msg → Bytes → Msg) (hleft : KeepsRaw left)
    (reg : Registry.Reg Bytes (Msg ⊕ U)) (hreg : Registers calls reg) (img : Out → Msg ⊕ U)
    (ht : ∀ m ∈ given (callsOf ps final), Arrives calls u enc dec maxCmdName max m (img m))
    {es : List Ending} {w w' : OWriter D}
    (hrun : OWriter.run C (callsOf ps final) { Own.newOWriter size tmo ⟨[], script⟩ with enc } = .val (es, w))
    (hok : ∀ e ∈ es, e = .ret none) (hf : w.step C .flush = .val (.ret none, w'))
    (cs : List Bytes) (hcs : ∀ c ∈ cs, c ≠ []) (hsent : cs.flatten = w'.lines.sink.sent) (sched : List (Nat × Bool)) :
    ∃ r', OwnSession I (u.types left reg) { lines := (newReader (chunks cs) delim).setMaxLine max, dec, maxCmdName }
      (received img sched ps final ++ [.msg (.error .eof)]) r' := by
  have hk : Own.Knows calls reg := by
    obtain ⟨r0, h0, h⟩ := hreg
    exact Own.knows_of r0 reg h0 calls h
  have hall : ∀ op ∈ callsOf ps final, Quiet op ∨ (∃ lvl, op = .zOn lvl) ∨ op = .zOff := by
    clear ht hrun hsent
    induction ps with
    | nil => intro op h; exact .inl (hq.2 op h)
    | cons p ps ih =>
      intro op h
      simp only [callsOf, List.mem_append, List.mem_cons] at h
      rcases h with h | rfl | h | rfl | h
      · exact .inl ((hq.1 p (by simp)).1 op h)
      · exact .inr (.inl ⟨_, rfl⟩)
      · exact .inl ((hq.1 p (by simp)).2 op h)
      · exact .inr (.inr rfl)
      · exact ih ⟨fun q hq' => hq.1 q (by simp [hq']), hq.2⟩ op h
  have hwire := same_wire C (callsOf ps final) (fun h hm => by
      rcases hall _ hm with h' | ⟨_, h'⟩ | h' <;> first | exact h'.elim | cases h')
    (fun m hm => (ht m hm).1) { Own.newOWriter size tmo ⟨[], script⟩ with enc } rfl
  have hrw : raw ({ Own.newOWriter size tmo ⟨[], script⟩ with enc } : OWriter D) = { newNWriter size tmo ⟨[], script⟩ with enc } := rfl
  have henc : ({ Own.newOWriter size tmo ⟨[], script⟩ with enc } : OWriter D).enc = enc := rfl
  rw [hrw, henc] at hwire
  cases hn : NWriter.run C (rawOps enc (callsOf ps final)) { newNWriter size tmo ⟨[], script⟩ with enc } with
  | panic => rw [hn] at hwire; simp only at hwire; rw [hwire] at hrun; cases hrun
  | timeout => rw [hn] at hwire; simp only at hwire; rw [hwire] at hrun; cases hrun
  | val y =>
    obtain ⟨es', nw⟩ := y
    rw [hn] at hwire
    obtain ⟨b, hb⟩ := hwire
    rw [hb] at hrun
    cases hrun
    have hlen : es'.length = (callsOf ps final).length := by
      rw [run_length C _ _ hn, rawOps_length]
    rw [endings_ok enc _ hall (fun m hm => (arrives_raw hk (ht m hm)).1) es' hlen] at hok
    have hok' : ∀ e ∈ es', e = none := by
      intro e he
      have := hok (.ret e) (List.mem_map.mpr ⟨e, he, rfl⟩)
      cases this; rfl
    have hf' : nw.step C .flush = .val (none, { nw with lines := w'.lines }) := by
      simp only [OWriter.step] at hf
      simp only [NWriter.step]
      cases hfl : nw.lines.flush C with
      | panic => rw [hfl] at hf; cases hf
      | timeout => rw [hfl] at hf; cases hf
      | val y =>
        obtain ⟨e, lw⟩ := y
        rw [hfl] at hf
        simp only [OWriter.lift] at hf
        cases hf
        rfl
    rw [rawOps_calls enc ps final hq] at hn
    have hq' : NmdcConn.QuietPhases (ps.map (rawPhase enc)) (rawOps enc final) := by
      refine ⟨?_, rawOps_quiet enc final hq.2⟩
      intro p hp
      obtain ⟨p0, hp0, rfl⟩ := List.mem_map.mp hp
      exact ⟨rawOps_quiet enc _ (hq.1 p0 hp0).1, rawOps_quiet enc _ (hq.1 p0 hp0).2⟩
    have hsentAll : ∀ x ∈ NmdcConn.sentMsgs (NmdcConn.callsOf (ps.map (rawPhase enc)) (rawOps enc final)),
        ∃ m ∈ given (callsOf ps final), x = rawOf enc m := by
      clear hn hb hlen hok hall
      induction ps with
      | nil =>
        intro x hx
        simp only [List.map_nil, NmdcConn.callsOf] at hx
        rw [sent_raw enc final hq.2 fun m hm => (arrives_raw hk (ht m hm)).1] at hx
        obtain ⟨m, hm, rfl⟩ := List.mem_map.mp hx
        exact ⟨m, hm, rfl⟩
      | cons p ps ih =>
        intro x hx
        have hg : given (callsOf (p :: ps) final) = given p.plain ++ (given p.zlib ++ given (callsOf ps final)) := by
          simp [callsOf, given_append, given]
        rw [hg] at ht ⊢
        have ih := ih ⟨fun q h => hq.1 q (by simp [h]), hq.2⟩ (fun m hm => ht m (by simp [hm]))
          ⟨fun q h => hq'.1 q (by simp only [List.map_cons, List.mem_cons]; exact .inr h), hq'.2⟩
        simp only [List.map_cons, NmdcConn.callsOf, NmdcConn.sentMsgs_append, NmdcConn.sentMsgs, List.mem_append] at hx
        rcases hx with hx | hx | hx
        · simp only [rawPhase] at hx
          rw [sent_raw enc p.plain (hq.1 p (by simp)).1 fun m hm => (arrives_raw hk (ht m (by simp [hm]))).1] at hx
          obtain ⟨m, hm, rfl⟩ := List.mem_map.mp hx
          exact ⟨m, by simp [hm], rfl⟩
        · simp only [rawPhase] at hx
          rw [sent_raw enc p.zlib (hq.1 p (by simp)).2 fun m hm => (arrives_raw hk (ht m (by simp [hm]))).1] at hx
          obtain ⟨m, hm, rfl⟩ := List.mem_map.mp hx
          exact ⟨m, by simp [hm], rfl⟩
        · obtain ⟨m, hm, rfl⟩ := ih x hx
          exact ⟨m, by simp [hm], rfl⟩
    obtain ⟨nr, hsess⟩ := NmdcConn.connection C I left law size tmo script enc dec (ps.map (rawPhase enc)) (rawOps enc final) hq' max
      maxCmdName hmax hcmd (rawImg dec) (fun x hx => by
        obtain ⟨m, hm, rfl⟩ := hsentAll x hx
        have := arrives_raw hk (ht m hm)
        exact ⟨this.2.1, this.2.2.1⟩) hn hok' hf' cs hcs hsent sched
    have hmap := received_seen calls u dec enc (rawImg dec) img sched ps final hq fun m hm => by
      have := arrives_raw hk (ht m hm)
      exact ⟨this.1, this.2.2.2⟩
    have hmap : (NmdcConn.received (rawImg dec) sched (ps.map (rawPhase enc)) (rawOps enc final) ++
        [NmdcConn.MsgObs.msg (.error .eof)]).map (seen calls u dec) = (received img sched ps final ++ [OwnObs.msg (.error .eof)]).map some := by
      rw [List.map_append, hmap, List.map_append]
      rfl
    have := session I calls u left hleft reg hreg { lines := (newReader (chunks cs) delim).setMaxLine max, dec, maxCmdName }
      (fun k => ⟨rfl, rfl, rfl⟩) _ nr hsess fun o ho hnone => by
        have : none ∈ (received img sched ps final ++ [OwnObs.msg (.error .eof)]).map some := by
          rw [← hmap, ← hnone]
          exact List.mem_map.mpr ⟨o, ho, rfl⟩
        simp at this
    have hfm : ∀ (l : List NmdcConn.MsgObs) (l' : List (OwnObs U)), l.map (seen calls u dec) = l'.map some →
        l.filterMap (seen calls u dec) = l' := by
      intro l l' h
      have : l.filterMap (seen calls u dec) = (l.map (seen calls u dec)).filterMap id := by rw [List.filterMap_map]; rfl
      rw [this, h, List.filterMap_map]
      simp
    have hd : ({ lines := (newReader (chunks cs) delim).setMaxLine max, dec, maxCmdName } : OReader (Msg ⊕ U) Z).dec = dec := rfl
    rw [hd, hfm _ _ hmap] at this
    exact ⟨_, this⟩

/-! ## A concrete case -/

end Verif.Props.NmdcOwnConn

namespace Verif.Props.NmdcOwnConn

open Verif.Go Verif.Nmdc Verif.Lineproto Verif.Spec
open Verif.Nmdc.Own (Out Op OWriter Ending)
open Verif.Props.NmdcOwnWriter
open Verif.Props.NmdcOwnReader
open Verif.Props.LineWriter (stored)

attribute [local instance] basicEntities

/-- The caller's `Ping` on the sending side. -/
def pingOut (s : Bytes) : Out := ⟨b!"Ping", fun _ buf => (.ok (), buf ++ s)⟩

def demoPhases : List Phase :=
  [⟨[.keepAlive, .msgs [pingOut b!"12", Out.std (.name .hello b!"joe") id]], 6, [.msgs [pingOut b!"abc"], .flush, .keepAlive]⟩]

def demoFinal : List Op := [.msgs [Out.std (.chat ⟨[], b!"hub restarts"⟩) id]]

/-- What arrives: the method of the receiving side reverses the text. -/
def demoImg (m : Out) : Msg ⊕ Bytes :=
  if m.typ = b!"Ping" then .inr (((m.put none []).2).reverse)
  else if m.typ = [] then .inl (.chat ⟨[], b!"hub restarts"⟩) else .inl (.name .hello b!"joe")

/-- The messages of the package add to the buffer. -/
theorem std_adds (m : Msg) (ord : Order) : Adds (Out.std m ord) := by
  intro enc
  simp only [Out.std]
  cases m.marshal enc ord with
  | ok p => exact ⟨p, rfl⟩
  | err e => exact ⟨[], by simp⟩
  | panic => exact ⟨[], by simp⟩

theorem names (l : Bytes) (h : l = b!"Ping" ∨ l = b!"Hello") : ∀ b ∈ l, NameChar b := by
  rcases h with rfl | rfl <;> simp [NameChar]

example : QuietPhases demoPhases demoFinal ∧
    (∀ m ∈ given (callsOf demoPhases demoFinal), Arrives pingCalls ping none none 32 32768 m (demoImg m)) ∧
    (∃ es w w', OWriter.run stored (callsOf demoPhases demoFinal) (Own.newOWriter 3 [] ⟨[], []⟩) = .val (es, w) ∧
      (∀ e ∈ es, e = .ret none) ∧ w.step stored .flush = .val (.ret none, w') ∧
      b!"|$Ping 12|$Hello joe|$ZOn|" <+: w'.lines.sink.sent) ∧
    received demoImg [] demoPhases demoFinal =
      [.msg (.ok (some (.inr b!"21"))), .msg (.ok (some (.inl (.name .hello b!"joe")))), .msg (.ok (some (.inl (.noArgs .zOn)))),
        .zlib [], .msg (.ok (some (.inr b!"cba"))), .msg (.ok (some (.inl (.chat ⟨[], b!"hub restarts"⟩))))] := by
  refine ⟨?_, ?_, ⟨_, _, _, rfl, by decide, rfl, by decide +kernel⟩, ?_⟩
  · refine ⟨?_, ?_⟩
    · intro p hp
      simp only [demoPhases, List.mem_singleton] at hp
      subst hp
      constructor <;> intro op h <;> simp only [List.mem_cons, List.not_mem_nil, or_false] at h
      · rcases h with rfl | rfl <;> trivial
      · rcases h with rfl | rfl | rfl <;> trivial
    · intro op h
      simp only [demoFinal, List.mem_singleton] at h
      subst h; trivial
  · intro m hm
    simp only [demoPhases, demoFinal, callsOf, given, List.cons_append, List.nil_append, List.append_nil, List.mem_cons,
      List.not_mem_nil, or_false] at hm
    rcases hm with rfl | rfl | rfl | rfl
    · exact ⟨fun enc => ⟨b!"12", rfl⟩, b!"12", rfl, by decide, by decide, .inr (by decide),
        .inl ⟨⟨by decide, by decide, names _ (by decide +kernel)⟩, .inl ⟨[], b!"21", rfl, rfl, rfl⟩⟩⟩
    · refine ⟨std_adds _ _, b!"joe", by decide +kernel, by decide, by decide, .inr (by decide +kernel),
        .inl ⟨⟨by decide +kernel, by decide +kernel, names _ (by decide +kernel)⟩, .inr ⟨rfl, .name .hello b!"joe", by decide +kernel, by decide +kernel⟩⟩⟩
    · exact ⟨fun enc => ⟨b!"abc", rfl⟩, b!"abc", rfl, by decide, by decide, .inr (by decide),
        .inl ⟨⟨by decide, by decide, names _ (by decide +kernel)⟩, .inl ⟨[], b!"cba", rfl, rfl, rfl⟩⟩⟩
    · exact ⟨std_adds _ _, b!"hub restarts", by decide +kernel, by decide, by decide, .inr (by decide +kernel),
        .inr ⟨by decide +kernel, by decide, by decide, .chat ⟨[], b!"hub restarts"⟩, by decide +kernel, by decide +kernel⟩⟩
  · with_unfolding_all rfl

end Verif.Props.NmdcOwnConn
