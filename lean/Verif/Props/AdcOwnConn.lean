import Verif.Adc.OwnConn
import Verif.Props.AdcConn
import Verif.Props.AdcOwn
import Verif.Props.AdcPanics

/-!
# C111: an ADC connection between programs with message types of their own
-/

namespace Verif.Props.AdcOwnConn

open Verif.Go Verif.Lineproto Verif.Adc Verif.Registry Verif.Props.AdcAnyMessage
open Verif.Props.AdcConn (ASession AObs Fits)
open Verif.Props.LineReader Verif.Props.LineDuplex

variable [ParseFloat] [ParseFloat32] {D : Type} (C : Deflater D) {Z : Type} (I : Inflater Z)
variable {U : Type} (types : U → OwnType) (reg : Reg MsgType (Msg ⊕ U))

set_option linter.unusedSectionVars false

/-! ## Specification -/

/-- A packet on its way: the address, the name of the command and the payload. -/
structure Wire where
  address : Address
  cmd : MsgType
  payload : Bytes

/-- What is sent of a packet with a message of any type; nothing if the message cannot be encoded. -/
def wire (a : Address) (m : AnyMsg) : Option Wire :=
  match m.cmd, m.put [] with
  | some cmd, (.ok _, payload) => some ⟨a, cmd, payload⟩
  | _, _ => none

/-- The packets that these calls send. -/
def sent : List AnyOp → List Wire
  | [] => []
  | .packet a m :: ops => (wire a m).toList ++ sent ops
  | _ :: ops => sent ops

/-- A call with a message that cannot be encoded. -/
def Hopeless : AnyOp → Prop
  | .packet a m => wire a m = none
  | _ => False

/-- The packet with the payload as a raw message. -/
def Wire.packet (x : Wire) : Packet := x.address.packet (.raw x.cmd x.payload)

/-- A packet that is one line within the limit of the reader, has no NUL and can be told from others. -/
def Whole (max : Int) (x : Wire) : Prop := Fits max x.packet ∧ AdcPackets.PacketOk x.packet x.cmd x.payload

/-- The payload is decoded. -/
def decoded (x : Wire) (out : OwnMsg U → OwnOut U) : OwnEnd U :=
  match unmarshalMessageOf types reg x.cmd x.payload with
  | .ok m => .returned (out m)
  | .err e => .failed e
  | .panic => .panicked

/-- What a reading call makes of a packet: `ReadPacket` decodes the message, `ReadPacketRaw` does not, `ReadInfo` and `ReadClient` refuse
packets of other kinds. -/
def result (x : Wire) : Call → OwnEnd U
  | .packet => decoded types reg x (.packet x.address)
  | .raw => .returned (.packet x.address (.lib (.raw x.cmd x.payload)))
  | .info => if x.address = .info then decoded types reg x .message else .failed (.other 131)
  | .client => if x.address = .client then decoded types reg x .message else .failed (.other 132)

/-- Calls that send packets, keep-alives and nothing else. -/
def Quiet : AnyOp → Prop
  | .packet _ _ | .keepAlive | .flush => True
  | _ => False

/-- A plain phase whose last packet announces compression, then a compressed phase. -/
structure Phase where
  plain : List AnyOp
  onA : Address
  onM : AnyMsg
  lvl : Int
  zlib : List AnyOp

/-- The calls of the sending side. -/
def callsOf : List Phase → List AnyOp → List AnyOp
  | [], final => final
  | p :: ps, final => p.plain ++ .packet p.onA p.onM :: .zOn p.lvl :: (p.zlib ++ .zOff :: callsOf ps final)

def QuietPhases (ps : List Phase) (final : List AnyOp) : Prop :=
  (∀ p ∈ ps, (∀ op ∈ p.plain, Quiet op) ∧ (∀ op ∈ p.zlib, Quiet op) ∧ wire p.onA p.onM ≠ none) ∧ ∀ op ∈ final, Quiet op

/-- What the receiving side sees. -/
inductive Obs (U : Type) : Type 1 where
  | call (c : Call) (room : Nat) (res : OwnEnd U)
  | zlib (sched : List (Nat × Bool))

/-- Calls of the reader and `EnableZlib` by the receiving side, with their results. -/
inductive Session : AReader Z → List (Obs U) → AReader Z → Prop where
  | nil (r : AReader Z) : Session r [] r
  | call (r r1 r2 : AReader Z) (c : Call) (room : Nat) (res : OwnEnd U) (rest : List (Obs U))
      (h : ∃ n, ∀ fuel ≥ n, r.readOf types reg I c room fuel = .val (res, r1)) (t : Session r1 rest r2) : Session r (.call c room res :: rest) r2
  | zlib (r : AReader Z) (lr : Reader Z) (r2 : AReader Z) (sched : List (Nat × Bool)) (rest : List (Obs U))
      (h : r.lines.EnablesZlib I sched lr) (t : Session { r with lines := lr } rest r2) : Session r (.zlib sched :: rest) r2

/-- One call for each packet, with the result of that call on that packet. -/
def Answers : List Wire → List (Obs U) → Prop
  | [], obs => obs = []
  | x :: xs, obs => ∃ c room rest, obs = .call c room (result types reg x c) :: rest ∧ Answers xs rest

/-- What the receiving side must see: an answer for each packet in order; it switches on decompression after the announcement. -/
def Received (sched : List (Nat × Bool)) : List Phase → List AnyOp → List (Obs U) → Prop
  | [], final, obs => Answers types reg (sent final) obs
  | p :: ps, final, obs => ∃ o1 o2 o3, obs = o1 ++ .zlib sched :: (o2 ++ o3) ∧ Answers types reg (sent p.plain ++ (wire p.onA p.onM).toList) o1 ∧
      Answers types reg (sent p.zlib) o2 ∧ Received sched ps final o3

/-! ## Reading -/

theorem message_packet (a : Address) (m : Msg) : (a.packet m).message = m := by cases a <;> rfl
theorem address_packet (a : Address) (m : Msg) : (a.packet m).address = a := by cases a <;> rfl

theorem decodedAs_raw (x : Wire) (out : OwnMsg U → OwnOut U) : decodedAs types reg (.raw x.cmd x.payload) out = decoded types reg x out := by
  unfold decodedAs decoded
  simp only [decodeMessageOf]
  cases unmarshalMessageOf types reg x.cmd x.payload <;> rfl

/-- What the program does with the raw packet is what the specification says. -/
theorem ofPacket_eq (x : Wire) (c : Call) : c.ofPacket types reg x.packet = result types reg x c := by
  obtain ⟨a, cmd, payload⟩ := x
  cases c with
  | packet => 
    simp only [Call.ofPacket, result, Wire.packet, message_packet, address_packet]
    exact decodedAs_raw types reg ⟨a, cmd, payload⟩ _
  | raw => simp only [Call.ofPacket, result, Wire.packet, message_packet, address_packet]
  | info =>
    cases a <;> simp only [Call.ofPacket, result, Wire.packet, Address.packet] <;> first
      | exact decodedAs_raw types reg ⟨_, cmd, payload⟩ _
      | rfl
  | client =>
    cases a <;> simp only [Call.ofPacket, result, Wire.packet, Address.packet] <;> first
      | exact decodedAs_raw types reg ⟨_, cmd, payload⟩ _
      | rfl

/-- A call that gets a packet gets what its kind makes of it, and leaves the same reader, however the decoding ends. -/
theorem read_of {r r' : AReader Z} {room fuel : Nat} {p : Packet} (h : r.read I .raw room fuel = .val (.ok (.packet p), r')) (c : Call) :
    r.readOf types reg I c room fuel = .val (c.ofPacket types reg p, r') := by
  unfold AReader.read at h
  unfold AReader.readOf
  cases hl : r.readPacketLine I fuel 0 with
  | panic => rw [hl] at h; cases h
  | timeout => rw [hl] at h; cases h
  | val y =>
    obtain ⟨e, r1⟩ := y
    rw [hl] at h
    cases e with
    | error e => cases h
    | ok line =>
      simp only [Call.decode] at h ⊢
      cases hd : decodePacketRaw room line with
      | panic => rw [hd] at h; cases h
      | err e => rw [hd] at h; cases h
      | ok q =>
        rw [hd] at h
        cases h
        rfl

theorem read_of_error {r r' : AReader Z} {room fuel : Nat} {e : Err} (h : r.read I .raw room fuel = .val (.error e, r')) (c : Call) :
    r.readOf types reg I c room fuel = .val (.failed e, r') := by
  unfold AReader.read at h
  unfold AReader.readOf
  cases hl : r.readPacketLine I fuel 0 with
  | panic => rw [hl] at h; cases h
  | timeout => rw [hl] at h; cases h
  | val y =>
    obtain ⟨x, r1⟩ := y
    rw [hl] at h
    cases x with
    | error e => cases h; rfl
    | ok line =>
      simp only [Call.decode] at h ⊢
      cases hd : decodePacketRaw room line with
      | panic => rw [hd] at h; cases h
      | err e => rw [hd] at h; cases h; rfl
      | ok q => rw [hd] at h; cases h

/-- What a program sees that reads raw packets, and what one sees that makes other calls instead. -/
inductive Seen : List AObs → List (Obs U) → Prop where
  | nil : Seen [] []
  | call (x : Wire) (c : Call) (room : Nat) {os : List AObs} {obs : List (Obs U)} (t : Seen os obs) :
      Seen (.call .raw room (.ok (.packet x.packet)) :: os) (.call c room (result types reg x c) :: obs)
  | error (e : Err) (c : Call) (room : Nat) {os : List AObs} {obs : List (Obs U)} (t : Seen os obs) :
      Seen (.call .raw room (.error e) :: os) (.call c room (.failed e) :: obs)
  | zlib (sched : List (Nat × Bool)) {os : List AObs} {obs : List (Obs U)} (t : Seen os obs) : Seen (.zlib sched :: os) (.zlib sched :: obs)

theorem seen_append {os1 os2 : List AObs} {o1 o2 : List (Obs U)} (h1 : Seen types reg os1 o1) (h2 : Seen types reg os2 o2) :
    Seen types reg (os1 ++ os2) (o1 ++ o2) := by
  induction h1 with
  | nil => exact h2
  | call x c room _ ih => exact .call x c room ih
  | error e c room _ ih => exact .error e c room ih
  | zlib sched _ ih => exact .zlib sched ih

/-- The session of a program that reads raw packets is one of a program that makes other calls. -/
theorem session_of {os : List AObs} {obs : List (Obs U)} (h : Seen types reg os obs) : ∀ {r r' : AReader Z}, ASession I r os r' →
    Session I types reg r obs r' := by
  induction h with
  | nil => intro r r' hs; cases hs; exact .nil _
  | call x c room _ ih =>
    intro r r' hs
    cases hs with
    | call _ r1 _ _ _ _ _ h t =>
      obtain ⟨n, hn⟩ := h
      refine .call r r1 r' c room _ _ ⟨n, fun fuel hf => ?_⟩ (ih t)
      rw [read_of I types reg (hn fuel hf) c, ofPacket_eq]
  | error e c room _ ih =>
    intro r r' hs
    cases hs with
    | call _ r1 _ _ _ _ _ h t =>
      obtain ⟨n, hn⟩ := h
      exact .call r r1 r' c room _ _ ⟨n, fun fuel hf => read_of_error I types reg (hn fuel hf) c⟩ (ih t)
  | zlib sched _ ih =>
    intro r r' hs
    cases hs with
    | zlib _ lr _ _ _ h t => exact .zlib r lr r' sched _ h (ih t)

/-! ## Writing -/

theorem asRaw_packet (a : Address) (m : AnyMsg) : asRaw (.packet a m) = (wire a m).map fun x => .packet x.packet := by
  obtain ⟨cmd, put⟩ := m
  simp only [asRaw, wire]
  cases cmd with
  | none => rfl
  | some cmd =>
    generalize put [] = y
    obtain ⟨r, b⟩ := y
    cases r <;> rfl

/-- The calls with raw messages that do the same. -/
abbrev rawOps (ops : List AnyOp) : List AOp := ops.filterMap asRaw

theorem raw_sent (ops : List AnyOp) : AdcConn.sent (rawOps ops) = (sent ops).map Wire.packet := by
  induction ops with
  | nil => rfl
  | cons op ops ih =>
    unfold rawOps at ih ⊢
    rw [List.filterMap_cons]
    cases op with
    | packet a m =>
      rw [asRaw_packet]
      simp only [sent]
      cases wire a m with
      | none => exact ih
      | some x => simp only [Option.map, AdcConn.sent, ih, Option.toList, List.cons_append, List.nil_append, List.map_cons]
    | keepAlive => exact ih
    | flush => exact ih
    | zOn lvl => exact ih
    | zOff => exact ih
    | close => exact ih

theorem raw_quiet (ops : List AnyOp) (h : ∀ op ∈ ops, Quiet op) : ∀ op ∈ rawOps ops, AdcConn.Quiet op := by
  intro o ho
  obtain ⟨op, hop, he⟩ := List.mem_filterMap.mp ho
  have := h op hop
  cases op with
  | packet a m =>
    rw [asRaw_packet] at he
    cases hw : wire a m with
    | none => rw [hw] at he; cases he
    | some x => rw [hw] at he; cases he; trivial
  | keepAlive => cases he; trivial
  | flush => cases he; trivial
  | zOn lvl => exact this.elim
  | zOff => exact this.elim
  | close => exact this.elim

/-- A phase with raw messages. -/
def rawPhase (p : Phase) : AdcConn.Phase :=
  ⟨rawOps p.plain, match wire p.onA p.onM with | some x => x.packet | none => p.onA.packet (.raw ⟨b!"MSG", rfl⟩ []), p.lvl, rawOps p.zlib⟩

theorem raw_calls (ps : List Phase) (final : List AnyOp) (h : ∀ p ∈ ps, wire p.onA p.onM ≠ none) :
    rawOps (callsOf ps final) = AdcConn.callsOf (ps.map rawPhase) (rawOps final) := by
  induction ps with
  | nil => rfl
  | cons p ps ih =>
    have hp := h p (by simp)
    have ih := ih fun q hq => h q (by simp [hq])
    obtain ⟨x, hx⟩ := Option.ne_none_iff_exists'.mp hp
    have h1 : asRaw (.packet p.onA p.onM) = some (.packet x.packet) := by rw [asRaw_packet, hx]; rfl
    have h2 : asRaw (.zOn p.lvl) = some (.zOn p.lvl) := rfl
    have h3 : asRaw .zOff = some .zOff := rfl
    unfold rawOps at ih ⊢
    simp only [callsOf, List.map_cons, AdcConn.callsOf, rawPhase, hx, List.filterMap_append, List.filterMap_cons, h1, h2, h3, ih, rawOps]

/-- All packets of the conversation. -/
def allSent : List Phase → List AnyOp → List Wire
  | [], final => sent final
  | p :: ps, final => sent p.plain ++ ((wire p.onA p.onM).toList ++ (sent p.zlib ++ allSent ps final))

theorem raw_allSent (ps : List Phase) (final : List AnyOp) (h : ∀ p ∈ ps, wire p.onA p.onM ≠ none) :
    AdcConn.allSent (ps.map rawPhase) (rawOps final) = (allSent ps final).map Wire.packet := by
  induction ps with
  | nil => exact raw_sent final
  | cons p ps ih =>
    have hp := h p (by simp)
    have ih := ih fun q hq => h q (by simp [hq])
    obtain ⟨x, hx⟩ := Option.ne_none_iff_exists'.mp hp
    simp only [List.map_cons, AdcConn.allSent, allSent, rawPhase, hx, raw_sent, ih, Option.toList, List.map_append, List.cons_append,
      List.nil_append]

theorem answers_raw (xs : List Wire) (hx : ∀ x ∈ xs, ∃ max, Whole max x) (obs : List (Obs U)) (h : Answers types reg xs obs) :
    ∃ os, AdcConn.Answers (xs.map Wire.packet) os ∧ Seen types reg os obs := by
  induction xs generalizing obs with
  | nil => cases h; exact ⟨[], rfl, .nil⟩
  | cons x xs ih =>
    obtain ⟨c, room, rest, rfl, h⟩ := h
    obtain ⟨os, h1, h2⟩ := ih (fun y hy => hx y (by simp [hy])) rest h
    obtain ⟨max, hw⟩ := hx x (by simp)
    exact ⟨_, ⟨.raw, room, _, os, rfl, AdcConn.raw_gets room x.packet x.cmd x.payload (message_packet _ _) hw.2, h1⟩, .call x c room h2⟩

theorem received_raw (sched : List (Nat × Bool)) (ps : List Phase) (final : List AnyOp) (h : ∀ p ∈ ps, wire p.onA p.onM ≠ none)
    (hx : ∀ x ∈ allSent ps final, ∃ max, Whole max x) (obs : List (Obs U)) (hr : Received types reg sched ps final obs) :
    ∃ os, AdcConn.Received sched (ps.map rawPhase) (rawOps final) os ∧ Seen types reg os obs := by
  induction ps generalizing obs with
  | nil =>
    obtain ⟨os, h1, h2⟩ := answers_raw types reg _ hx obs hr
    have h1 : AdcConn.Answers ((sent final).map Wire.packet) os := h1
    rw [← raw_sent] at h1
    exact ⟨os, h1, h2⟩
  | cons p ps ih =>
    obtain ⟨o1, o2, o3, rfl, h1, h2, h3⟩ := hr
    have hp := h p (by simp)
    obtain ⟨x, hw⟩ := Option.ne_none_iff_exists'.mp hp
    simp only [allSent, List.mem_append] at hx
    obtain ⟨s1, a1, b1⟩ := answers_raw types reg _ (by
      intro y hy
      rcases List.mem_append.mp hy with hy | hy
      · exact hx y (.inl hy)
      · exact hx y (.inr (.inl hy))) o1 h1
    obtain ⟨s2, a2, b2⟩ := answers_raw types reg _ (fun y hy => hx y (.inr (.inr (.inl hy)))) o2 h2
    obtain ⟨s3, a3, b3⟩ := ih (fun q hq => h q (by simp [hq])) (fun y hy => hx y (.inr (.inr (.inr hy)))) o3 h3
    refine ⟨s1 ++ .zlib sched :: (s2 ++ s3), ⟨s1, s2, s3, rfl, ?_, ?_, a3⟩,
      seen_append types reg b1 (.zlib sched (seen_append types reg b2 b3))⟩
    · simp only [rawPhase, hw, raw_sent]
      rw [hw] at a1
      simpa [Option.toList] using a1
    · simp only [rawPhase, raw_sent]
      exact a2

theorem picked_ok (ops : List AnyOp) (rs : List Ending) (h : ∀ x ∈ ops.zip rs, x.2 = .returned none ∨ Hopeless x.1) :
    ∀ e ∈ picked ops rs, e = none := by
  induction ops generalizing rs with
  | nil => intro e he; cases he
  | cons op ops ih =>
    cases rs with
    | nil => intro e he; cases he
    | cons r rs =>
      intro e he
      have h0 := h (op, r) (by simp)
      have ih := ih rs fun x hx => h x (by simp [hx])
      unfold picked at he
      split at he
      · rename_i hs
        rcases List.mem_cons.mp he with rfl | he
        · rcases h0 with h0 | h0
          · simp only at h0
            rw [h0]; rfl
          · cases op with
            | packet a m => rw [asRaw_packet, show wire a m = none from h0] at hs; cases hs
            | _ => exact h0.elim
        · exact ih e he
      · exact ih e he

/-- **C111.** One side writes packets with messages of any types, keep-alives and flushes, with compressed phases announced by a packet;
calls with messages that cannot be encoded may fail or panic in between, all others succeed; and it flushes.  Then the other side, which
has registered types of its own, calls any of the reading functions and switches on decompression after each announcement.  It gets for
each packet that could be encoded, in order, what its call makes of the address, the name and the payload, and then the end of the stream;
and a message that cannot be decoded, or whose decoding panics, does no harm to those after it. -/
theorem connection (law : C.Law I) (size : Int) (tmo : List (Option Err)) (script : List SEv) (ps : List Phase) (final : List AnyOp)
    (hq : QuietPhases ps final) (hp : ∀ a m, .packet a m ∈ callsOf ps final → Plain m.put)
    (max : Int) (ht : ∀ x ∈ allSent ps final, Whole max x) {mbuf : Bytes} {rs : List Ending} {w w' : AnyWriter D}
    (hrun : AnyWriter.run C ⟨mbuf, newWriter size tmo ⟨[], script⟩⟩ (callsOf ps final) = .val (rs, w))
    (hok : ∀ x ∈ (callsOf ps final).zip rs, x.2 = .returned none ∨ Hopeless x.1)
    (hf : w.step C .flush = .val (.returned none, w'))
    (cs : List Bytes) (hcs : ∀ c ∈ cs, c ≠ []) (hsent : cs.flatten = w'.w.sink.sent)
    (sched : List (Nat × Bool)) (obs : List (Obs U)) (hobs : Received types reg sched ps final obs) (c : Call) (room : Nat) :
    ∃ r', Session I types reg { lines := (newReader (chunks cs) c!"\n").setMaxLine max } (obs ++ [.call c room (.failed .eof)]) r' := by
  have hon : ∀ p ∈ ps, wire p.onA p.onM ≠ none := fun p hp => (hq.1 p hp).2.2
  have hsame := same_wire C (callsOf ps final) hp ⟨mbuf, newWriter size tmo ⟨[], script⟩⟩
  rw [hrun] at hsame
  simp only [see] at hsame
  have hcalls : (callsOf ps final).filterMap asRaw = AdcConn.callsOf (ps.map rawPhase) (rawOps final) := raw_calls ps final hon
  rw [hcalls] at hsame
  have hfl : aStep C .flush w.w = .val (none, w'.w) := by
    simp only [AnyWriter.step, AnyWriter.step.onLines] at hf
    simp only [aStep]
    cases hw : w.w.flush C with
    | panic => rw [hw] at hf; cases hf
    | timeout => rw [hw] at hf; cases hf
    | val y =>
      obtain ⟨e, lw⟩ := y
      rw [hw] at hf
      cases hf
      rfl
  obtain ⟨os, ho, hseen⟩ := received_raw types reg sched ps final hon (fun x hx => ⟨max, ht x hx⟩) obs hobs
  obtain ⟨r', hr⟩ := AdcConn.connection C I law size tmo script (ps.map rawPhase) (rawOps final)
    ⟨by
      intro q hq'
      obtain ⟨p, hpm, rfl⟩ := List.mem_map.mp hq'
      exact ⟨raw_quiet _ (hq.1 p hpm).1, raw_quiet _ (hq.1 p hpm).2.1⟩, raw_quiet _ hq.2⟩ max
    (by
      rw [raw_allSent ps final hon]
      intro q hq'
      obtain ⟨x, hx, rfl⟩ := List.mem_map.mp hq'
      exact (ht x hx).1) hsame (picked_ok _ _ hok) hfl cs hcs hsent sched os ho .raw room
  exact ⟨r', session_of I types reg (seen_append types reg hseen (.error .eof c room .nil)) hr⟩

/-! ## What arrives -/

/-- A packet whose name is registered for a type of the caller is read as a value of that type. -/
theorem own_value (x : Wire) (u : U) (hu : reg.get x.cmd = some (.inr u)) (hv : (types u).valueCmd = true) (v : Target)
    (hr : (types u).zero.unmarshal x.payload = (v, .ok ())) : result types reg x .packet = .returned (.packet x.address (.own u v)) := by
  simp only [result, decoded, unmarshalMessageOf, hu, hr, hv]
  rfl

/-- So are those that come as info and client packets. -/
theorem own_message (x : Wire) (u : U) (hu : reg.get x.cmd = some (.inr u)) (hv : (types u).valueCmd = true) (v : Target)
    (hr : (types u).zero.unmarshal x.payload = (v, .ok ())) :
    (x.address = .info → result types reg x .info = .returned (.message (.own u v))) ∧
    (x.address = .client → result types reg x .client = .returned (.message (.own u v))) := by
  refine ⟨fun ha => ?_, fun ha => ?_⟩ <;>
  · simp only [result, decoded, unmarshalMessageOf, hu, hr, hv, ha]
    rfl

/-- **C111**, as it is used most: packets with values of the caller's types, written with any keep-alives and flushes between them, are read
by `ReadPacket` as values of the types registered for their names, in order. -/
theorem values_arrive (law : C.Law I) (size : Int) (tmo : List (Option Err)) (script : List SEv) (ops : List AnyOp)
    (hq : ∀ op ∈ ops, Quiet op) (hp : ∀ a m, .packet a m ∈ ops → Plain m.put) (max : Int) (ht : ∀ x ∈ sent ops, Whole max x)
    {rs : List Ending} {w w' : AnyWriter D} (hrun : AnyWriter.run C ⟨[], newWriter size tmo ⟨[], script⟩⟩ ops = .val (rs, w))
    (hok : ∀ x ∈ ops.zip rs, x.2 = .returned none ∨ Hopeless x.1) (hf : w.step C .flush = .val (.returned none, w'))
    (cs : List Bytes) (hcs : ∀ c ∈ cs, c ≠ []) (hsent : cs.flatten = w'.w.sink.sent)
    (typeOf : Wire → U) (val : Wire → Target) (hreg : ∀ x ∈ sent ops, reg.get x.cmd = some (.inr (typeOf x)) ∧
      (types (typeOf x)).valueCmd = true ∧ (types (typeOf x)).zero.unmarshal x.payload = (val x, .ok ())) (room : Nat) :
    ∃ r', Session I types reg { lines := (newReader (chunks cs) c!"\n").setMaxLine max }
      ((sent ops).map (fun x => .call .packet room (.returned (.packet x.address (.own (typeOf x) (val x))))) ++
        [.call .packet room (.failed .eof)]) r' := by
  have hans : ∀ xs : List Wire, (∀ x ∈ xs, x ∈ sent ops) →
      Answers types reg xs (xs.map (fun x => .call .packet room (.returned (.packet x.address (.own (typeOf x) (val x)))))) := by
    intro xs
    induction xs with
    | nil => intro _; rfl
    | cons x xs ih =>
      intro hx
      obtain ⟨h1, h2, h3⟩ := hreg x (hx x (by simp))
      refine ⟨.packet, room, _, ?_, ih fun y hy => hx y (by simp [hy])⟩
      rw [own_value types reg x (typeOf x) h1 h2 (val x) h3]
      rfl
  exact connection C I types reg law size tmo script [] ops ⟨by simp, hq⟩ hp max ht hrun hok hf cs hcs hsent [] _
    (hans _ fun _ h => h) .packet room

/-- A line that makes the decoder of packets panic (C45 tells which) makes every call panic, and a program that recovers goes on behind it. -/
theorem fatal_line {r r' : AReader Z} {room fuel : Nat} {line : Bytes} (h : r.readPacketLine I fuel 0 = .val (.ok line, r'))
    (hp : AdcPanics.FatalPacket room line) (c : Call) : r.readOf types reg I c room fuel = .val (.panicked, r') := by
  simp only [AReader.readOf, h, AdcPanics.packet_panics_iff.mpr hp]

/-! ## Programs without types of their own -/

/-- A packet or message of the library. -/
def Out.own : Out → OwnOut U
  | .packet p => .packet p.address (.lib p.message)
  | .message m => .message (.lib m)

theorem address_set (p : Packet) (m : Msg) : (p.setMessage m).address = p.address ∧ (p.setMessage m).message = m := by
  cases p <;> exact ⟨rfl, rfl⟩

theorem decodedAs_lib (hlib : ∀ name data, unmarshalMessageOf types reg name data = AdcOwn.libOf U name data) (m : Msg)
    (out : OwnMsg U → OwnOut U) : decodedAs types reg m out =
      match decodeMessage m with
      | .ok m => .returned (out (.lib m))
      | .err e => .failed e
      | .panic => .panicked := by
  cases m with
  | raw typ data =>
    simp only [decodedAs, decodeMessageOf, hlib, AdcOwn.libOf, decodeMessage]
    cases unmarshalMessage typ data <;> rfl
  | _ => rfl

/-- As long as the registered types are those of the library, the calls are those of the other properties of the reader. -/
theorem library_calls (hlib : ∀ name data, unmarshalMessageOf types reg name data = AdcOwn.libOf U name data) (c : Call) (room fuel : Nat)
    (r r' : AReader Z) (res : Except Err Out) (h : r.read I c room fuel = .val (res, r')) :
    r.readOf types reg I c room fuel = .val (match res with | .ok out => .returned (Out.own out) | .error e => .failed e, r') := by
  unfold AReader.read at h
  unfold AReader.readOf
  cases hl : r.readPacketLine I fuel 0 with
  | panic => rw [hl] at h; cases h
  | timeout => rw [hl] at h; cases h
  | val y =>
    obtain ⟨x, r1⟩ := y
    rw [hl] at h
    cases x with
    | error e => cases h; rfl
    | ok line =>
      simp only at h ⊢
      cases hd : decodePacketRaw room line with
      | panic => cases c <;> simp only [Call.decode, decodePacket, hd] at h <;> cases h
      | err e => cases c <;> simp only [Call.decode, decodePacket, hd] at h <;> cases h <;> rfl
      | ok p =>
        cases c with
        | raw =>
          simp only [Call.decode, hd, Res.ok_bind] at h
          cases h
          rfl
        | packet =>
          simp only [Call.decode, decodePacket, hd, Res.ok_bind] at h
          simp only [Call.ofPacket, decodedAs_lib types reg hlib]
          cases hm : decodeMessage p.message with
          | panic => rw [hm] at h; cases h
          | err e => rw [hm] at h; cases h; rfl
          | ok m =>
            rw [hm] at h
            cases h
            simp only [Out.own, address_set]
        | info =>
          simp only [Call.decode, hd, Res.ok_bind] at h
          cases p with
          | info msg =>
            simp only [Call.ofPacket, decodedAs_lib types reg hlib]
            simp only at h
            cases hm : decodeMessage msg with
            | panic => rw [hm] at h; cases h
            | err e => rw [hm] at h; cases h; rfl
            | ok m => rw [hm] at h; cases h; rfl
          | _ => cases h; rfl
        | client =>
          simp only [Call.decode, hd, Res.ok_bind] at h
          cases p with
          | client msg =>
            simp only [Call.ofPacket, decodedAs_lib types reg hlib]
            simp only at h
            cases hm : decodeMessage msg with
            | panic => rw [hm] at h; cases h
            | err e => rw [hm] at h; cases h; rfl
            | ok m => rw [hm] at h; cases h; rfl
          | _ => cases h; rfl

/-- A line that ends within a selector. -/
example : AdcPanics.FatalPacket 0 b!"FSCH AAAA +TC\n" := AdcPanics.packet_panics_iff.mp (by with_unfolding_all rfl)

/-- The hypothesis holds for a program that has registered nothing. -/
example (r : Reg MsgType (Msg ⊕ U)) (h : Reg.registerAll (adcInit.flatten.map adcCall) [] = .ok r) (name : MsgType) (data : Bytes) :
    unmarshalMessageOf types r name data = AdcOwn.libOf U name data :=
  (AdcOwn.registered_types types r r h [] rfl name data).2 (by simp)

/-! ## A conversation -/

open Verif.Props.AdcOwn (pollTypes pollReg colour text_plain)

/-- A poll. -/
def ask (s : Bytes) : AnyMsg := .own ⟨b!"POL", rfl⟩ (Put.text s)

/-- A message of the type that panics at the receiver. -/
def bad : AnyMsg := .own ⟨b!"PTR", rfl⟩ (Put.text b!"x")

/-- A poll, a nil message, a message that the receiver cannot take, and after an announcement a compressed one. -/
def talk : List Phase :=
  [⟨[.keepAlive, .packet .hub (ask b!"why? COtan"), .packet .hub .nil, .packet .info bad], .info, ask b!"zlib? COred", 6,
    [.packet (.broadcast ⟨b!"AAAB", rfl⟩) (ask b!"odd COblue"), .flush]⟩]

def talkEnd : List AnyOp := [.packet .client (ask b!"end COfin")]

/-- A value of the type of the caller. -/
def asked (a b : Bytes) : OwnMsg Bool := .own true (.struct [⟨b!"#", true, .str, a⟩, ⟨b!"CO", true, colour, b⟩])

def talkRes : List (Obs Bool) :=
  [.call .packet 0 (.returned (.packet .hub (asked b!"why?" b!"tan"))), .call .info 0 .panicked,
    .call .info 3 (.returned (.message (asked b!"zlib?" b!"red"))), .zlib [], .call .packet 0 (.failed (.other 900)),
    .call .client 0 (.returned (.message (asked b!"end" b!"fin")))]

example : sent (talk.flatMap Phase.plain) = [⟨.hub, ⟨b!"POL", rfl⟩, b!"why? COtan"⟩, ⟨.info, ⟨b!"PTR", rfl⟩, b!"x"⟩] := by with_unfolding_all rfl

example : QuietPhases talk talkEnd ∧ (∀ a m, .packet a m ∈ callsOf talk talkEnd → Plain m.put) ∧ (∀ x ∈ allSent talk talkEnd, Whole 4096 x) := by
  refine ⟨⟨?_, ?_⟩, ?_, ?_⟩
  · intro p hp
    simp only [talk, List.mem_singleton] at hp
    subst hp
    refine ⟨?_, ?_, fun h => by cases h⟩ <;> intro op h <;> simp only [List.mem_cons, List.not_mem_nil, or_false] at h
    · rcases h with rfl | rfl | rfl | rfl <;> trivial
    · rcases h with rfl | rfl <;> trivial
  · intro op h
    simp only [talkEnd, List.mem_singleton] at h
    subst h; trivial
  · intro a m h
    simp only [talk, talkEnd, callsOf, List.cons_append, List.nil_append, List.mem_cons, List.not_mem_nil, or_false, AnyOp.packet.injEq,
      reduceCtorEq, false_or] at h
    rcases h with ⟨_, rfl⟩ | ⟨_, rfl⟩ | ⟨_, rfl⟩ | ⟨_, rfl⟩ | ⟨_, rfl⟩ | ⟨_, rfl⟩ <;> first | exact text_plain _ | exact fun buf => by simp [AnyMsg.nil]
  · intro x hx
    have hall : allSent talk talkEnd = [⟨.hub, ⟨b!"POL", rfl⟩, b!"why? COtan"⟩, ⟨.info, ⟨b!"PTR", rfl⟩, b!"x"⟩, ⟨.info, ⟨b!"POL", rfl⟩, b!"zlib? COred"⟩,
      ⟨.broadcast ⟨b!"AAAB", rfl⟩, ⟨b!"POL", rfl⟩, b!"odd COblue"⟩, ⟨.client, ⟨b!"POL", rfl⟩, b!"end COfin"⟩] := by with_unfolding_all rfl
    rw [hall] at hx
    simp only [List.mem_cons, List.not_mem_nil, or_false] at hx
    rcases hx with rfl | rfl | rfl | rfl | rfl
    · exact ⟨⟨⟨⟨by decide, by decide⟩, trivial⟩, .inr (by decide +kernel)⟩, by decide, by decide, trivial⟩
    · exact ⟨⟨⟨⟨by decide, by decide⟩, trivial⟩, .inr (by decide +kernel)⟩, by decide, by decide, trivial⟩
    · exact ⟨⟨⟨⟨by decide, by decide⟩, trivial⟩, .inr (by decide +kernel)⟩, by decide, by decide, trivial⟩
    · exact ⟨⟨⟨⟨by decide, by decide⟩, show c!"\n" ∉ b!"AAAB" by decide⟩, .inr (by decide +kernel)⟩, by decide, by decide,
        show (0 : Byte) ∉ b!"AAAB" by decide⟩
    · exact ⟨⟨⟨⟨by decide, by decide⟩, trivial⟩, .inr (by decide +kernel)⟩, by decide, by decide, trivial⟩

example : ∃ rs w w', AnyWriter.run LineWriter.stored ⟨b!"left", newWriter 3 [] ⟨[], []⟩⟩ (callsOf talk talkEnd) = .val (rs, w) ∧
    (∀ x ∈ (callsOf talk talkEnd).zip rs, x.2 = .returned none ∨ Hopeless x.1) ∧ w.step LineWriter.stored .flush = .val (.returned none, w') ∧
    b!"\nHPOL why? COtan\nIPTR x\nIPOL zlib? COred\n" <+: w'.w.sink.sent := by
  refine ⟨[.returned none, .returned none, .panicked, .returned none, .returned none, .returned none, .returned none, .returned none,
    .returned none, .returned none], _, _, by with_unfolding_all rfl, ?_, by with_unfolding_all rfl, by decide +kernel⟩
  intro x hx
  simp only [talk, talkEnd, callsOf, List.cons_append, List.nil_append, List.zip_cons_cons, List.zip_nil_right, List.mem_cons, List.not_mem_nil,
    or_false] at hx
  rcases hx with rfl | rfl | rfl | rfl | rfl | rfl | rfl | rfl | rfl | rfl <;> first | exact .inl rfl | exact .inr rfl

/-- The receiver survives the message that makes its call panic, and the one that cannot be decoded. -/
example : Received pollTypes pollReg [] talk talkEnd talkRes := by
  exact ⟨[_, _, _], [_], [_], rfl, ⟨_, _, _, by with_unfolding_all rfl, _, _, _, by with_unfolding_all rfl, _, _, _, by with_unfolding_all rfl,
      by with_unfolding_all rfl⟩, ⟨_, _, _, by with_unfolding_all rfl, rfl⟩, ⟨_, _, _, by with_unfolding_all rfl, rfl⟩⟩

example := own_value pollTypes pollReg ⟨.hub, ⟨b!"POL", rfl⟩, b!"why? COtan"⟩ true (by with_unfolding_all rfl) rfl
  (.struct [⟨b!"#", true, .str, b!"why?"⟩, ⟨b!"CO", true, colour, b!"tan"⟩]) (by with_unfolding_all rfl)

end Verif.Props.AdcOwnConn
