import Verif.Adc.PacketVal
import Verif.Props.AdcMessages
import Verif.Props.AdcPackets

/-!
# C90: packets are used again

A packet is a value with a message that may be nil.  These theorems say what each method does to it, for packets in any state, and
what a history of calls leaves.
-/

namespace Verif.Props.AdcPacketVal

open Verif.Go Verif.Adc Verif.Tiger Verif.Spec Verif.Props.AdcPackets Verif.Props.AdcMessages

/-! ## The fields -/

theorem packet_val (a : Address) (m : Msg) : (a.packet m).val = ⟨a, some m⟩ := by cases a <;> rfl

theorem packet_kind (a : Address) (m : Msg) : (a.packet m).kind = a.kind := by cases a <;> rfl

theorem packet_message (a : Address) (m : Msg) : (a.packet m).message = m := by cases a <;> rfl

theorem address_kind (p : Packet) : p.address.kind = p.kind := by cases p <;> rfl

/-- What was set is what is got, and nothing else changes. -/
theorem set_get (p : PacketVal) (m : Option Msg) : (p.setMessage m).msg = m ∧ (p.setMessage m).address = p.address := ⟨rfl, rfl⟩

/-- The first id on the line is the source, the second one the target. -/
theorem source_target (a : Address) (m : Msg) :
    (∀ id, a.source = some id → ∃ rest, (a.packet m).header = b!" " ++ id.bytes ++ b!" " ++ rest) ∧
    (∀ to, a.target = some to → ∃ id, a.source = some id ∧ (a.packet m).header = b!" " ++ id.bytes ++ b!" " ++ to.bytes ++ b!" ") ∧
    (a.source ≠ none ↔ a.kind = c!"B" ∨ a.kind = c!"D" ∨ a.kind = c!"E" ∨ a.kind = c!"F") ∧
    (a.target ≠ none ↔ a.kind = c!"D" ∨ a.kind = c!"E") := by
  cases a <;> simp [Address.source, Address.target, Address.packet, Packet.header, Address.kind]

/-! ## Writing -/

/-- `MarshalPacketADC` appends to the buffer the line of the packet, whatever is in the buffer; without message it panics. -/
theorem marshal_exact (buf : Bytes) (p : PacketVal) :
    (p.msg = none → p.marshalTo buf = .panic) ∧
    (∀ m, p.msg = some m → p.marshalTo buf = (buf ++ ·) <$> (p.address.packet m).marshal) := by
  obtain ⟨a, msg⟩ := p
  refine ⟨fun h => by simp only at h; subst h; rfl, fun m h => ?_⟩
  simp only at h
  subst h
  simp only [PacketVal.marshalTo, Packet.marshal, packet_message, packet_kind]
  cases m.marshal with
  | panic => rfl
  | err e => rfl
  | ok payload =>
    simp only [Res.ok_bind, Res.map_ok, finishLine]
    obtain ⟨h', hh⟩ : ∃ h', (a.packet m).header = h' ++ [c!" "] := by
      rw [header_eq]; exact ⟨_, rfl⟩
    rw [hh]
    cases payload with
    | nil =>
      rw [if_pos (by simp), if_pos (by rfl)]
      congr 1
      rw [List.append_nil, ← List.append_assoc (a.kind :: m.cmd.bytes), List.dropLast_concat, ← List.append_assoc buf,
        List.set_append_right _ _ (by simp; omega)]
      have : (buf ++ (a.kind :: m.cmd.bytes ++ h') ++ [c!" "]).length - 1 - (buf ++ (a.kind :: m.cmd.bytes ++ h')).length = 0 := by
        simp; omega
      rw [this]
      simp
    | cons c l =>
      rw [if_neg (by simp), if_neg (by simp)]
      simp

/-! ## Decoding the message -/

section
variable [ParseFloat]

/-- `DecodeMessage`: an error leaves the packet as it is; without error only the message has changed, to what is decoded from it. A
packet without message stays so. -/
theorem decode_exact (p q : PacketVal) (e : Err) :
    (p.decode = .panic ↔ ∃ m, p.msg = some m ∧ decodeMessage m = .panic) ∧
    (p.decode = .done (some e) q ↔ q = p ∧ ∃ m, p.msg = some m ∧ decodeMessage m = .err e) ∧
    (p.decode = .done none q ↔ q.address = p.address ∧
      ((p.msg = none ∧ q.msg = none) ∨ ∃ m m', p.msg = some m ∧ decodeMessage m = .ok m' ∧ q.msg = some m')) := by
  obtain ⟨a, msg⟩ := p
  obtain ⟨a', msg'⟩ := q
  unfold PacketVal.decode
  rcases msg with _ | m
  · simp; grind
  · cases m with
    | raw typ data =>
      simp only [decodeMessage]
      cases h : unmarshalMessage typ data <;> simp [h] <;> grind
    | _ => simp [decodeMessage]; grind

/-- Decoding what is decoded does nothing. -/
theorem decode_twice (p q : PacketVal) (h : p.decode = .done none q) : q.decode = .done none q := by
  rw [(decode_exact p q (.other 0)).2.2] at h
  rw [(decode_exact q q (.other 0)).2.2]
  refine ⟨rfl, ?_⟩
  rcases h.2 with ⟨-, h⟩ | ⟨m, m', h1, h2, h3⟩
  · exact .inl ⟨h, h⟩
  · refine .inr ⟨m', m', h3, ?_, h3⟩
    cases m with
    | raw typ data =>
      by_cases hr : ∀ z ∈ registered, z.cmd ≠ typ
      · rw [decode_unknown typ data hr] at h2
        cases h2
        exact decode_unknown typ data hr
      · simp only [ne_eq, Classical.not_forall, Classical.not_not] at hr
        obtain ⟨z, hz, rfl⟩ := hr
        rw [decode_known z hz] at h2
        refine decode_again m' ?_
        rintro typ' data' rfl
        have hraw : ∀ z ∈ registered, ∀ t d, z ≠ .raw t d := by
          intro z hz
          simp only [registered, List.mem_cons, List.not_mem_nil, or_false] at hz
          rcases hz with rfl | rfl | rfl | rfl | rfl | rfl | rfl | rfl | rfl | rfl | rfl | rfl | rfl | rfl | rfl | rfl | rfl | rfl <;>
            simp [StructType.new]
        cases z with
        | raw t d => exact absurd rfl (hraw _ hz t d)
        | zon => simp [Msg.unmarshalTo] at h2
        | zoff => simp [Msg.unmarshalTo] at h2
        | _ =>
          simp only [Msg.unmarshalTo] at h2
          obtain ⟨x, _, hx⟩ := Res.bind_eq_ok.mp h2
          cases hx
    | _ => simp only [decodeMessage] at h2; cases h2; rfl

/-- `DecodeMessageTo` succeeds only if the packet holds a raw message with the command of the target. -/
theorem decodeTo_packet (p : PacketVal) (to m : Msg) :
    p.decodeTo to = .ok m ↔ ∃ data, p.msg = some (.raw to.cmd data) ∧ to.unmarshalTo data = .ok m := by
  unfold PacketVal.decodeTo
  cases hm : p.msg with
  | none => simp
  | some x => simp only [decodeTo_exact, Option.some.injEq]

end

/-! ## Decoding the packet -/

/-- The selectors before one that is cut off: spaces are skipped, a sign takes the four bytes after it, and the last sign has fewer. -/
inductive SelCut : Bytes → List FeatureSel → Prop
  | cut {c : Byte} {rest : Bytes} (hc : c = c!"+" ∨ c = c!"-") (h : rest.length < 4) : SelCut (c :: rest) []
  | space {d : Bytes} {sel : List FeatureSel} (h : SelCut d sel) : SelCut (c!" " :: d) sel
  | sel {d : Bytes} {sel : List FeatureSel} (f : FeatureSel) (h : SelCut d sel) :
      SelCut ((if f.sel then c!"+" else c!"-") :: f.fea.bytes ++ d) (f :: sel)

theorem selFill_none {room : Nat} {acc : List FeatureSel} {data : Bytes} {i : Nat} (h : data[i]? = none) :
    selFill room acc data i = (acc, .ok data) := by
  rw [selFill]
  split
  · rfl
  · rename_i c hc; rw [h] at hc; cases hc

theorem selLoop_none {room : Nat} {acc : List FeatureSel} {data : Bytes} {i : Nat} (h : data[i]? = none) :
    selLoop room acc data i = .ok (acc, data) := by
  rw [selLoop]
  split
  · rfl
  · rename_i c hc; rw [h] at hc; cases hc

theorem selFill_some {room : Nat} {acc : List FeatureSel} {data : Bytes} {i : Nat} {c : Byte} (h : data[i]? = some c) :
    selFill room acc data i =
      if c = c!"+" ∨ c = c!"-" then
        match selAt room data i with
        | .panic => (acc, .panic)
        | .err e => (acc, .err e)
        | .ok fea =>
          if i + 4 + 1 = data.length then (acc ++ [⟨fea, c == c!"+"⟩], .ok [])
          else selFill room (acc ++ [⟨fea, c == c!"+"⟩]) data (i + 4 + 1)
      else if c = c!" " then
        if 0 + 1 = (data.drop i).length then (acc, .ok []) else selFill room acc (data.drop i) (0 + 1)
      else (acc, .ok (data.drop i)) := by
  rw [selFill]
  split
  · rename_i hc; rw [h] at hc; cases hc
  · rename_i c' hc; rw [h] at hc; cases hc; rfl

theorem selLoop_some {room : Nat} {acc : List FeatureSel} {data : Bytes} {i : Nat} {c : Byte} (h : data[i]? = some c) :
    selLoop room acc data i =
      if c = c!"+" ∨ c = c!"-" then
        match selAt room data i with
        | .panic => .panic
        | .err e => .err e
        | .ok fea =>
          if i + 4 + 1 = data.length then .ok (acc ++ [⟨fea, c == c!"+"⟩], [])
          else selLoop room (acc ++ [⟨fea, c == c!"+"⟩]) data (i + 4 + 1)
      else if c = c!" " then
        if 0 + 1 = (data.drop i).length then .ok (acc, []) else selLoop room acc (data.drop i) (0 + 1)
      else .ok (acc, data.drop i) := by
  rw [selLoop]
  split
  · rename_i hc; rw [h] at hc; cases hc
  · rename_i c' hc; rw [h] at hc; cases hc; rfl

theorem selFill_loop (room : Nat) (acc : List FeatureSel) (data : Bytes) (i : Nat) :
    selLoop room acc data i = (selFill room acc data i).2 >>= fun rest => .ok ((selFill room acc data i).1, rest) := by
  generalize hn : data.length - i = n
  induction n using Nat.strongRecOn generalizing acc data i with
  | _ n ih =>
    cases h : data[i]? with
    | none => rw [selLoop_none h, selFill_none h]; rfl
    | some c =>
      have hlt := (List.getElem?_eq_some_iff.mp h).1
      rw [selLoop_some h, selFill_some h]
      by_cases hc : c = c!"+" ∨ c = c!"-"
      · rw [if_pos hc, if_pos hc]
        cases selAt room data i with
        | panic => rfl
        | err e => rfl
        | ok fea =>
          simp only
          by_cases hend : i + 4 + 1 = data.length
          · rw [if_pos hend, if_pos hend]; rfl
          · rw [if_neg hend, if_neg hend]
            exact ih _ (by omega) _ _ _ rfl
      · rw [if_neg hc, if_neg hc]
        by_cases hs : c = c!" "
        · rw [if_pos hs, if_pos hs]
          by_cases hend : 0 + 1 = (data.drop i).length
          · rw [if_pos hend, if_pos hend]; rfl
          · rw [if_neg hend, if_neg hend]
            exact ih _ (by rw [List.length_drop] at hend ⊢; omega) _ _ _ rfl
        · rw [if_neg hs, if_neg hs]; rfl

theorem selFill_err (room : Nat) (acc : List FeatureSel) (data : Bytes) (i : Nat) (sel : List FeatureSel) (e : Err)
    (h : selFill room acc data i = (sel, .err e)) : ∃ ss, sel = acc ++ ss ∧ SelCut (data.drop i) ss := by
  generalize hn : data.length - i = n
  induction n using Nat.strongRecOn generalizing acc data i with
  | _ n ih =>
    cases hg : data[i]? with
    | none => rw [selFill_none hg] at h; cases h
    | some c =>
      obtain ⟨hlt, hce⟩ := List.getElem?_eq_some_iff.mp hg
      have hdrop : data.drop i = c :: data.drop (i + 1) := by rw [← List.getElem_cons_drop hlt, hce]
      rw [selFill_some hg] at h
      split at h
      · rename_i hpm
        split at h
        · cases h
        · rename_i e' hs
          cases h
          refine ⟨[], by simp, ?_⟩
          rw [hdrop]
          refine .cut hpm ?_
          unfold selAt at hs
          split at hs
          · rw [List.length_drop]; omega
          · cases hs
        · rename_i fea hs
          obtain ⟨h1, h2⟩ := selAt_ok hs
          have hf : c = (if (c == c!"+") then c!"+" else c!"-") := by
            rcases hpm with rfl | rfl <;> decide
          have hd4 : data.drop (i + 1) = fea.bytes ++ data.drop (i + 4 + 1) := by
            have := (List.take_append_drop 4 (data.drop (i + 1))).symm
            rw [List.drop_drop, ← h2, show i + 1 + 4 = i + 4 + 1 from by omega] at this
            exact this
          split at h
          · cases h
          · obtain ⟨ss, h3, h4⟩ := ih _ (by omega) _ _ _ h rfl
            refine ⟨⟨fea, c == c!"+"⟩ :: ss, by rw [h3]; simp, ?_⟩
            rw [hdrop, hd4]
            have := SelCut.sel ⟨fea, c == c!"+"⟩ h4
            simp only [← hf] at this
            exact this
      · split at h
        · rename_i hsp
          split at h
          · cases h
          · rename_i hend
            obtain ⟨ss, h3, h4⟩ := ih _ (by rw [List.length_drop] at hend ⊢; omega) _ _ _ h rfl
            refine ⟨ss, h3, ?_⟩
            rw [List.drop_drop] at h4
            rw [hdrop, hsp]
            exact .space h4
        · cases h

/-- **C90.** `UnmarshalPacketADC` into a packet that was used before gives what it gives into a new packet of that kind, and panics
when it panics there. If it fails the message stays; the other fields stay too, except in a feature packet with a selector that is
cut off, which then has the new source and the selectors before that one. -/
theorem unmarshal_again (room : Nat) (name : MsgType) (data : Bytes) (p q : PacketVal) (e : Err) :
    (p.unmarshal room name data = .panic ↔ unmarshalKind room p.address.kind name data = some .panic) ∧
    (p.unmarshal room name data = .done none q ↔
      ∃ pk, unmarshalKind room p.address.kind name data = some (.ok pk) ∧ q = pk.val) ∧
    (p.unmarshal room name data = .done (some e) q →
      unmarshalKind room p.address.kind name data = some (.err e) ∧ q.msg = p.msg ∧
      (q.address = p.address ∨ p.address.kind = c!"F" ∧ ∃ id sel, q.address = .feature id sel ∧ id.bytes = data.take 4 ∧
        SelCut (data.dropLast.drop 5) sel)) ∧
    (unmarshalKind room p.address.kind name data = some (.err e) → ∃ q, p.unmarshal room name data = .done (some e) q) := by
  obtain ⟨a, msg⟩ := p
  have plain : ∀ r : Res Packet,
      (PacketVal.replaced ⟨a, msg⟩ r = .panic ↔ r = .panic) ∧
      (PacketVal.replaced ⟨a, msg⟩ r = .done none q ↔ ∃ pk, r = .ok pk ∧ q = pk.val) ∧
      (PacketVal.replaced ⟨a, msg⟩ r = .done (some e) q → r = .err e ∧ q.msg = msg ∧ q.address = a) ∧
      (r = .err e → ∃ q, PacketVal.replaced ⟨a, msg⟩ r = .done (some e) q) := by
    intro r
    cases r <;> simp [PacketVal.replaced, eq_comm]
    grind
  cases a with
  | feature id sel =>
    have hk : unmarshalKind room c!"F" name data = some (unmarshalFeature room name data) := rfl
    simp only [Address.kind, hk, Option.some.injEq, PacketVal.unmarshal, PacketVal.unmarshalFeature, unmarshalFeature]
    by_cases h1 : data.length < 4
    · simp only [if_pos h1]; simp [eq_comm]; grind
    by_cases h2 : data.getLast? ≠ some c!"\n"
    · simp only [if_neg h1, if_pos h2]; simp [eq_comm]; grind
    by_cases h3 : badSep data 4
    · simp only [if_neg h1, if_neg h2, if_pos h3]; simp [eq_comm]; grind
    simp only [if_neg h1, if_neg h2, if_neg h3, selFill_loop]
    obtain ⟨id', hid⟩ : ∃ id', SID.unmarshal (data.take 4) = .ok id' := by
      rw [SID.unmarshal, dif_pos (by rw [List.length_take]; omega)]; exact ⟨_, rfl⟩
    have hid' := sid_unmarshal_ok hid
    rw [hid]
    simp only [Res.ok_bind]
    rcases hf : selFill (room + 1) [] (payloadAfter data.dropLast 4) 0 with ⟨sel', r⟩
    cases r with
    | panic => simp
    | ok rest => simp [Packet.val, Packet.address, Packet.message, eq_comm]
    | err e' =>
      obtain ⟨ss, hss, hcut⟩ := selFill_err _ _ _ _ _ _ hf
      simp only [List.nil_append, List.drop_zero] at hss hcut
      subst hss
      have hne : payloadAfter data.dropLast 4 = data.dropLast.drop 5 := by
        unfold payloadAfter
        split
        · rfl
        · rw [List.drop_eq_nil_of_le (by omega)]
      rw [hne] at hcut
      simp
      rintro rfl rfl
      exact ⟨rfl, rfl, .inr ⟨_, _, rfl, hid', hcut⟩⟩
  | info =>
    obtain ⟨h1, h2, h3, h4⟩ := plain (unmarshalInfo name data)
    simp only [show unmarshalKind room (Address.kind .info) name data = some (unmarshalInfo name data) from rfl, Option.some.injEq]
    exact ⟨h1, h2, fun h => ⟨(h3 h).1, (h3 h).2.1, .inl (h3 h).2.2⟩, h4⟩
  | hub =>
    obtain ⟨h1, h2, h3, h4⟩ := plain (unmarshalHub name data)
    simp only [show unmarshalKind room (Address.kind (.hub)) name data = some (unmarshalHub name data) from rfl, Option.some.injEq]
    exact ⟨h1, h2, fun h => ⟨(h3 h).1, (h3 h).2.1, .inl (h3 h).2.2⟩, h4⟩
  | client =>
    obtain ⟨h1, h2, h3, h4⟩ := plain (unmarshalClient name data)
    simp only [show unmarshalKind room (Address.kind (.client)) name data = some (unmarshalClient name data) from rfl, Option.some.injEq]
    exact ⟨h1, h2, fun h => ⟨(h3 h).1, (h3 h).2.1, .inl (h3 h).2.2⟩, h4⟩
  | broadcast id =>
    obtain ⟨h1, h2, h3, h4⟩ := plain (unmarshalBroadcast name data)
    simp only [show unmarshalKind room (Address.kind (.broadcast id)) name data = some (unmarshalBroadcast name data) from rfl, Option.some.injEq]
    exact ⟨h1, h2, fun h => ⟨(h3 h).1, (h3 h).2.1, .inl (h3 h).2.2⟩, h4⟩
  | direct id to =>
    obtain ⟨h1, h2, h3, h4⟩ := plain (unmarshalPair name data .direct)
    simp only [show unmarshalKind room (Address.kind (.direct id to)) name data = some (unmarshalPair name data .direct) from rfl, Option.some.injEq]
    exact ⟨h1, h2, fun h => ⟨(h3 h).1, (h3 h).2.1, .inl (h3 h).2.2⟩, h4⟩
  | echo id to =>
    obtain ⟨h1, h2, h3, h4⟩ := plain (unmarshalPair name data .echo)
    simp only [show unmarshalKind room (Address.kind (.echo id to)) name data = some (unmarshalPair name data .echo) from rfl, Option.some.injEq]
    exact ⟨h1, h2, fun h => ⟨(h3 h).1, (h3 h).2.1, .inl (h3 h).2.2⟩, h4⟩
  | udp id =>
    obtain ⟨h1, h2, h3, h4⟩ := plain (unmarshalUdp name data)
    simp only [show unmarshalKind room (Address.kind (.udp id)) name data = some (unmarshalUdp name data) from rfl, Option.some.injEq]
    exact ⟨h1, h2, fun h => ⟨(h3 h).1, (h3 h).2.1, .inl (h3 h).2.2⟩, h4⟩

theorem val_kind {room : Nat} {k : Byte} {name : MsgType} {data : Bytes} {pk : Packet}
    (h : unmarshalKind room k name data = some (.ok pk)) : pk.val.address.kind = k := by
  have := kind_inv h
  rw [← this]; exact address_kind pk

/-! ## Histories -/

section
variable [ParseFloat]

/-- A call that failed, or one of `DecodeMessageTo` and `MarshalPacketADC`, leaves the message. -/
theorem step_keeps (p q : PacketVal) (op : POp) (e : Option Err) (h : p.step op = .done e q)
    (hk : e ≠ none ∨ (∃ to, op = .decodeTo to) ∨ ∃ buf, op = .marshal buf) :
    q.msg = p.msg ∧ (p.address.kind ≠ c!"F" → q = p) := by
  have hend : ∀ {α : Type} (r : Res α), endOf p r = .done e q → q = p := by
    intro α r h; cases r <;> simp [endOf] at h <;> simp [h]
  cases op with
  | setMessage m => simp [PacketVal.step] at h; simp [h] at hk
  | decode =>
    cases e with
    | none => simp at hk
    | some e =>
      obtain ⟨rfl, _⟩ := (decode_exact p q e).2.1.mp h
      exact ⟨rfl, fun _ => rfl⟩
  | decodeTo to => have := hend _ h; subst this; exact ⟨rfl, fun _ => rfl⟩
  | marshal buf => have := hend _ h; subst this; exact ⟨rfl, fun _ => rfl⟩
  | unmarshal room name data =>
    cases e with
    | none => simp at hk
    | some e =>
      obtain ⟨_, h2, h3⟩ := (unmarshal_again room name data p q e).2.2.1 h
      refine ⟨h2, fun hF => ?_⟩
      obtain ⟨a, m⟩ := p
      obtain ⟨a', m'⟩ := q
      rcases h3 with h3 | ⟨h3, _⟩
      · simp only at h2 h3; rw [h2, h3]
      · exact absurd h3 hF

/-- No call changes the kind of a packet, and only `UnmarshalPacketADC` changes its other fields. -/
theorem step_address (p q : PacketVal) (op : POp) (e : Option Err) (h : p.step op = .done e q) :
    q.address.kind = p.address.kind ∧ ((∀ room name data, op ≠ .unmarshal room name data) → q.address = p.address) := by
  have hend : ∀ {α : Type} (r : Res α), endOf p r = .done e q → q = p := by
    intro α r h; cases r <;> simp [endOf] at h <;> simp [h]
  cases op with
  | setMessage m => simp [PacketVal.step] at h; obtain ⟨-, rfl⟩ := h; exact ⟨rfl, fun _ => rfl⟩
  | decode =>
    cases e with
    | none => have := ((decode_exact p q (.other 0)).2.2.mp h).1; rw [this]; exact ⟨rfl, fun _ => rfl⟩
    | some e => obtain ⟨rfl, _⟩ := (decode_exact p q e).2.1.mp h; exact ⟨rfl, fun _ => rfl⟩
  | decodeTo to => have := hend _ h; subst this; exact ⟨rfl, fun _ => rfl⟩
  | marshal buf => have := hend _ h; subst this; exact ⟨rfl, fun _ => rfl⟩
  | unmarshal room name data =>
    refine ⟨?_, fun h => absurd rfl (h room name data)⟩
    cases e with
    | none =>
      obtain ⟨pk, h1, rfl⟩ := (unmarshal_again room name data p q (.other 0)).2.1.mp h
      exact val_kind h1
    | some e =>
      obtain ⟨_, _, h3⟩ := (unmarshal_again room name data p q e).2.2.1 h
      rcases h3 with h3 | ⟨h3, id, sel, h4, _⟩
      · rw [h3]
      · rw [h4, h3]; rfl

/-- **C90.** In every history the kind stays; the source, the target and the selectors stay as long as `UnmarshalPacketADC` is not
called. -/
theorem run_address (p q : PacketVal) (ops : List POp) (es : List (Option Err)) (h : p.run ops = some (es, q)) :
    q.address.kind = p.address.kind ∧
      ((∀ op ∈ ops, ∀ room name data, op ≠ .unmarshal room name data) → q.address = p.address) := by
  induction ops generalizing p es with
  | nil => simp [PacketVal.run] at h; simp [h]
  | cons op ops ih =>
    simp only [PacketVal.run] at h
    split at h
    · cases h
    · rename_i e p' hs
      simp only [Option.map_eq_some_iff, Prod.mk.injEq] at h
      obtain ⟨⟨es', q'⟩, hr, rfl, rfl⟩ := h
      obtain ⟨h1, h2⟩ := ih p' es' hr
      obtain ⟨h3, h4⟩ := step_address p p' op e hs
      refine ⟨h1.trans h3, fun hall => ?_⟩
      rw [h2 (fun o ho => hall o (by simp [ho])), h4 (hall op (by simp))]

/-- **C90.** In every history of calls that fail, of `DecodeMessageTo` and of `MarshalPacketADC`, the message stays, and the whole
packet if it is not a feature packet. -/
theorem run_keeps (p q : PacketVal) (ops : List POp) (es : List (Option Err)) (h : p.run ops = some (es, q))
    (hk : ∀ x ∈ ops.zip es, x.2 ≠ none ∨ (∃ to, x.1 = .decodeTo to) ∨ ∃ buf, x.1 = .marshal buf) :
    q.msg = p.msg ∧ (p.address.kind ≠ c!"F" → q = p) := by
  induction ops generalizing p es with
  | nil => simp [PacketVal.run] at h; simp [h]
  | cons op ops ih =>
    simp only [PacketVal.run] at h
    split at h
    · cases h
    · rename_i e p' hs
      simp only [Option.map_eq_some_iff, Prod.mk.injEq] at h
      obtain ⟨⟨es', q'⟩, hr, rfl, rfl⟩ := h
      simp only [List.zip_cons_cons, List.mem_cons, forall_eq_or_imp] at hk
      obtain ⟨h1, h2⟩ := ih p' es' hr hk.2
      obtain ⟨h3, h4⟩ := step_keeps p p' op e hs hk.1
      have h5 := (step_address p p' op e hs).1
      exact ⟨h1.trans h3, fun hF => (h2 (by rw [h5]; exact hF)).trans (h4 hF)⟩

end

/-! ## The hypotheses are met -/

local instance : ParseFloat := ⟨fun _ => .bad⟩

/-- A packet is written without message: panic. -/
example : (PacketVal.mk .hub none).marshalTo b!"x" = .panic := rfl

example : (PacketVal.mk (.broadcast ⟨b!"AAAA", rfl⟩) (some (.raw ⟨b!"XYZ", rfl⟩ []))).marshalTo b!"x" = .ok b!"xBXYZ AAAA\n" := by
  decide

/-- A feature packet that was read before, then a line with a selector that is cut off: the message is the old one, the source and
the selectors are new. -/
example : (PacketVal.mk (.feature ⟨b!"AAAA", rfl⟩ []) (some (.raw ⟨b!"SCH", rfl⟩ b!"old"))).unmarshal 4 ⟨b!"SCH", rfl⟩ b!"BBBB +TCP4 -NA\n" =
    .done (some (.other 123)) ⟨.feature ⟨b!"BBBB", rfl⟩ [⟨⟨b!"TCP4", rfl⟩, true⟩], some (.raw ⟨b!"SCH", rfl⟩ b!"old")⟩ := by
  with_unfolding_all rfl

example : ∃ es q, (PacketVal.mk .hub none).run [.decode, .decodeTo .zon, .setMessage (some (.raw ⟨b!"ZON", rfl⟩ [])), .decode, .marshal [],
    .decodeTo .zon, .unmarshal 0 ⟨b!"ZOF", rfl⟩ b!"x"] = some (es, q) ∧ q.msg = some .zon := by
  refine ⟨_, _, rfl, rfl⟩

end Verif.Props.AdcPacketVal
