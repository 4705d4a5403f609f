import Verif.Adc.LineLemmas
import Verif.Props.AdcMessages

/-!
# C46 and C66: what is written for a packet

Encoding never fails, and gives one line if the parts that are written as they are hold no newline.  C42 and C43 together: the
packet with its typed message comes back from the line.
-/

namespace Verif.Props.AdcLines

open Verif.Go Verif.Adc Verif.Tiger Verif.Props.AdcText Verif.Props.AdcPackets Verif.Props.AdcMessages

/-- The byte is in no part of the message that is written as it is. Newlines in texts are escaped and do not count. -/
def MsgFree (c : Byte) : Msg → Prop
  | .raw typ data => c ∉ typ.bytes ∧ c ∉ data
  | .supported f => ∀ x ∈ f.entries, c ∉ x.1.bytes
  | .status s => c = c!"\n" ∨ c ∉ s.msg
  | .zon => True
  | .zoff => True
  | .get r => c = c!"\n" ∨ c ∉ r.typ ∧ c ∉ r.path
  | .snd r => c = c!"\n" ∨ c ∉ r.typ ∧ c ∉ r.path
  | .sidAssign id => c ∉ id.bytes
  | .getPassword _ => True
  | .infoMod f => ∀ x ∈ f, c ∉ x.tag ∧ (c = c!"\n" ∨ c ∉ x.value)
  | .struct t row => RowFree c t.fields row

/-- The same for the message and the addresses of a packet. -/
def PacketFree (c : Byte) (p : Packet) : Prop :=
  MsgFree c p.message ∧
  match p with
  | .info _ | .hub _ | .client _ | .udp _ _ => True
  | .broadcast id _ => c ∉ id.bytes
  | .direct id to _ | .echo id to _ => c ∉ id.bytes ∧ c ∉ to.bytes
  | .feature id sel _ => c ∉ id.bytes ∧ ∀ f ∈ sel, c ∉ f.fea.bytes

/-! ## C66: encoding never fails -/

/-- A kind whose values are always written. -/
def plainKind : Kind → Bool
  | .ptr _ => false
  | .slice _ => false
  | _ => true

/-- A field that is always written: pointers only where nil is left out, slices only with a tag. -/
def writable (f : Fld) : Bool :=
  match f.kind with
  | .ptr k => plainKind k && f.omit
  | .slice k => plainKind k && f.tag != b!"#"
  | _ => true

theorem plain_total : ∀ (k : Kind) (v : k.T), plainKind k = true → ∃ b, marshalValue k v = .ok b := by
  intro k v h
  cases k with
  | ptr => cases h
  | slice => cases h
  | _ => exact ⟨_, rfl⟩

theorem slice_total (tag : Bytes) (k : Kind) (h : plainKind k = true) : ∀ (vs : List k.T) (first : Bool),
    ∃ r, marshalSlice tag k first vs = .ok r := by
  intro vs
  induction vs with
  | nil => intro first; exact ⟨_, rfl⟩
  | cons v vs ih =>
    intro first
    obtain ⟨b, hb⟩ := plain_total k v h
    obtain ⟨r, hr⟩ := ih false
    refine ⟨(writeTag first tag ++ b ++ r.1, r.2), ?_⟩
    rw [marshalSlice, hb, Res.ok_bind, hr]
    rfl

theorem fields_total : ∀ (fs : List Fld) (row : Row fs) (first : Bool), (∀ f ∈ fs, writable f = true) →
    ∃ b, marshalFields fs first row = .ok b := by
  intro fs
  induction fs with
  | nil => intro row first _; exact ⟨_, rfl⟩
  | cons f fs ih =>
    intro ⟨v, row⟩ first h
    rw [marshalFields]
    have ih' := fun first => ih row first (fun g hg => h g (by simp [hg]))
    split
    · exact ih' first
    · rename_i hz
      have hf := h f (by simp)
      obtain ⟨name, tag, req, k⟩ := f
      have key : ∃ r, marshalField tag first k v = .ok r := by
        cases k with
        | ptr k =>
          simp only [writable, Bool.and_eq_true] at hf
          cases v with
          | none => simp [hf.2, isZero] at hz
          | some x =>
            obtain ⟨b, hb⟩ := plain_total k x hf.1
            refine ⟨(writeTag first tag ++ b, false), ?_⟩
            simp only [marshalField, marshalValue]
            rw [hb]
            rfl
        | slice k =>
          simp only [writable, Bool.and_eq_true, bne_iff_ne, ne_eq] at hf
          obtain ⟨r, hr⟩ := slice_total tag k hf.1 v first
          refine ⟨r, ?_⟩
          rw [marshalField, if_pos hf.2]
          exact hr
        | _ => exact ⟨_, rfl⟩
      obtain ⟨r, hr⟩ := key
      obtain ⟨rest, hrest⟩ := ih' r.2
      refine ⟨r.1 ++ rest, ?_⟩
      rw [hr, Res.ok_bind]
      simp only
      rw [hrest]
      rfl

theorem all_writable (t : StructType) : ∀ f ∈ t.fields, writable f = true := by
  have : t.fields.all writable = true := by cases t <;> decide
  simpa using this

/-- **C66.** Every message can be encoded. -/
theorem message_encodes (m : Msg) : ∃ b, m.marshal = .ok b := by
  cases m with
  | struct t row => exact fields_total t.fields row true (all_writable t)
  | _ => exact ⟨_, rfl⟩

/-- **C66.** Every packet can be encoded. -/
theorem packet_encodes (p : Packet) : ∃ line, p.marshal = .ok line := by
  obtain ⟨b, hb⟩ := message_encodes p.message
  exact ⟨_, by rw [Packet.marshal, hb, Res.ok_bind]⟩

/-! ## C46: one line -/

theorem tags_free {c : Byte} (hc : Ctl c) (t : StructType) : ∀ f ∈ t.fields, c ∉ f.tag := by
  have : t.fields.all (fun f => !f.tag.contains c!"\n" && !f.tag.contains 0) = true := by cases t <;> decide
  intro f hf
  have := List.all_eq_true.mp this f hf
  simp only [Bool.and_eq_true, Bool.not_eq_true', List.contains_eq_mem, decide_eq_false_iff_not] at this
  rcases hc with rfl | rfl
  · exact this.1
  · exact this.2

theorem encode_alpha {s : Bytes} {c : Byte} (hc : c ∈ Base32.encode s) : (c!"A" ≤ c ∧ c ≤ c!"Z") ∨ (c!"2" ≤ c ∧ c ≤ c!"7") := by
  obtain ⟨d, hd, rfl⟩ := Base32.encode_chars _ c hc
  have : ∀ d : Fin 32, (c!"A" ≤ Base32.encChar d.val ∧ Base32.encChar d.val ≤ c!"Z") ∨
    (c!"2" ≤ Base32.encChar d.val ∧ Base32.encChar d.val ≤ c!"7") := by decide +kernel
  exact this ⟨d, hd⟩

theorem base32_free {c : Byte} (hc : Ctl c) (s : Bytes) : c ∉ Base32.encode s := fun hm => ctl_alpha hc (encode_alpha hm)

theorem pad2_free {c : Byte} (hc : Ctl c) (n : Int) : c ∉ pad2 n := by
  unfold pad2
  split
  · rw [List.mem_append, not_or]
    exact ⟨by simpa using ctl_ne hc (b := c!"0") (by decide) (by decide), ctl_itoa hc n⟩
  · exact ctl_itoa hc n

theorem get_free {c : Byte} (hc : Ctl c) (r : GetRequest) (h : c = c!"\n" ∨ c ∉ r.typ ∧ c ∉ r.path) : c ∉ r.marshal := by
  have sp : c ∉ b!" " := by simpa using ctl_ne hc (b := c!" ") (by decide) (by decide)
  have h1 : c = c!"\n" ∨ c ∉ r.typ := h.imp id And.left
  have h2 : c = c!"\n" ∨ c ∉ r.path := h.imp id And.right
  have hz : c ∉ (if r.compressed then b!" ZL1" else []) := by
    split
    · rcases hc with rfl | rfl <;> decide
    · simp
  unfold GetRequest.marshal
  simp only [List.mem_append, not_or]
  exact ⟨⟨⟨⟨⟨⟨⟨escape_free hc h1, sp⟩, escape_free hc h2⟩, sp⟩, ctl_itoa hc _⟩, sp⟩, ctl_itoa hc _⟩, hz⟩

theorem message_free {c : Byte} (hc : Ctl c) (m : Msg) (h : MsgFree c m) {b : Bytes} (hb : m.marshal = .ok b) : c ∉ b := by
  cases m with
  | raw typ data => cases hb; exact h.2
  | supported f => cases hb; exact mod_free hc _ _ h
  | status s =>
    cases hb
    unfold Status.marshal
    simp only [List.mem_append, not_or]
    exact ⟨⟨⟨ctl_itoa hc _, pad2_free hc _⟩, by simpa using ctl_ne hc (b := c!" ") (by decide) (by decide)⟩, escape_free hc h⟩
  | zon => cases hb; simp
  | zoff => cases hb; simp
  | get r => cases hb; exact get_free hc r h
  | snd r => cases hb; exact get_free hc r h
  | sidAssign id => cases hb; exact h
  | getPassword s => cases hb; exact base32_free hc s
  | infoMod f => cases hb; exact fieldsText_free hc _ _ h
  | struct t row => exact fields_free hc t.fields row true b (tags_free hc t) hb h

theorem cmd_free {c : Byte} (hc : Ctl c) (m : Msg) (h : MsgFree c m) : c ∉ m.cmd.bytes := by
  cases m with
  | raw typ data => exact h.1
  | struct t row => rcases hc with rfl | rfl <;> cases t <;> simp only [Msg.cmd, StructType.cmd] <;> decide
  | _ => rcases hc with rfl | rfl <;> simp only [Msg.cmd] <;> decide

theorem address_free {c : Byte} (hc : Ctl c) (p : Packet) (h : PacketFree c p) : c ∉ addressOf p := by
  have sp : ¬ c = c!" " := ctl_ne hc (by decide) (by decide)
  obtain ⟨_, h⟩ := h
  cases p <;> simp only at h <;> simp only [addressOf]
  case info => simp
  case hub => simp
  case client => simp
  case broadcast => simp [h, sp]
  case direct => simp [h, sp]
  case echo => simp [h, sp]
  case udp id m => simp [sp]; exact base32_not_mem (ctl_alpha hc)
  case feature id sel m =>
    simp only [List.mem_append, List.mem_cons, List.mem_flatten, List.mem_map, not_or, not_exists, not_and]
    refine ⟨⟨sp, h.1⟩, ?_⟩
    rintro l ⟨f, hf, rfl⟩
    simp only [List.mem_cons, not_or]
    refine ⟨sp, ?_, h.2 f hf⟩
    split
    · exact ctl_ne hc (by decide) (by decide)
    · exact ctl_ne hc (by decide) (by decide)

/-- A packet is written as the packet with its encoded message. -/
theorem marshal_raw (p : Packet) {b : Bytes} (hb : p.message.marshal = .ok b) :
    p.marshal = .ok (p.kind :: p.message.cmd.bytes ++ (addressOf p ++ tailOf b)) := by
  have := marshal_eq (p.setMessage (.raw p.message.cmd b)) p.message.cmd b (by cases p <;> rfl)
  have e1 : (p.setMessage (.raw p.message.cmd b)).marshal = p.marshal := by
    simp only [Packet.marshal, hb, Res.ok_bind]
    cases p <;> rfl
  rw [e1] at this
  rw [this]
  cases p <;> rfl

theorem line_free {c : Byte} (hc : Ctl c) (p : Packet) (h : PacketFree c p) {line : Bytes} (hl : p.marshal = .ok line) :
    ∃ body, line = body ++ b!"\n" ∧ c ∉ body := by
  obtain ⟨b, hb⟩ := message_encodes p.message
  rw [marshal_raw p hb] at hl
  cases hl
  have h1 := message_free hc p.message h.1 hb
  have h2 := cmd_free hc p.message h.1
  have h3 := address_free hc p h
  have hk : c ≠ p.kind := by rcases hc with rfl | rfl <;> cases p <;> simp only [Packet.kind] <;> decide
  have sp : ¬ c = c!" " := ctl_ne hc (by decide) (by decide)
  by_cases hbn : b = []
  · refine ⟨p.kind :: p.message.cmd.bytes ++ addressOf p, by simp [tailOf, hbn], ?_⟩
    simp only [List.cons_append, List.mem_cons, List.mem_append, not_or]
    exact ⟨hk, h2, h3⟩
  · refine ⟨p.kind :: p.message.cmd.bytes ++ (addressOf p ++ c!" " :: b), by simp [tailOf, hbn], ?_⟩
    simp only [List.cons_append, List.mem_cons, List.mem_append, not_or]
    exact ⟨hk, h2, h3, sp, h1⟩

/-- **C46.** An encoded packet is one line, when its command name, ids, features, tags and raw payload hold no newline. Texts may hold
newlines. -/
theorem one_line (p : Packet) (h : PacketFree c!"\n" p) : ∃ line, p.marshal = .ok line ∧ IsLine line := by
  obtain ⟨line, hl⟩ := packet_encodes p
  exact ⟨line, hl, line_free (.inl rfl) p h hl⟩

/-- Messages without raw parts are always one line, whatever their texts are; here a hub message. -/
example (text : Bytes) : ∃ line, (Packet.info (.status ⟨1, 20, text⟩)).marshal = .ok line ∧ IsLine line :=
  one_line _ ⟨.inl rfl, trivial⟩

example : PacketFree c!"\n" (.broadcast ⟨b!"AAAB", rfl⟩ (.struct .chat (b!"two\nlines", some ⟨b!"AAAC", rfl⟩, true, (5 : Int), ()))) ∧
    (Packet.broadcast ⟨b!"AAAB", rfl⟩ (.struct .chat (b!"two\nlines", some ⟨b!"AAAC", rfl⟩, true, (5 : Int), ()))).marshal =
      .ok b!"BMSG AAAB two\\nlines PMAAAC ME1 TS5\n" := by
  refine ⟨⟨⟨.inl rfl, ?_, trivial, trivial, trivial⟩, by decide⟩, by decide +kernel⟩
  intro x hx
  cases hx
  show c!"\n" ∉ b!"AAAC"
  decide

/-- A raw payload, an id or a feature with a newline is two lines. -/
theorem raw_injects : ∃ (p : Packet) (line : Bytes), p.marshal = .ok line ∧ ¬ IsLine line := by
  refine ⟨.hub (.raw ⟨b!"MSG", rfl⟩ b!"a\nHDEL"), b!"HMSG a\nHDEL\n", by decide +kernel, ?_⟩
  rintro ⟨l, hl, hn⟩
  have : l = b!"HMSG a\nHDEL" := (List.append_inj_left' hl rfl).symm
  subst this
  exact absurd hn (by decide)

/-! ## The byte zero -/

/-- No byte of a line is zero when none of the parts holds one. -/
theorem no_zero (p : Packet) (h : PacketFree 0 p) {line : Bytes} (hl : p.marshal = .ok line) : (0 : Byte) ∉ line := by
  obtain ⟨body, rfl, hb⟩ := line_free (.inr rfl) p h hl
  simpa using hb

/-- A line with a zero byte is refused. -/
theorem zero_refused (room : Nat) (line : Bytes) (h : (0 : Byte) ∈ line) : ∃ e, decodePacketRaw room line = .err e := by
  unfold decodePacketRaw
  split
  · exact ⟨_, rfl⟩
  · exact ⟨_, rfl⟩

/-- Zero bytes are not escaped: a chat message with one is encoded without error, to a line that every reader refuses. -/
theorem zero_text_refused : ∃ (p : Packet) (line : Bytes), p.marshal = .ok line ∧ ∀ room, ∃ e, decodePacketRaw room line = .err e :=
  ⟨.hub (.status ⟨0, 0, [0]⟩), b!"HSTA 000 " ++ [0] ++ b!"\n", by decide +kernel, fun room => zero_refused room _ (by decide)⟩

section

variable [ParseFloat]

/-! ## C42 and C43 together -/

/-- The payload does not begin with a selector; this matters for feature packets only. -/
def PayloadOk (p : Packet) : Prop :=
  match p with
  | .feature _ _ m => ∀ b, m.marshal = .ok b → SelPayload b
  | _ => True

/-- A packet with a typed message, encoded and decoded, is the same packet with the same message. -/
theorem typed_roundtrip_partial (room : Nat) (p : Packet) (hm : MsgOk p.message) (h0 : PacketFree 0 p) (hs : PayloadOk p) :
    ∃ line, p.marshal = .ok line ∧ decodePacket room line = .ok p := by
  obtain ⟨b, hb, hu⟩ := message_roundtrip p.message hm
  have hraw : (p.setMessage (.raw p.message.cmd b)).message = .raw p.message.cmd b := by cases p <;> rfl
  have hok : PacketOk (p.setMessage (.raw p.message.cmd b)) p.message.cmd b := by
    refine ⟨cmd_free (.inr rfl) _ h0.1, message_free (.inr rfl) _ h0.1 hb, ?_⟩
    obtain ⟨_, h0⟩ := h0
    cases p <;> first | trivial | exact h0 | exact ⟨h0.1, h0.2, hs b hb⟩
  obtain ⟨line, hl, hd⟩ := packet_roundtrip_partial room _ _ _ hraw hok
  refine ⟨line, ?_, ?_⟩
  · rw [← hl]
    rw [marshal_raw p hb, marshal_eq _ _ _ hraw]
    cases p <;> rfl
  · rw [decodePacket, hd, Res.ok_bind, hraw]
    show (unmarshalMessage p.message.cmd b >>= fun msg => Res.ok ((p.setMessage (.raw p.message.cmd b)).setMessage msg)) = _
    rw [hu, Res.ok_bind]
    cases p <;> rfl

example : ∃ line, (Packet.direct ⟨b!"AAAB", rfl⟩ ⟨b!"AAAC", rfl⟩ (.struct .connect (b!"ADC/1.0", (3000 : Int), b!"tok 1", ()))).marshal = .ok line ∧
    decodePacket 0 line = .ok (.direct ⟨b!"AAAB", rfl⟩ ⟨b!"AAAC", rfl⟩ (.struct .connect (b!"ADC/1.0", (3000 : Int), b!"tok 1", ()))) := by
  refine typed_roundtrip_partial 0 _ ⟨by decide, .inr trivial, .inr ⟨by decide, by decide⟩, .inr trivial, trivial⟩ ⟨?_, by decide, by decide⟩ trivial
  refine ⟨.inr ?_, trivial, .inr ?_, trivial⟩ <;> decide

end

end Verif.Props.AdcLines
