import Verif.Props.AdcPackets

/-!
# C87: passing ADC packets on

A hub reads a packet with `DecodePacketRaw` and writes it with `MarshalPacketADC`.
-/

namespace Verif.Props.AdcRelay

open Verif.Go Verif.Adc Verif.Tiger Verif.Spec Verif.Props.AdcText Verif.Props.AdcPackets

/-- The ids of a packet are without the end of the line. -/
def Complete : Packet → Prop
  | .info _ | .hub _ | .client _ | .udp _ _ => True
  | .broadcast id _ | .feature id _ _ => c!"\n" ∉ id.bytes
  | .direct _ to _ | .echo _ to _ => c!"\n" ∉ to.bytes

/-- The end of the line of a packet with this payload, which may have a space too many. -/
def EndOf (data tail : Bytes) : Prop := tail = tailOf data ∨ data = [] ∧ tail = b!" \n"

theorem endOf_iff (data tail : Bytes) : EndOf data tail ↔ tail = b!"\n" ∧ data = [] ∨ tail = c!" " :: data ++ b!"\n" := by
  unfold EndOf tailOf
  by_cases h : data = []
  · subst h; simp
  · simp [h]

theorem wellFormed_iff {p : Bytes} {k : Byte} {typ : MsgType} {a data : Bytes} :
    WellFormed p k typ a data ↔ ∃ tail, EndOf data tail ∧ p = k :: typ.bytes ++ a ++ tail := by
  simp only [WellFormed, endOf_iff]
  constructor
  · rintro (⟨rfl, rfl⟩ | rfl)
    · exact ⟨_, .inl ⟨rfl, rfl⟩, rfl⟩
    · exact ⟨_, .inr rfl, by simp⟩
  · rintro ⟨tail, ⟨rfl, rfl⟩ | rfl, rfl⟩
    · exact .inl ⟨rfl, rfl⟩
    · exact .inr (by simp)

theorem plain_wellFormed {p d : Bytes} {k : Byte} {typ : MsgType}
    (hp : (p = k :: typ.bytes ++ b!"\n" ∧ d = b!"\n") ∨ (p = k :: typ.bytes ++ c!" " :: d ∧ IsLine d)) :
    WellFormed p k typ [] d.dropLast := by
  rcases hp with ⟨rfl, rfl⟩ | ⟨rfl, l, rfl, -⟩
  · exact .inl ⟨by simp, rfl⟩
  · exact .inr (by simp)

/-- What a line that was accepted looks like. -/
inductive Shape (p : Bytes) : Packet → Prop
  | info {typ : MsgType} {data : Bytes} (h : WellFormed p c!"I" typ [] data) : Shape p (.info (.raw typ data))
  | hub {typ : MsgType} {data : Bytes} (h : WellFormed p c!"H" typ [] data) : Shape p (.hub (.raw typ data))
  | client {typ : MsgType} {data : Bytes} (h : WellFormed p c!"C" typ [] data) : Shape p (.client (.raw typ data))
  | broadcast {typ : MsgType} {data : Bytes} {id : SID} (h : WellFormed p c!"B" typ (c!" " :: id.bytes) data) :
      Shape p (.broadcast id (.raw typ data))
  | direct {typ : MsgType} {data : Bytes} {id to : SID} (h : WellFormed p c!"D" typ (c!" " :: (id.bytes ++ c!" " :: to.bytes)) data) :
      Shape p (.direct id to (.raw typ data))
  | echo {typ : MsgType} {data : Bytes} {id to : SID} (h : WellFormed p c!"E" typ (c!" " :: (id.bytes ++ c!" " :: to.bytes)) data) :
      Shape p (.echo id to (.raw typ data))
  | udp {typ : MsgType} {data : Bytes} {id : CID} (text : Bytes) (hl : text.length = 39) (ht : Hash.fromBase32 text = .ok id)
      (h : WellFormed p c!"U" typ (c!" " :: text) data) : Shape p (.udp id (.raw typ data))
  | feature {typ : MsgType} {data : Bytes} {id : SID} {sel : List FeatureSel} (text : Bytes) (hs : SelRead text sel data)
      (h : WellFormed p c!"F" typ (c!" " :: id.bytes) text) : Shape p (.feature id sel (.raw typ data))

theorem shape {room : Nat} {p : Bytes} {pk : Packet} (hl : IsLine p) (h : decodePacketRaw room p = .ok pk) (hc : Complete pk) :
    Shape p pk := by
  cases pk with
  | info m =>
    obtain ⟨k, typ, d, hk, _, hp⟩ := raw_ok h hl
    have hkind := kind_inv hk
    simp only [Packet.kind] at hkind
    subst hkind
    obtain ⟨he, -⟩ := info_inv (Option.some.inj hk)
    cases he
    exact .info (plain_wellFormed hp)
  | hub m =>
    obtain ⟨k, typ, d, hk, _, hp⟩ := raw_ok h hl
    have hkind := kind_inv hk
    simp only [Packet.kind] at hkind
    subst hkind
    obtain ⟨he, -⟩ := hub_inv (Option.some.inj hk)
    cases he
    exact .hub (plain_wellFormed hp)
  | client m =>
    obtain ⟨k, typ, d, hk, _, hp⟩ := raw_ok h hl
    have hkind := kind_inv hk
    simp only [Packet.kind] at hkind
    subst hkind
    obtain ⟨he, -⟩ := client_inv (Option.some.inj hk)
    cases he
    exact .client (plain_wellFormed hp)
  | broadcast id m =>
    obtain ⟨typ, data, rfl, hw⟩ := broadcast_wellFormed_partial hl h hc
    exact .broadcast hw
  | direct id to m =>
    obtain ⟨typ, data, rfl, hw⟩ := direct_wellFormed_partial hl h hc
    exact .direct hw
  | echo id to m =>
    obtain ⟨typ, data, rfl, hw⟩ := echo_wellFormed_partial hl h hc
    exact .echo hw
  | feature id sel m =>
    obtain ⟨typ, text, data, rfl, hw, hs⟩ := feature_wellFormed_partial hl h hc
    exact .feature text hs hw
  | udp id m =>
    obtain ⟨typ, text, data, rfl, h1, h2, hw⟩ := udp_wellFormed hl h
    exact .udp text h1 h2 hw

/-- A byte that is not in the line, or only at its end, is not in its parts. -/
theorem wellFormed_not_mem {p : Bytes} {k : Byte} {typ : MsgType} {a data : Bytes} (h : WellFormed p k typ a data) (x : Byte)
    (hx : x ∉ p ∨ (x = c!"\n" ∧ IsLine p)) : x ≠ k ∧ x ∉ typ.bytes ∧ x ∉ a ∧ x ∉ data := by
  have body : ∃ l, x ∉ l ∧ p = l ++ b!"\n" := by
    rcases hx with hx | ⟨rfl, l, rfl, hn⟩
    · rcases h with ⟨rfl, -⟩ | rfl <;> exact ⟨_, fun hm => hx (List.mem_append_left _ hm), rfl⟩
    · exact ⟨l, hn, rfl⟩
  obtain ⟨l, hl, rfl⟩ := body
  rcases h with ⟨h, rfl⟩ | h
  · have := List.append_inj_left' h rfl
    subst this
    simp only [List.cons_append, List.mem_cons, List.mem_append, not_or] at hl
    exact ⟨hl.1, hl.2.1, hl.2.2, by simp⟩
  · have := List.append_inj_left' h rfl
    subst this
    simp only [List.cons_append, List.mem_cons, List.mem_append, not_or] at hl
    exact ⟨hl.1, hl.2.1.1, hl.2.1.2, hl.2.2.2⟩

theorem selRead_payload {text : Bytes} {sel : List FeatureSel} {data : Bytes} (h : SelRead text sel data) : SelPayload data := by
  induction h with
  | done h => exact h
  | space _ ih => exact ih
  | sel _ _ ih => exact ih

theorem selRead_not_mem {text : Bytes} {sel : List FeatureSel} {data : Bytes} (h : SelRead text sel data) {x : Byte} (hx : x ∉ text) :
    x ∉ data ∧ ∀ f ∈ sel, x ∉ f.fea.bytes := by
  induction h with
  | done h => exact ⟨hx, by simp⟩
  | space _ ih => exact ih (fun hm => hx (by simp [hm]))
  | sel f _ ih =>
    simp only [List.cons_append, List.mem_cons, List.mem_append, not_or] at hx
    obtain ⟨h1, h2⟩ := ih hx.2.2
    refine ⟨h1, fun g hg => ?_⟩
    rcases List.mem_cons.mp hg with rfl | hg
    · exact hx.2.1
    · exact h2 g hg

theorem shape_raw {p : Bytes} {pk : Packet} (h : Shape p pk) : ∃ typ data, pk.message = .raw typ data := by
  cases h <;> exact ⟨_, _, rfl⟩

/-- The byte is in no part of the packet; the payload of a feature packet can be told from selectors. -/
def Free (x : Byte) (pk : Packet) (typ : MsgType) (data : Bytes) : Prop :=
  x ∉ typ.bytes ∧ x ∉ data ∧
  match pk with
  | .info _ | .hub _ | .client _ | .udp _ _ => True
  | .broadcast id _ => x ∉ id.bytes
  | .direct id to _ | .echo id to _ => x ∉ id.bytes ∧ x ∉ to.bytes
  | .feature id sel _ => x ∉ id.bytes ∧ (∀ f ∈ sel, x ∉ f.fea.bytes) ∧ SelPayload data

/-- No byte of the parts of a packet is new. -/
theorem shape_not_mem {p : Bytes} {pk : Packet} (h : Shape p pk) {typ : MsgType} {data : Bytes} (hm : pk.message = .raw typ data) (x : Byte)
    (hx : x ∉ p ∨ (x = c!"\n" ∧ IsLine p)) : Free x pk typ data := by
  cases h with
  | info h => cases hm; have := wellFormed_not_mem h x hx; exact ⟨this.2.1, this.2.2.2, trivial⟩
  | hub h => cases hm; have := wellFormed_not_mem h x hx; exact ⟨this.2.1, this.2.2.2, trivial⟩
  | client h => cases hm; have := wellFormed_not_mem h x hx; exact ⟨this.2.1, this.2.2.2, trivial⟩
  | udp text hl ht h => cases hm; have := wellFormed_not_mem h x hx; exact ⟨this.2.1, this.2.2.2, trivial⟩
  | broadcast h =>
    cases hm
    have := wellFormed_not_mem h x hx
    simp only [List.mem_cons, not_or] at this
    exact ⟨this.2.1, this.2.2.2, this.2.2.1.2⟩
  | direct h =>
    cases hm
    have := wellFormed_not_mem h x hx
    simp only [List.mem_cons, List.mem_append, not_or] at this
    exact ⟨this.2.1, this.2.2.2, this.2.2.1.2.1, this.2.2.1.2.2.2⟩
  | echo h =>
    cases hm
    have := wellFormed_not_mem h x hx
    simp only [List.mem_cons, List.mem_append, not_or] at this
    exact ⟨this.2.1, this.2.2.2, this.2.2.1.2.1, this.2.2.1.2.2.2⟩
  | feature text hr h =>
    cases hm
    have := wellFormed_not_mem h x hx
    simp only [List.mem_cons, not_or] at this
    have h2 := selRead_not_mem hr this.2.2.2
    exact ⟨this.2.1, h2.1, this.2.2.1.2, h2.2, selRead_payload hr⟩

/-- **C87.** A packet that was read and is written again: the line that is written is one line, and everyone who reads it reads the
same packet. -/
theorem relay_packet {room : Nat} {p : Bytes} {pk : Packet} (hl : IsLine p) (h : decodePacketRaw room p = .ok pk) (hc : Complete pk) :
    ∃ line, pk.marshal = .ok line ∧ IsLine line ∧ ∀ room', decodePacketRaw room' line = .ok pk := by
  have hs := shape hl h hc
  obtain ⟨typ, data, hm⟩ := shape_raw hs
  have h0 : (0 : Byte) ∉ p := (raw_ok h hl).elim fun _ h => h.elim fun _ h => h.elim fun _ h => h.2.1
  have hz := shape_not_mem hs hm 0 (.inl h0)
  have hn := shape_not_mem hs hm c!"\n" (.inr ⟨rfl, hl⟩)
  refine ⟨_, marshal_eq pk typ data hm, ?_, fun room' => ?_⟩
  · have ha : c!"\n" ∉ addressOf pk := by
      cases hs with
      | info | hub | client => simp [addressOf]
      | broadcast => simpa [addressOf] using hn.2.2
      | direct => simpa [addressOf] using hn.2.2
      | echo => simpa [addressOf] using hn.2.2
      | udp =>
        simp only [addressOf, List.mem_cons, not_or]
        exact ⟨by decide, base32_not_mem (by decide)⟩
      | feature text hr hw =>
        simp only [addressOf, List.mem_append, List.mem_cons, List.mem_flatten, List.mem_map, not_or, not_exists, not_and]
        refine ⟨⟨by decide, hn.2.2.1⟩, ?_⟩
        rintro l ⟨f, hf, rfl⟩
        have := hn.2.2.2.1 f hf
        cases f.sel <;> simp [this]
    have hk : c!"\n" ≠ pk.kind := by cases pk <;> simp only [Packet.kind] <;> decide
    by_cases hd : data = []
    · refine ⟨pk.kind :: typ.bytes ++ addressOf pk, by simp [tailOf, hd], ?_⟩
      simp only [List.cons_append, List.mem_cons, List.mem_append, not_or]
      exact ⟨hk, hn.1, ha⟩
    · refine ⟨pk.kind :: typ.bytes ++ addressOf pk ++ c!" " :: data, by simp [tailOf, hd], ?_⟩
      simp only [List.cons_append, List.mem_cons, List.mem_append, not_or]
      exact ⟨hk, ⟨hn.1, ha⟩, by decide, hn.2.1⟩
  · obtain ⟨line, h1, h2⟩ := packet_roundtrip_partial room' pk typ data hm (by cases pk <;> exact hz)
    rw [marshal_eq pk typ data hm] at h1
    cases h1
    exact h2

/-- **C87.** Packets of the kinds I, H, C, B, D and E are passed on byte by byte; only a space before the end of a line without
payload is dropped. -/
theorem relay_verbatim {room : Nat} {p : Bytes} {pk : Packet} (hl : IsLine p) (h : decodePacketRaw room p = .ok pk) (hc : Complete pk)
    (hf : pk.kind ≠ c!"F") (hu : pk.kind ≠ c!"U") :
    pk.marshal = .ok p ∨ ∃ q, p = q ++ b!" \n" ∧ pk.marshal = .ok (q ++ b!"\n") := by
  have hs := shape hl h hc
  have fin : ∀ {typ : MsgType} {data : Bytes}, pk.message = .raw typ data → WellFormed p pk.kind typ (addressOf pk) data →
      pk.marshal = .ok p ∨ ∃ q, p = q ++ b!" \n" ∧ pk.marshal = .ok (q ++ b!"\n") := by
    intro typ data hm hw
    rw [marshal_eq pk typ data hm]
    obtain ⟨tail, rfl | ⟨rfl, rfl⟩, rfl⟩ := wellFormed_iff.mp hw
    · left; simp
    · right; exact ⟨pk.kind :: typ.bytes ++ addressOf pk, by simp, by simp [tailOf]⟩
  cases hs with
  | info hw => exact fin rfl hw
  | hub hw => exact fin rfl hw
  | client hw => exact fin rfl hw
  | broadcast hw => exact fin rfl hw
  | direct hw => exact fin rfl hw
  | echo hw => exact fin rfl hw
  | udp => exact absurd rfl hu
  | feature => exact absurd rfl hf

/-- **C87.** In a UDP packet the text of the id becomes the usual text of that id. The payload is passed on byte by byte. -/
theorem relay_udp {room : Nat} {p : Bytes} {id : CID} {m : Msg} (hl : IsLine p) (h : decodePacketRaw room p = .ok (.udp id m)) :
    ∃ (typ : MsgType) (text data tail : Bytes), m = .raw typ data ∧ Hash.fromBase32 text = .ok id ∧ EndOf data tail ∧
      p = b!"U" ++ typ.bytes ++ b!" " ++ text ++ tail ∧
      (Packet.udp id m).marshal = .ok (b!"U" ++ typ.bytes ++ b!" " ++ id.base32 ++ tailOf data) := by
  cases shape hl h trivial with
  | udp text hl' ht hw =>
    rename_i typ data
    obtain ⟨tail, he, rfl⟩ := wellFormed_iff.mp hw
    refine ⟨typ, text, data, tail, rfl, ht, he, by simp, ?_⟩
    rw [marshal_eq _ typ data rfl]
    simp [Packet.kind, addressOf]

/-- **C87.** In a feature packet the selectors are written with one space before each. The payload is passed on byte by byte. -/
theorem relay_feature {room : Nat} {p : Bytes} {id : SID} {sel : List FeatureSel} {m : Msg} (hl : IsLine p)
    (h : decodePacketRaw room p = .ok (.feature id sel m)) (hc : c!"\n" ∉ id.bytes) :
    ∃ (typ : MsgType) (text data tail : Bytes), m = .raw typ data ∧ SelRead text sel data ∧ EndOf text tail ∧
      p = b!"F" ++ typ.bytes ++ b!" " ++ id.bytes ++ tail ∧
      (Packet.feature id sel m).marshal = .ok (b!"F" ++ typ.bytes ++ b!" " ++ id.bytes ++ tailOf (selText sel data)) := by
  cases shape hl h hc with
  | feature text hr hw =>
    rename_i typ data
    obtain ⟨tail, he, rfl⟩ := wellFormed_iff.mp hw
    refine ⟨typ, text, data, tail, rfl, hr, he, by simp, ?_⟩
    rw [marshal_eq _ typ data rfl, ← selText_tail]
    simp [Packet.kind, addressOf]

/-- What is written is passed on byte by byte from then on. -/
theorem relay_once {room : Nat} {p line : Bytes} {pk : Packet} (hl : IsLine p) (h : decodePacketRaw room p = .ok pk) (hc : Complete pk)
    (hw : pk.marshal = .ok line) : ∀ room', (decodePacketRaw room' line >>= Packet.marshal) = .ok line := by
  obtain ⟨line', h1, -, h2⟩ := relay_packet hl h hc
  rw [hw] at h1
  cases h1
  intro room'
  rw [h2]
  exact hw

/-- A packet that is passed on. -/
example : decodePacketRaw 0 b!"BMSG AAAB hello\\sworld\n" = .ok (.broadcast ⟨b!"AAAB", rfl⟩ (.raw ⟨b!"MSG", rfl⟩ b!"hello\\sworld")) ∧
    (Packet.broadcast ⟨b!"AAAB", rfl⟩ (.raw ⟨b!"MSG", rfl⟩ b!"hello\\sworld")).marshal = .ok b!"BMSG AAAB hello\\sworld\n" :=
  ⟨rfl, by decide +kernel⟩

/-- The space that is dropped. -/
example : (decodePacketRaw 0 b!"HGPA \n" >>= Packet.marshal) = .ok b!"HGPA\n" := by decide +kernel

/-- **Finding.** A packet whose id reaches over the end of the line is written with an empty line behind it. -/
theorem short_relay : (decodePacketRaw 0 b!"BINF AAA\n" >>= Packet.marshal) = .ok b!"BINF AAA\n\n" := by decide +kernel

end Verif.Props.AdcRelay
