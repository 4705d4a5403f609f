import Verif.Props.AdcRelay

/-!
# C43: exactly which ADC packets round-trip
-/

namespace Verif.Props.AdcPacketsIff

open Verif.Go Verif.Adc Verif.Tiger Verif.Spec Verif.Props.AdcText Verif.Props.AdcPackets Verif.Props.AdcRelay

theorem raw_kind {room : Nat} {p : Bytes} {pk : Packet} (h : decodePacketRaw room p = .ok pk) :
    (0 : Byte) ∉ p ∧ ∃ (k : Byte) (typ : MsgType) (d : Bytes), unmarshalKind room k typ d = some (.ok pk) := by
  unfold decodePacketRaw at h
  split at h
  · cases h
  · split at h
    · cases h
    · rename_i h0
      refine ⟨h0, ?_⟩
      simp only at h
      split at h
      · cases h
      · rename_i r hr
        split at h
        · cases h
        · split at h
          · cases h
          · subst h
            exact ⟨_, _, _, hr⟩

/-- The payload of a feature packet that was read never looks like a selector. -/
theorem feature_payload {room : Nat} {p : Bytes} {id : SID} {sel : List FeatureSel} {typ : MsgType} {data : Bytes}
    (h : decodePacketRaw room p = .ok (.feature id sel (.raw typ data))) : SelPayload data := by
  obtain ⟨-, k, typ', d, hk⟩ := raw_kind h
  have hkind := kind_inv hk
  simp only [Packet.kind] at hkind
  subst hkind
  obtain ⟨id', sel', rest, he, h1, h2, h3, h4⟩ := feature_inv (Option.some.inj hk)
  cases he
  obtain ⟨ss, h5, h6⟩ := selLoop_read _ _ _ _ (by
    cases hx : payloadAfter d.dropLast 4 with
    | nil => exact .inr rfl
    | cons => exact .inl (by simp)) _ _ h4
  exact selRead_payload h6

/-- **C43, exactly.** A packet is decoded from its own line to the same packet if and only if its bytes are not NUL and, for a
feature packet, its payload does not begin with a plus, a minus or a space. -/
theorem packet_roundtrip_iff (room : Nat) (p : Packet) (typ : MsgType) (data : Bytes) (hm : p.message = .raw typ data) :
    (∃ line, p.marshal = .ok line ∧ decodePacketRaw room line = .ok p) ↔ PacketOk p typ data := by
  refine ⟨fun ⟨line, h1, h2⟩ => ?_, packet_roundtrip_partial room p typ data hm⟩
  rw [marshal_eq p typ data hm] at h1
  cases h1
  have h0 := (raw_kind h2).1
  simp only [List.cons_append, List.mem_cons, List.mem_append, not_or] at h0
  obtain ⟨-, h3, h4, h5⟩ := h0
  have h6 : (0 : Byte) ∉ data := by
    intro hx
    refine h5 ?_
    unfold tailOf
    rw [if_neg (by rintro rfl; simp at hx)]
    simp [hx]
  refine ⟨h3, h6, ?_⟩
  cases p with
  | info | hub | client | udp => trivial
  | broadcast id m => simpa [addressOf] using h4
  | direct id to m => simpa [addressOf] using h4
  | echo id to m => simpa [addressOf] using h4
  | feature id sel m =>
    simp only [Packet.message] at hm
    subst hm
    simp only [addressOf, List.mem_append, List.mem_cons, List.mem_flatten, List.mem_map, not_or, not_exists, not_and] at h4
    refine ⟨h4.1.2, fun f hf hx => ?_, feature_payload h2⟩
    exact h4.2 _ ⟨f, hf, rfl⟩ (by simp [hx])

/-- The line of a packet that does not round-trip: it is refused, or read as another packet. -/
example : ¬ PacketOk (.feature ⟨b!"AAAB", rfl⟩ [] (.raw ⟨b!"MSG", rfl⟩ b!"+help me")) ⟨b!"MSG", rfl⟩ b!"+help me" :=
  fun h => (h.2.2.2.2 c!"+" rfl).1 rfl

end Verif.Props.AdcPacketsIff
