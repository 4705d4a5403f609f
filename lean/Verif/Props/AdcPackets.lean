import Verif.Adc.Packets
import Verif.Props.AdcMessages

/-!
# C43, C44: ADC packets
-/

namespace Verif.Props.AdcPackets

open Verif.Go Verif.Adc Verif.Tiger Verif.Spec Verif.Props.AdcText

/-- The end of a line: nothing but the delimiter, or a space and a payload before it. -/
def tailOf (data : Bytes) : Bytes := if data = [] then b!"\n" else c!" " :: data ++ b!"\n"

theorem finish_tail (h data : Bytes) : finishLine (h ++ b!" ") data = h ++ tailOf data := by
  unfold finishLine tailOf
  by_cases hd : data = []
  · simp [hd]
  · have : ¬ data.length = 0 := by simpa using hd
    simp [hd]

theorem tailOf_ne (data : Bytes) : tailOf data ≠ [] := by unfold tailOf; split <;> simp

theorem tailOf_last (x data : Bytes) : (x ++ tailOf data).getLast? = some c!"\n" := by
  unfold tailOf
  split
  · simp
  · rw [← List.append_assoc, List.getLast?_concat]

theorem tailOf_dropLast (x data : Bytes) : (x ++ tailOf data).dropLast = x ++ (if data = [] then [] else c!" " :: data) := by
  unfold tailOf
  split
  · simp
  · rw [← List.append_assoc, List.dropLast_concat]

theorem tailOf_head (data : Bytes) : (tailOf data)[0]? = some c!" " ∨ (tailOf data)[0]? = some c!"\n" := by
  unfold tailOf; split <;> simp

/-- What is between the name and the end of the line, with a leading space. -/
def addressOf : Packet → Bytes
  | .info _ | .hub _ | .client _ => []
  | .broadcast id _ => c!" " :: id.bytes
  | .direct id to _ | .echo id to _ => c!" " :: id.bytes ++ c!" " :: to.bytes
  | .feature id sel _ => c!" " :: id.bytes ++ (sel.map (fun f => c!" " :: (if f.sel then c!"+" else c!"-") :: f.fea.bytes)).flatten
  | .udp id _ => c!" " :: id.base32

theorem sel_shift (sel : List FeatureSel) : b!" " ++ (sel.map FeatureSel.marshal).flatten =
    (sel.map (fun f => c!" " :: (if f.sel then c!"+" else c!"-") :: f.fea.bytes)).flatten ++ b!" " := by
  induction sel with
  | nil => rfl
  | cons f sel ih =>
    simp only [List.map_cons, List.flatten_cons, List.append_assoc, ← ih]
    simp [FeatureSel.marshal]
    split <;> rfl

theorem header_eq (p : Packet) : p.header = addressOf p ++ b!" " := by
  cases p <;> simp only [Packet.header, addressOf] <;> try simp
  rename_i id sel msg
  have := sel_shift sel
  simpa using this

/-- The line of a packet. -/
theorem marshal_eq (p : Packet) (typ : MsgType) (data : Bytes) (h : p.message = .raw typ data) :
    p.marshal = .ok (p.kind :: typ.bytes ++ (addressOf p ++ tailOf data)) := by
  simp only [Packet.marshal, h, Msg.marshal, Msg.cmd, Res.ok_bind]
  rw [header_eq, ← List.append_assoc, finish_tail]
  simp

/-- Decoding a line with the shape that is written. -/
theorem decodeRaw_step (room : Nat) (k : Byte) (typ : MsgType) (rest : Bytes) (h0 : (0 : Byte) ∉ k :: typ.bytes ++ rest)
    (hl : rest.getLast? = some c!"\n") :
    (∀ d, rest = c!" " :: d → decodePacketRaw room (k :: typ.bytes ++ rest) =
      match unmarshalKind room k typ d with | none => .err (.other 127) | some r => r) ∧
    (∀ d, rest = c!"\n" :: d → decodePacketRaw room (k :: typ.bytes ++ rest) =
      match unmarshalKind room k typ rest with | none => .err (.other 127) | some r => r) := by
  obtain ⟨t, ht⟩ := typ
  match t, ht with
  | [a, b, c], ht =>
  have hlast : ∀ x y : Bytes, rest = y → (k :: [a, b, c] ++ y).getLast? = some c!"\n" := by
    intro x y hy
    subst hy
    cases rest with
    | nil => simp at hl
    | cons u v => rw [List.getLast?_append]; simp [hl]
  constructor
  · rintro d rfl
    have hll := hlast [] _ rfl
    unfold decodePacketRaw
    rw [dif_neg (by simp), if_neg h0]
    simp only [List.cons_append, List.nil_append, List.getElem?_cons_succ, List.getElem?_cons_zero, if_true,
      List.getElem_cons_zero, List.drop_succ_cons, List.drop_zero, List.take_succ_cons, List.take_zero] at hll ⊢
    cases unmarshalKind room k ⟨[a, b, c], ht⟩ d with
    | none => rfl
    | some r => simp [hll]
  · rintro d rfl
    have hll := hlast [] _ rfl
    unfold decodePacketRaw
    rw [dif_neg (by simp), if_neg h0]
    simp only [List.cons_append, List.nil_append, List.getElem?_cons_succ, List.getElem?_cons_zero,
      List.getElem_cons_zero, List.drop_succ_cons, List.drop_zero, List.take_succ_cons, List.take_zero] at hll ⊢
    rw [if_neg (by decide)]
    cases unmarshalKind room k ⟨[a, b, c], ht⟩ (c!"\n" :: d) with
    | none => rfl
    | some r => simp [hll]

/-! ## Selectors -/

/-- Payloads that can follow selectors. -/
def SelPayload (data : Bytes) : Prop := ∀ c, data.head? = some c → c ≠ c!"+" ∧ c ≠ c!"-" ∧ c ≠ c!" "

/-- The selectors and the payload, without the leading space. -/
def selText : List FeatureSel → Bytes → Bytes
  | [], d => d
  | f :: fs, d => (if f.sel then c!"+" else c!"-") :: f.fea.bytes ++ (if fs = [] ∧ d = [] then [] else c!" " :: selText fs d)

theorem feature_ext {a b : Feature} (h : a.bytes = b.bytes) : a = b := by
  cases a; cases b; simp at h; subst h; rfl

theorem selLoop_text (room : Nat) (d : Bytes) (hd : SelPayload d) (sel : List FeatureSel) : ∀ (acc : List FeatureSel) (pre : Bytes),
    (sel ≠ [] ∨ d ≠ [] ∨ pre = []) →
    selLoop room acc (pre ++ selText sel d) pre.length = .ok (acc ++ sel, d) := by
  induction sel with
  | nil =>
    intro acc pre h
    rw [selLoop]
    cases d with
    | nil =>
      have : pre = [] := by simpa using h
      subst this; simp [selText]
    | cons c d =>
      obtain ⟨h1, h2, h3⟩ := hd c rfl
      have e : (pre ++ selText [] (c :: d))[pre.length]? = some c := by simp [selText]
      split
      · rename_i hn; rw [e] at hn; cases hn
      · rename_i x hx
        rw [e] at hx; cases hx
        simp [h1, h2, h3, selText]
  | cons f fs ih =>
    intro acc pre h
    rw [selLoop]
    have e : (pre ++ selText (f :: fs) d)[pre.length]? = some (if f.sel then c!"+" else c!"-") := by simp [selText]
    split
    · rename_i hn; rw [e] at hn; cases hn
    · rename_i x hx
      rw [e] at hx; cases hx
      have hpm : (if f.sel then c!"+" else c!"-") = c!"+" ∨ (if f.sel then c!"+" else c!"-") = c!"-" := by
        cases f.sel <;> simp
      have hsel : ((if f.sel then c!"+" else c!"-") == c!"+") = f.sel := by cases f.sel <;> decide
      have hfea : selAt room (pre ++ selText (f :: fs) d) pre.length = .ok f.fea := by
        unfold selAt
        have hlen := f.fea.size
        rw [dif_neg (by simp [selText]; omega)]
        have : ((pre ++ selText (f :: fs) d).drop (pre.length + 1)).take 4 = f.fea.bytes := by
          rw [List.drop_append]
          simp only [Nat.add_sub_cancel_left, selText, List.cons_append, List.drop_succ_cons, List.drop_zero]
          rw [List.drop_eq_nil_of_le (by omega), List.nil_append, ← hlen, List.take_left]
        exact congrArg Res.ok (feature_ext this)
      rw [if_pos hpm, hfea]
      simp only [hsel]
      by_cases hend : fs = [] ∧ d = []
      · obtain ⟨rfl, rfl⟩ := hend
        rw [if_pos (by simp [selText, f.fea.size])]
      · rw [if_neg]
        · -- the space
          have hT : pre ++ selText (f :: fs) d = (pre ++ (if f.sel then c!"+" else c!"-") :: f.fea.bytes) ++ c!" " :: selText fs d := by
            rw [selText, if_neg hend]; simp
          have hl5 : (pre ++ (if f.sel then c!"+" else c!"-") :: f.fea.bytes).length = pre.length + 4 + 1 := by
            simp [f.fea.size]
          rw [hT, ← hl5, selLoop]
          have e2 : ((pre ++ (if f.sel then c!"+" else c!"-") :: f.fea.bytes) ++ c!" " :: selText fs d)[(pre ++ (if f.sel then c!"+" else c!"-") :: f.fea.bytes).length]? = some c!" " := by
            simp
          split
          · rename_i hn; rw [e2] at hn; cases hn
          · rename_i y hy
            rw [e2] at hy; cases hy
            rw [if_neg (by decide), if_pos rfl]
            simp only [List.drop_left]
            have hne : selText fs d ≠ [] := by
              cases fs with
              | nil => simp [selText]; intro hd0; exact hend ⟨rfl, hd0⟩
              | cons => simp [selText]
            rw [if_neg (by simp [hne])]
            have := ih (acc ++ [⟨f.fea, f.sel⟩]) [c!" "] (by
              by_cases hfs : fs = []
              · exact .inr (.inl (fun hd0 => hend ⟨hfs, hd0⟩))
              · exact .inl hfs)
            simp only [List.cons_append, List.nil_append, List.length_cons, List.length_nil, Nat.zero_add] at this
            rw [this]
            simp
        · rw [selText, if_neg hend]; simp [f.fea.size]; omega

theorem selText_nil (sel : List FeatureSel) (d : Bytes) : selText sel d = [] ↔ sel = [] ∧ d = [] := by
  cases sel <;> simp [selText]

theorem selText_tail (sel : List FeatureSel) (d : Bytes) :
    (sel.map (fun f => c!" " :: (if f.sel then c!"+" else c!"-") :: f.fea.bytes)).flatten ++ tailOf d = tailOf (selText sel d) := by
  induction sel with
  | nil => simp [selText]
  | cons f sel ih =>
    simp only [List.map_cons, List.flatten_cons, List.append_assoc, ih]
    unfold tailOf
    simp only [selText_nil, reduceCtorEq, false_and, if_false]
    by_cases h : sel = [] ∧ d = []
    · simp [h, selText]
    · rw [if_neg h, selText, if_neg h]; simp

theorem payload_eq {x : Bytes} {n : Nat} (hx : x.length = n) (data : Bytes) : payloadAfter (x ++ tailOf data).dropLast n = data := by
  rw [tailOf_dropLast, payloadAfter]
  subst hx
  by_cases hd : data = []
  · simp [hd]
  · have : data.length > 0 := List.length_pos_iff.mpr hd
    rw [if_neg hd, if_pos (by simp; omega), List.drop_append]
    simp

theorem sep_ok {x : Bytes} {n : Nat} (hx : x.length = n) (data : Bytes) : ¬ badSep (x ++ tailOf data) n := by
  subst hx
  rintro ⟨_, h1, h2⟩
  have : (x ++ tailOf data)[x.length]? = (tailOf data)[0]? := by
    rw [List.getElem?_append_right (Nat.le_refl _)]; simp
  rw [this] at h1 h2
  rcases tailOf_head data with h | h
  · exact h1 h
  · exact h2 h

theorem tailOf_length (data : Bytes) : (tailOf data).length ≥ 1 := by
  unfold tailOf; split <;> simp

theorem sid_ext {a b : SID} (h : a.bytes = b.bytes) : a = b := by
  cases a; cases b; simp at h; subst h; rfl

theorem sid_unmarshal (id : SID) : SID.unmarshal id.bytes = .ok id := by rw [SID.unmarshal, dif_pos id.size]

theorem pair_ok (typ : MsgType) (id to : SID) (data : Bytes) (mk : SID → SID → Msg → Packet) :
    unmarshalPair typ (id.bytes ++ c!" " :: to.bytes ++ tailOf data) mk = .ok (mk id to (.raw typ data)) := by
  have h1 := id.size; have h2 := to.size; have h3 := tailOf_length data
  have hx : (id.bytes ++ c!" " :: to.bytes).length = 9 := by simp [h1, h2]
  rw [unmarshalPair, if_neg (by simp only [List.length_append, hx]; omega), if_neg (by rw [tailOf_last]; simp),
    if_neg, if_neg (sep_ok hx data), payload_eq hx]
  · have e1 : (id.bytes ++ c!" " :: to.bytes ++ tailOf data).take 4 = id.bytes := by
      rw [List.append_assoc, ← h1, List.take_left]
    have e2 : ((id.bytes ++ c!" " :: to.bytes ++ tailOf data).drop 5).take 4 = to.bytes := by
      rw [List.append_assoc, List.drop_append, h1, List.drop_eq_nil_of_le (by omega)]
      simp only [Nat.reduceSub, List.nil_append, List.cons_append, List.drop_succ_cons, List.drop_zero]
      rw [← h2, List.take_left]
    rw [e1, e2, sid_unmarshal, sid_unmarshal]
    rfl
  · rw [List.append_assoc, List.getElem?_append_right (by omega), h1]; simp

/-! ## C43 -/

/-- The bytes of a packet have no NUL; the payload of a feature packet can be told from selectors. -/
def PacketOk (p : Packet) (typ : MsgType) (data : Bytes) : Prop :=
  (0 : Byte) ∉ typ.bytes ∧ (0 : Byte) ∉ data ∧
  match p with
  | .info _ | .hub _ | .client _ | .udp _ _ => True
  | .broadcast id _ => (0 : Byte) ∉ id.bytes
  | .direct id to _ | .echo id to _ => (0 : Byte) ∉ id.bytes ∧ (0 : Byte) ∉ to.bytes
  | .feature id sel _ => (0 : Byte) ∉ id.bytes ∧ (∀ f ∈ sel, (0 : Byte) ∉ f.fea.bytes) ∧ SelPayload data

theorem zero_tail {data : Bytes} (h : (0 : Byte) ∉ data) : (0 : Byte) ∉ tailOf data := by
  unfold tailOf; split
  · decide
  · simp [h]

theorem address_zero (p : Packet) (typ : MsgType) (data : Bytes) (h : PacketOk p typ data) : (0 : Byte) ∉ addressOf p := by
  cases p <;> simp only [PacketOk] at h <;> simp only [addressOf]
  case info => simp
  case hub => simp
  case client => simp
  case broadcast => simp [h]
  case direct => simp [h]
  case echo => simp [h]
  case udp id m => simp; exact base32_not_mem (by decide)
  case feature id sel m =>
    simp only [List.mem_append, List.mem_cons, List.mem_flatten, List.mem_map, not_or, not_exists, not_and]
    refine ⟨⟨by decide, h.2.2.1⟩, ?_⟩
    rintro l ⟨f, hf, rfl⟩
    have := h.2.2.2.1 f hf
    cases f.sel <;> simp [this]

/-- **C43.** The line of a packet with a raw payload is decoded as that packet. -/
theorem packet_roundtrip_partial (room : Nat) (p : Packet) (typ : MsgType) (data : Bytes) (hm : p.message = .raw typ data)
    (h : PacketOk p typ data) : ∃ line, p.marshal = .ok line ∧ decodePacketRaw room line = .ok p := by
  refine ⟨_, marshal_eq p typ data hm, ?_⟩
  have h0 : (0 : Byte) ∉ p.kind :: typ.bytes ++ (addressOf p ++ tailOf data) := by
    have hk : (0 : Byte) ≠ p.kind := by cases p <;> simp only [Packet.kind] <;> decide
    simp only [List.cons_append, List.mem_cons, List.mem_append, not_or]
    exact ⟨hk, h.1, address_zero p typ data h, zero_tail h.2.1⟩
  have hlast := tailOf_last (addressOf p) data
  obtain ⟨hA, hB⟩ := decodeRaw_step room p.kind typ (addressOf p ++ tailOf data) h0 hlast
  -- packets without address
  have plain : addressOf p = [] → (∀ d, d.length ≥ 1 → d.getLast? = some c!"\n" → d.dropLast = data →
      (match unmarshalKind room p.kind typ d with | none => Res.err (.other 127) | some r => r) = .ok p) →
      decodePacketRaw room (p.kind :: typ.bytes ++ (addressOf p ++ tailOf data)) = .ok p := by
    intro ha hk
    rw [ha, List.nil_append] at hA hB hlast ⊢
    by_cases hd : data = []
    · have ht : tailOf data = b!"\n" := by simp [tailOf, hd]
      rw [hB [] ht, ht]
      exact hk _ (by simp) rfl (by simp [hd])
    · have ht : tailOf data = c!" " :: (data ++ b!"\n") := by simp [tailOf, hd]
      rw [hA _ ht]
      exact hk _ (by simp) (by simp) (by simp)
  cases p with
  | info m =>
    cases hm
    refine plain rfl (fun d h1 h2 h3 => ?_)
    show unmarshalInfo typ d = _
    rw [unmarshalInfo, if_neg (by simp [h2]), if_neg (by omega), h3]
  | hub m =>
    cases hm
    refine plain rfl (fun d h1 h2 h3 => ?_)
    show unmarshalHub typ d = _
    rw [unmarshalHub, if_neg (by omega), if_neg (by simp [h2]), h3]
  | client m =>
    cases hm
    refine plain rfl (fun d h1 h2 h3 => ?_)
    show unmarshalClient typ d = _
    rw [unmarshalClient, if_neg (by omega), if_neg (by simp [h2]), h3]
  | broadcast id m =>
    cases hm
    have h1 := id.size; have h3 := tailOf_length data
    rw [hA (id.bytes ++ tailOf data) (by simp [addressOf])]
    show unmarshalBroadcast typ _ = _
    rw [unmarshalBroadcast, if_neg (by simp only [List.length_append]; omega), if_neg (by rw [tailOf_last]; simp),
      if_neg (sep_ok h1 data), payload_eq h1, ← h1, List.take_left, sid_unmarshal]
    rfl
  | direct id to m =>
    cases hm
    rw [hA (id.bytes ++ c!" " :: to.bytes ++ tailOf data) (by simp [addressOf])]
    exact pair_ok typ id to data .direct
  | echo id to m =>
    cases hm
    rw [hA (id.bytes ++ c!" " :: to.bytes ++ tailOf data) (by simp [addressOf])]
    exact pair_ok typ id to data .echo
  | feature id sel m =>
    cases hm
    have h1 := id.size; have h3 := tailOf_length (selText sel data)
    rw [hA (id.bytes ++ tailOf (selText sel data)) (by rw [← selText_tail]; simp [addressOf])]
    show unmarshalFeature room typ _ = _
    rw [unmarshalFeature, if_neg (by simp only [List.length_append]; omega), if_neg (by rw [tailOf_last]; simp),
      if_neg (sep_ok h1 _), payload_eq h1, ← h1, List.take_left, sid_unmarshal]
    have := selLoop_text (room + 1) data h.2.2.2.2 sel [] [] (.inr (.inr rfl))
    simp only [List.nil_append, List.length_nil] at this
    simp only [Res.ok_bind, this]
  | udp id m =>
    cases hm
    have h1 := id.base32_length; have h3 := tailOf_length data
    rw [hA (id.base32 ++ tailOf data) (by simp [addressOf])]
    show unmarshalUdp typ _ = _
    rw [unmarshalUdp, if_neg (by simp only [List.length_append]; omega), if_neg (by rw [tailOf_last]; simp),
      if_neg (sep_ok h1 data), payload_eq h1, ← h1, List.take_left, Hash.from_base32]

example : PacketOk (.feature ⟨b!"AAAB", rfl⟩ [⟨⟨b!"SEGA", rfl⟩, true⟩, ⟨⟨b!"NAT0", rfl⟩, false⟩] (.raw ⟨b!"SCH", rfl⟩ b!"TOx ANy")) ⟨b!"SCH", rfl⟩ b!"TOx ANy" ∧
    (Packet.feature ⟨b!"AAAB", rfl⟩ [⟨⟨b!"SEGA", rfl⟩, true⟩, ⟨⟨b!"NAT0", rfl⟩, false⟩] (.raw ⟨b!"SCH", rfl⟩ b!"TOx ANy")).marshal =
      .ok b!"FSCH AAAB +SEGA -NAT0 TOx ANy\n" := by
  refine ⟨⟨by decide, by decide, by decide, ?_, ?_⟩, by decide +kernel⟩
  · intro f hf
    simp only [List.mem_cons, List.not_mem_nil, or_false] at hf
    rcases hf with rfl | rfl <;> decide
  · intro c hc; simp at hc; subst hc; decide

/-- A feature packet without selectors whose payload begins with `+` is read with a selector that was not there. -/
theorem feature_not_roundtrip :
    (Packet.feature ⟨b!"AAAB", rfl⟩ [] (.raw ⟨b!"MSG", rfl⟩ b!"+help me")).marshal = .ok b!"FMSG AAAB +help me\n" ∧
    ∀ room, decodePacketRaw room b!"FMSG AAAB +help me\n" =
      .ok (.feature ⟨b!"AAAB", rfl⟩ [⟨⟨b!"help", rfl⟩, true⟩] (.raw ⟨b!"MSG", rfl⟩ b!"me")) := by
  refine ⟨by decide +kernel, fun room => ?_⟩
  obtain ⟨line, h1, h2⟩ := packet_roundtrip_partial room
    (.feature ⟨b!"AAAB", rfl⟩ [⟨⟨b!"help", rfl⟩, true⟩] (.raw ⟨b!"MSG", rfl⟩ b!"me")) ⟨b!"MSG", rfl⟩ b!"me" rfl
    ⟨by decide, by decide, by decide, by decide, by intro c hc; simp at hc; subst hc; decide⟩
  have : (Packet.feature ⟨b!"AAAB", rfl⟩ [⟨⟨b!"help", rfl⟩, true⟩] (.raw ⟨b!"MSG", rfl⟩ b!"me")).marshal =
    .ok b!"FMSG AAAB +help me\n" := by decide +kernel
  rw [this] at h1
  cases h1
  exact h2

/-! ## C44 -/

/-- A line: one delimiter, at the end. -/
def IsLine (p : Bytes) : Prop := ∃ l, p = l ++ b!"\n" ∧ c!"\n" ∉ l

/-- The line is `kind name address`, with nothing after it or a space and the payload. -/
def WellFormed (p : Bytes) (kind : Byte) (typ : MsgType) (address payload : Bytes) : Prop :=
  p = kind :: typ.bytes ++ address ++ b!"\n" ∧ payload = [] ∨ p = kind :: typ.bytes ++ address ++ c!" " :: payload ++ b!"\n"

theorem five_or_more {p : Bytes} (h : ¬ p.length < 5) : ∃ a b c d e r, p = a :: b :: c :: d :: e :: r := by
  match p with
  | [] => simp at h
  | [_] => simp at h
  | [_, _] => simp at h
  | [_, _, _] => simp at h
  | [_, _, _, _] => simp at h
  | a :: b :: c :: d :: e :: r => exact ⟨a, b, c, d, e, r, rfl⟩

/-- What has to hold for a line to be accepted, by the kind. -/
theorem raw_ok {room : Nat} {p : Bytes} {pk : Packet} (h : decodePacketRaw room p = .ok pk) (hl : IsLine p) :
    ∃ (k : Byte) (typ : MsgType) (d : Bytes), unmarshalKind room k typ d = some (.ok pk) ∧ (0 : Byte) ∉ p ∧
      ((p = k :: typ.bytes ++ b!"\n" ∧ d = b!"\n") ∨ (p = k :: typ.bytes ++ c!" " :: d ∧ IsLine d)) := by
  obtain ⟨l, hp, hn⟩ := hl
  unfold decodePacketRaw at h
  split at h
  · cases h
  · rename_i hlen
    split at h
    · cases h
    · rename_i h0
      obtain ⟨a, b, c, d, e, r, rfl⟩ := five_or_more hlen
      simp only [List.getElem?_cons_succ, List.getElem?_cons_zero, List.getElem_cons_zero, List.drop_succ_cons, List.drop_zero,
        List.take_succ_cons, List.take_zero, Option.some.injEq] at h
      split at h
      · cases h
      · rename_i res hres
        split at h
        · cases h
        · split at h
          · cases h
          · rename_i hsep
            subst h
            refine ⟨a, ⟨[b, c, d], rfl⟩, _, hres, h0, ?_⟩
            by_cases he : e = c!" "
            · subst he
              right
              refine ⟨by simp, ?_⟩
              simp only [if_true]
              match l, hp, hn with
              | [], hp, _ => simp at hp
              | [_], hp, _ => simp at hp
              | [_, _], hp, _ => simp at hp
              | [_, _, _], hp, _ => simp at hp
              | [_, _, _, _], hp, _ => simp at hp
              | _ :: _ :: _ :: _ :: _ :: l', hp, hn =>
                simp only [List.cons_append, List.cons.injEq] at hp
                refine ⟨l', hp.2.2.2.2.2, ?_⟩
                simp only [List.mem_cons, not_or] at hn
                exact hn.2.2.2.2.2
            · have he2 : e = c!"\n" := by
                simp only [ne_eq, not_and, Decidable.not_not] at hsep
                have := hsep (by simpa using he)
                simpa using this
              subst he2
              left
              have hr : r = [] := by
                match l, hp, hn with
                | [], hp, _ => simp at hp
                | [_], hp, _ => simp at hp
                | [_, _], hp, _ => simp at hp
                | [_, _, _], hp, _ => simp at hp
                | [_, _, _, _], hp, _ =>
                  simp only [List.cons_append, List.nil_append, List.cons.injEq] at hp
                  exact hp.2.2.2.2.2
                | _ :: _ :: _ :: _ :: x :: l', hp, hn =>
                  simp only [List.cons_append, List.cons.injEq] at hp
                  simp only [List.mem_cons, not_or] at hn
                  exact absurd hp.2.2.2.2.1 hn.2.2.2.2.1
              subst hr
              simp

/-- The data of an accepted packet with an address of `n` bytes without delimiter. -/
theorem address_split {d : Bytes} {n : Nat} (hl : IsLine d) (hn : n ≤ d.length) (hs : ¬ badSep d n)
    (ha : c!"\n" ∉ d.take n) :
    (d = d.take n ++ b!"\n" ∧ payloadAfter d.dropLast n = []) ∨ d = d.take n ++ c!" " :: payloadAfter d.dropLast n ++ b!"\n" := by
  obtain ⟨l, rfl, hl⟩ := hl
  have hnl : n ≤ l.length := by
    rcases Nat.lt_or_ge l.length n with h | h
    · exfalso
      apply ha
      have : n = (l ++ b!"\n").length := by simp at hn ⊢; omega
      rw [this, List.take_length]; simp
    · exact h
  rw [List.take_append_of_le_length hnl, List.dropLast_concat]
  rcases Nat.lt_or_ge n l.length with h | h
  · right
    have hx : l = l.take n ++ l[n] :: l.drop (n + 1) := by
      rw [List.getElem_cons_drop, List.take_append_drop]
    have hsp : l[n] = c!" " := by
      simp only [badSep, not_and, Decidable.not_not] at hs
      have e : (l ++ b!"\n")[n]? = some l[n] := by rw [List.getElem?_append_left h, List.getElem?_eq_getElem h]
      rw [e] at hs
      by_cases hh : l[n] = c!" "
      · exact hh
      · have := hs (by simp; omega) (by simpa using hh)
        simp only [Option.some.injEq] at this
        exact absurd (List.getElem_mem h) (this ▸ hl)
    have hp : payloadAfter l n = l.drop (n + 1) := by
      unfold payloadAfter
      split
      · rfl
      · rw [List.drop_eq_nil_of_le (by omega)]
    rw [hp, ← hsp, ← hx]
  · left
    have : n = l.length := by omega
    subst this
    rw [List.take_length]
    exact ⟨rfl, by simp [payloadAfter]⟩

theorem wellFormed_of {k : Byte} {typ : MsgType} {d a payload : Bytes}
    (h : (d = a ++ b!"\n" ∧ payload = []) ∨ d = a ++ c!" " :: payload ++ b!"\n") :
    WellFormed (k :: typ.bytes ++ c!" " :: d) k typ (c!" " :: a) payload := by
  rcases h with ⟨rfl, rfl⟩ | rfl
  · left; simp
  · right; simp

theorem sid_unmarshal_ok {s : Bytes} {id : SID} (h : SID.unmarshal s = .ok id) : id.bytes = s := by
  rw [SID.unmarshal] at h
  split at h
  · cases h; rfl
  · cases h

theorem info_inv {typ : MsgType} {d : Bytes} {pk : Packet} (h : unmarshalInfo typ d = .ok pk) :
    pk = .info (.raw typ d.dropLast) ∧ 1 ≤ d.length := by
  unfold unmarshalInfo at h
  split at h
  · cases h
  · split at h
    · cases h
    · cases h; exact ⟨rfl, by omega⟩

theorem hub_inv {typ : MsgType} {d : Bytes} {pk : Packet} (h : unmarshalHub typ d = .ok pk) :
    pk = .hub (.raw typ d.dropLast) ∧ 1 ≤ d.length := by
  unfold unmarshalHub at h
  split at h
  · cases h
  · split at h
    · cases h
    · cases h; exact ⟨rfl, by omega⟩

theorem client_inv {typ : MsgType} {d : Bytes} {pk : Packet} (h : unmarshalClient typ d = .ok pk) :
    pk = .client (.raw typ d.dropLast) ∧ 1 ≤ d.length := by
  unfold unmarshalClient at h
  split at h
  · cases h
  · split at h
    · cases h
    · cases h; exact ⟨rfl, by omega⟩

theorem broadcast_inv {typ : MsgType} {d : Bytes} {pk : Packet} (h : unmarshalBroadcast typ d = .ok pk) :
    ∃ id, pk = .broadcast id (.raw typ (payloadAfter d.dropLast 4)) ∧ 4 ≤ d.length ∧ ¬ badSep d 4 ∧ id.bytes = d.take 4 := by
  unfold unmarshalBroadcast at h
  split at h
  · cases h
  · split at h
    · cases h
    · split at h
      · cases h
      · rename_i h1 h2 h3
        obtain ⟨id, h4, h5⟩ := Res.bind_eq_ok.mp h
        cases h5
        exact ⟨id, rfl, by omega, h3, sid_unmarshal_ok h4⟩

theorem pair_inv {typ : MsgType} {d : Bytes} {pk : Packet} {mk : SID → SID → Msg → Packet} (h : unmarshalPair typ d mk = .ok pk) :
    ∃ id to, pk = mk id to (.raw typ (payloadAfter d.dropLast 9)) ∧ 9 ≤ d.length ∧ d[4]? = some c!" " ∧ ¬ badSep d 9 ∧
      id.bytes = d.take 4 ∧ to.bytes = (d.drop 5).take 4 := by
  unfold unmarshalPair at h
  split at h
  · cases h
  · split at h
    · cases h
    · split at h
      · cases h
      · split at h
        · cases h
        · rename_i h1 h2 h3 h4
          obtain ⟨id, h5, h6⟩ := Res.bind_eq_ok.mp h
          obtain ⟨to, h7, h8⟩ := Res.bind_eq_ok.mp h6
          cases h8
          exact ⟨id, to, rfl, by omega, by simpa using h3, h4, sid_unmarshal_ok h5, sid_unmarshal_ok h7⟩

theorem feature_inv {room : Nat} {typ : MsgType} {d : Bytes} {pk : Packet} (h : unmarshalFeature room typ d = .ok pk) :
    ∃ id sel rest, pk = .feature id sel (.raw typ rest) ∧ 4 ≤ d.length ∧ ¬ badSep d 4 ∧ id.bytes = d.take 4 ∧
      selLoop (room + 1) [] (payloadAfter d.dropLast 4) 0 = .ok (sel, rest) := by
  unfold unmarshalFeature at h
  split at h
  · cases h
  · split at h
    · cases h
    · split at h
      · cases h
      · rename_i h1 h2 h3
        obtain ⟨id, h4, h5⟩ := Res.bind_eq_ok.mp h
        obtain ⟨⟨sel, rest⟩, h6, h7⟩ := Res.bind_eq_ok.mp h5
        cases h7
        exact ⟨id, sel, rest, rfl, by omega, h3, sid_unmarshal_ok h4, h6⟩

theorem udp_inv {typ : MsgType} {d : Bytes} {pk : Packet} (h : unmarshalUdp typ d = .ok pk) :
    ∃ id, pk = .udp id (.raw typ (payloadAfter d.dropLast 39)) ∧ 39 ≤ d.length ∧ ¬ badSep d 39 ∧ Hash.fromBase32 (d.take 39) = .ok id := by
  unfold unmarshalUdp at h
  split at h
  · cases h
  · split at h
    · cases h
    · split at h
      · cases h
      · rename_i h1 h2 h3
        split at h
        · cases h
        · cases h
        · rename_i id h4
          cases h
          exact ⟨id, rfl, by omega, h3, h4⟩

/-- The kind of the packet is that of the line, and the packet was decoded by the function for its kind. -/
theorem kind_inv {room : Nat} {k : Byte} {typ : MsgType} {d : Bytes} {pk : Packet} (h : unmarshalKind room k typ d = some (.ok pk)) :
    pk.kind = k := by
  unfold unmarshalKind at h
  split at h
  · simp only [Option.some.injEq] at h; obtain ⟨rfl, _⟩ := info_inv h; simp [Packet.kind, *]
  split at h
  · simp only [Option.some.injEq] at h; obtain ⟨rfl, _⟩ := hub_inv h; simp [Packet.kind, *]
  split at h
  · simp only [Option.some.injEq] at h; obtain ⟨_, _, rfl, _⟩ := pair_inv h; simp [Packet.kind, *]
  split at h
  · simp only [Option.some.injEq] at h; obtain ⟨_, _, rfl, _⟩ := pair_inv h; simp [Packet.kind, *]
  split at h
  · simp only [Option.some.injEq] at h; obtain ⟨_, rfl, _⟩ := broadcast_inv h; simp [Packet.kind, *]
  split at h
  · simp only [Option.some.injEq] at h; obtain ⟨_, _, _, rfl, _⟩ := feature_inv h; simp [Packet.kind, *]
  split at h
  · simp only [Option.some.injEq] at h; obtain ⟨rfl, _⟩ := client_inv h; simp [Packet.kind, *]
  split at h
  · simp only [Option.some.injEq] at h; obtain ⟨_, rfl, _⟩ := udp_inv h; simp [Packet.kind, *]
  · cases h

/-- The part of the line before the data is complete: the data is long enough to have come after a space. -/
theorem after_space {p d : Bytes} {k : Byte} {typ : MsgType} (hp : (p = k :: typ.bytes ++ b!"\n" ∧ d = b!"\n") ∨ (p = k :: typ.bytes ++ c!" " :: d ∧ IsLine d))
    (hd : 2 ≤ d.length) : p = k :: typ.bytes ++ c!" " :: d ∧ IsLine d := by
  rcases hp with ⟨_, rfl⟩ | h
  · simp at hd
  · exact h

/-- **C44.** A line accepted as a broadcast packet, with a source id that does not reach over the end of the line, is well-formed. -/
theorem broadcast_wellFormed_partial {room : Nat} {p : Bytes} {id : SID} {m : Msg} (hl : IsLine p)
    (h : decodePacketRaw room p = .ok (.broadcast id m)) (hid : c!"\n" ∉ id.bytes) :
    ∃ typ payload, m = .raw typ payload ∧ WellFormed p c!"B" typ (c!" " :: id.bytes) payload := by
  obtain ⟨k, typ, d, hk, _, hp⟩ := raw_ok h hl
  have hkind := kind_inv hk
  simp only [Packet.kind] at hkind
  subst hkind
  obtain ⟨id', he, h1, h2, h3⟩ := broadcast_inv (Option.some.inj hk)
  cases he
  obtain ⟨rfl, hd⟩ := after_space hp (by omega)
  rw [h3] at hid ⊢
  exact ⟨typ, _, rfl, wellFormed_of (address_split hd h1 h2 hid)⟩

theorem pair_split {d : Bytes} {id to : SID} (h1 : 9 ≤ d.length) (h2 : d[4]? = some c!" ") (h3 : id.bytes = d.take 4)
    (h4 : to.bytes = (d.drop 5).take 4) : d.take 9 = id.bytes ++ c!" " :: to.bytes := by
  have hlt : 4 < d.length := by omega
  have e : d[4] = c!" " := by rw [List.getElem?_eq_getElem hlt] at h2; exact Option.some.inj h2
  have : d.take 9 = d.take 4 ++ (d.drop 4).take 5 := by
    rw [show (9 : Nat) = 4 + 5 from rfl, List.take_add]
  rw [this, h3, h4, ← List.getElem_cons_drop hlt, List.take_succ_cons, e]

theorem isLine_take {d : Bytes} {n : Nat} (hl : IsLine d) (hn : n < d.length) : c!"\n" ∉ d.take n := by
  obtain ⟨l, rfl, h⟩ := hl
  rw [List.take_append_of_le_length (by simp at hn; omega)]
  exact fun hm => h (List.mem_of_mem_take hm)

theorem pair_wellFormed {d : Bytes} {k : Byte} {typ : MsgType} {id to : SID} (hd : IsLine d) (h1 : 9 ≤ d.length) (h2 : d[4]? = some c!" ")
    (h3 : ¬ badSep d 9) (h4 : id.bytes = d.take 4) (h5 : to.bytes = (d.drop 5).take 4) (hto : c!"\n" ∉ to.bytes) :
    WellFormed (k :: typ.bytes ++ c!" " :: d) k typ (c!" " :: (id.bytes ++ c!" " :: to.bytes)) (payloadAfter d.dropLast 9) := by
  have hs := pair_split h1 h2 h4 h5
  rw [← hs]
  refine wellFormed_of (address_split hd h1 h3 ?_)
  rw [hs]
  simp only [List.mem_append, List.mem_cons, not_or]
  refine ⟨?_, by decide, hto⟩
  rw [h4]
  exact isLine_take hd (by omega)

/-- **C44.** The same for direct packets: source and target are complete. -/
theorem direct_wellFormed_partial {room : Nat} {p : Bytes} {id to : SID} {m : Msg} (hl : IsLine p)
    (h : decodePacketRaw room p = .ok (.direct id to m)) (hto : c!"\n" ∉ to.bytes) :
    ∃ typ payload, m = .raw typ payload ∧ WellFormed p c!"D" typ (c!" " :: (id.bytes ++ c!" " :: to.bytes)) payload := by
  obtain ⟨k, typ, d, hk, _, hp⟩ := raw_ok h hl
  have hkind := kind_inv hk
  simp only [Packet.kind] at hkind
  subst hkind
  obtain ⟨id', to', he, h1, h2, h3, h4, h5⟩ := pair_inv (Option.some.inj hk)
  cases he
  obtain ⟨rfl, hd⟩ := after_space hp (by omega)
  exact ⟨typ, _, rfl, pair_wellFormed hd h1 h2 h3 h4 h5 hto⟩

/-- **C44.** The same for echo packets. -/
theorem echo_wellFormed_partial {room : Nat} {p : Bytes} {id to : SID} {m : Msg} (hl : IsLine p)
    (h : decodePacketRaw room p = .ok (.echo id to m)) (hto : c!"\n" ∉ to.bytes) :
    ∃ typ payload, m = .raw typ payload ∧ WellFormed p c!"E" typ (c!" " :: (id.bytes ++ c!" " :: to.bytes)) payload := by
  obtain ⟨k, typ, d, hk, _, hp⟩ := raw_ok h hl
  have hkind := kind_inv hk
  simp only [Packet.kind] at hkind
  subst hkind
  obtain ⟨id', to', he, h1, h2, h3, h4, h5⟩ := pair_inv (Option.some.inj hk)
  cases he
  obtain ⟨rfl, hd⟩ := after_space hp (by omega)
  exact ⟨typ, _, rfl, pair_wellFormed hd h1 h2 h3 h4 h5 hto⟩

/-- How selectors are read: spaces are skipped, `+` and `-` take the four bytes after them, anything else begins the payload. -/
inductive SelRead : Bytes → List FeatureSel → Bytes → Prop
  | done {d : Bytes} (h : SelPayload d) : SelRead d [] d
  | space {d : Bytes} {sel : List FeatureSel} {rest : Bytes} (h : SelRead d sel rest) : SelRead (c!" " :: d) sel rest
  | sel {d : Bytes} {sel : List FeatureSel} {rest : Bytes} (f : FeatureSel) (h : SelRead d sel rest) :
      SelRead ((if f.sel then c!"+" else c!"-") :: f.fea.bytes ++ d) (f :: sel) rest

theorem selAt_ok {room : Nat} {data : Bytes} {i : Nat} {fea : Feature} (h : selAt room data i = .ok fea) :
    i + 5 ≤ data.length ∧ fea.bytes = (data.drop (i + 1)).take 4 := by
  unfold selAt at h
  split at h
  · split at h <;> cases h
  · cases h; exact ⟨by omega, rfl⟩

theorem selLoop_read (room : Nat) (acc : List FeatureSel) (data : Bytes) (i : Nat) : (i < data.length ∨ data = []) →
    ∀ sel rest, selLoop room acc data i = .ok (sel, rest) → ∃ ss, sel = acc ++ ss ∧ SelRead (data.drop i) ss rest := by
  generalize hn : data.length - i = n
  induction n using Nat.strongRecOn generalizing acc data i with
  | _ n ih =>
    intro hi sel rest h
    rw [selLoop] at h
    split at h
    · rename_i hnone
      have hd : data = [] := by
        rcases hi with hi | hi
        · rw [List.getElem?_eq_getElem hi] at hnone; cases hnone
        · exact hi
      subst hd
      cases h
      exact ⟨[], by simp, by simpa using SelRead.done (by intro c hc; simp at hc)⟩
    · rename_i c hc
      obtain ⟨hlt, hce⟩ := List.getElem?_eq_some_iff.mp hc
      have hdrop : data.drop i = c :: data.drop (i + 1) := by rw [← List.getElem_cons_drop hlt, hce]
      split at h
      · rename_i hpm
        split at h
        · cases h
        · cases h
        · rename_i fea hfea
          obtain ⟨h1, h2⟩ := selAt_ok hfea
          have hf : c = (if (c == c!"+") then c!"+" else c!"-") := by
            rcases hpm with rfl | rfl <;> decide
          have hd4 : data.drop (i + 1) = fea.bytes ++ data.drop (i + 4 + 1) := by
            have := (List.take_append_drop 4 (data.drop (i + 1))).symm
            rw [List.drop_drop, ← h2, show i + 1 + 4 = i + 4 + 1 from by omega] at this
            exact this
          simp only at h
          split at h
          · rename_i hend
            cases h
            refine ⟨[⟨fea, c == c!"+"⟩], rfl, ?_⟩
            have : data.drop (i + 4 + 1) = [] := List.drop_eq_nil_of_le (by omega)
            rw [this] at hd4
            rw [hdrop, hd4]
            have := SelRead.sel ⟨fea, c == c!"+"⟩ (SelRead.done (d := []) (by intro c hc; simp at hc))
            simp only [← hf] at this
            exact this
          · rename_i hend
            obtain ⟨ss, h3, h4⟩ := ih _ (by omega) _ _ _ rfl (.inl (by omega)) _ _ h
            refine ⟨⟨fea, c == c!"+"⟩ :: ss, by rw [h3]; simp, ?_⟩
            rw [hdrop, hd4]
            have := SelRead.sel ⟨fea, c == c!"+"⟩ h4
            simp only [← hf] at this
            exact this
      · rename_i hpm
        split at h
        · rename_i hsp
          simp only at h
          split at h
          · rename_i hend
            cases h
            refine ⟨[], by simp, ?_⟩
            have : data.drop (i + 1) = [] := List.drop_eq_nil_of_le (by simp at hend; omega)
            rw [hdrop, this, hsp]
            exact .space (.done (by intro c hc; simp at hc))
          · rename_i hend
            obtain ⟨ss, h3, h4⟩ := ih _ (by simp at hend ⊢; omega) _ _ _ rfl (.inl (by simp at hend ⊢; omega)) _ _ h
            refine ⟨ss, h3, ?_⟩
            rw [List.drop_drop] at h4
            rw [hdrop, hsp]
            exact .space h4
        · rename_i hsp
          cases h
          refine ⟨[], by simp, ?_⟩
          refine .done ?_
          intro x hx
          rw [hdrop] at hx
          simp only [List.head?_cons, Option.some.injEq] at hx
          subst hx
          simp only [not_or] at hpm
          exact ⟨hpm.1, hpm.2, hsp⟩

/-- **C44.** Feature packets: the source is complete, and every selector has a sign and four bytes. -/
theorem feature_wellFormed_partial {room : Nat} {p : Bytes} {id : SID} {sel : List FeatureSel} {m : Msg} (hl : IsLine p)
    (h : decodePacketRaw room p = .ok (.feature id sel m)) (hid : c!"\n" ∉ id.bytes) :
    ∃ typ text payload, m = .raw typ payload ∧ WellFormed p c!"F" typ (c!" " :: id.bytes) text ∧ SelRead text sel payload := by
  obtain ⟨k, typ, d, hk, _, hp⟩ := raw_ok h hl
  have hkind := kind_inv hk
  simp only [Packet.kind] at hkind
  subst hkind
  obtain ⟨id', sel', rest, he, h1, h2, h3, h4⟩ := feature_inv (Option.some.inj hk)
  cases he
  obtain ⟨rfl, hd⟩ := after_space hp (by omega)
  rw [h3] at hid ⊢
  obtain ⟨ss, h5, h6⟩ := selLoop_read _ _ _ _ (by
    cases hx : payloadAfter d.dropLast 4 with
    | nil => exact .inr rfl
    | cons => exact .inl (by simp)) _ _ h4
  simp only [List.nil_append, List.drop_zero] at h5 h6
  subst h5
  exact ⟨typ, _, rest, rfl, wellFormed_of (address_split hd h1 h2 hid), h6⟩

/-- A text with a line end decodes to fewer bytes than a hash has. -/
theorem fromBase32_newline {s : Bytes} {id : Hash} (hl : s.length = 39) (h : Hash.fromBase32 s = .ok id) : c!"\n" ∉ s := by
  intro hm
  unfold Hash.fromBase32 at h
  split at h
  · rename_i b hb
    split at h
    · rename_i h24
      have h1 := Base32.decodeLoop_bits _ _ _ hb
      have h2 : (Base32.stripNewlines s).length < s.length := by
        unfold Base32.stripNewlines
        have := List.length_filter_lt_length_iff_exists (p := fun c : Byte => decide (c ≠ 13 ∧ c ≠ 10)) (l := s) |>.mpr ⟨c!"\n", hm, by decide⟩
        exact this
      omega
    · cases h
  · cases h
  · cases h

/-- **C44.** A line accepted as a UDP packet is well-formed: the id is a complete text of the id that was read. -/
theorem udp_wellFormed {room : Nat} {p : Bytes} {id : CID} {m : Msg} (hl : IsLine p)
    (h : decodePacketRaw room p = .ok (.udp id m)) :
    ∃ typ text payload, m = .raw typ payload ∧ text.length = 39 ∧ Hash.fromBase32 text = .ok id ∧
      WellFormed p c!"U" typ (c!" " :: text) payload := by
  obtain ⟨k, typ, d, hk, _, hp⟩ := raw_ok h hl
  have hkind := kind_inv hk
  simp only [Packet.kind] at hkind
  subst hkind
  obtain ⟨id', he, h1, h2, h3⟩ := udp_inv (Option.some.inj hk)
  cases he
  obtain ⟨rfl, hd⟩ := after_space hp (by omega)
  have hlen : (d.take 39).length = 39 := by rw [List.length_take]; omega
  exact ⟨typ, d.take 39, _, rfl, hlen, h3, wellFormed_of (address_split hd h1 h2 (fromBase32_newline hlen h3))⟩

/-- **C44 is false**: short lines are accepted, and the end of the line becomes part of an id. -/
theorem short_accepted : ∀ room,
    decodePacketRaw room b!"BINF AAA\n" = .ok (.broadcast ⟨b!"AAA\n", rfl⟩ (.raw ⟨b!"INF", rfl⟩ [])) ∧
    decodePacketRaw room b!"DCTM AAAA BBB\n" = .ok (.direct ⟨b!"AAAA", rfl⟩ ⟨b!"BBB\n", rfl⟩ (.raw ⟨b!"CTM", rfl⟩ [])) ∧
    decodePacketRaw room b!"EMSG AAAA BBB\n" = .ok (.echo ⟨b!"AAAA", rfl⟩ ⟨b!"BBB\n", rfl⟩ (.raw ⟨b!"MSG", rfl⟩ [])) := by
  intro room
  exact ⟨rfl, rfl, rfl⟩

/-- So it is with feature packets. -/
theorem short_feature_accepted : ∀ room,
    decodePacketRaw room b!"FSCH AAA\n" = .ok (.feature ⟨b!"AAA\n", rfl⟩ [] (.raw ⟨b!"SCH", rfl⟩ [])) := by
  intro room
  have h : selLoop (room + 1) [] [] 0 = .ok ([], []) := by rw [selLoop]; rfl
  show (selLoop (room + 1) [] [] 0 >>= fun x => Res.ok (Packet.feature ⟨b!"AAA\n", rfl⟩ x.1 (.raw ⟨b!"SCH", rfl⟩ x.2))) = _
  rw [h]; rfl

end Verif.Props.AdcPackets
