import Verif.Props.AdcPackets

/-!
# C45: panics while decoding ADC

Decoding a packet and its message can panic.  The theorems below say which lines and which commands are safe, and give a line for
every way to panic.
-/

namespace Verif.Props.AdcSafety

open Verif.Go Verif.Adc Verif.Tiger Verif.Spec Verif.Props.AdcText Verif.Props.AdcPackets Verif.Props.AdcMessages

variable [ParseFloat]

set_option linter.unusedSectionVars false

/-! ## Packets -/

theorem sid_ne_panic (s : Bytes) : SID.unmarshal s ≠ .panic := by
  unfold SID.unmarshal; split <;> simp

theorem selAt_ne_panic {room : Nat} (hr : 4 ≤ room) {data : Bytes} {i : Nat} (hi : i < data.length) : selAt room data i ≠ .panic := by
  unfold selAt
  split
  · rw [if_neg (by omega)]; simp
  · simp

theorem selLoop_ne_panic {room : Nat} (hr : 4 ≤ room) (acc : List FeatureSel) (data : Bytes) (i : Nat) :
    selLoop room acc data i ≠ .panic := by
  generalize hn : data.length - i = n
  induction n using Nat.strongRecOn generalizing acc data i with
  | _ n ih =>
    rw [selLoop]
    split
    · simp
    · rename_i c hc
      have hlt := (List.getElem?_eq_some_iff.mp hc).1
      split
      · split
        · rename_i hp; exact absurd hp (selAt_ne_panic hr hlt)
        · simp
        · simp only
          split
          · simp
          · exact ih _ (by omega) _ _ _ rfl
      · split
        · simp only
          split
          · simp
          · rename_i hne
            exact ih _ (by simp at hne ⊢; omega) _ _ _ rfl
        · simp

/-- Decoding a line as a packet does not panic if it is not a feature packet, or if three bytes of the buffer are free after the line. -/
theorem raw_no_panic_partial (room : Nat) (p : Bytes) (h : p.head? ≠ some c!"F" ∨ 3 ≤ room) : decodePacketRaw room p ≠ .panic := by
  unfold decodePacketRaw
  split
  · simp
  · rename_i hlen
    split
    · simp
    · simp only
      obtain ⟨a, b, c, d, e, r, rfl⟩ := five_or_more hlen
      simp only [List.head?_cons, ne_eq, Option.some.injEq] at h
      -- the data is not empty when the rest of the checks pass
      have key : ∀ (typ : MsgType) (dd : Bytes) (res : Res Packet), unmarshalKind room a typ dd = some res → (dd ≠ [] ∨ a ≠ c!"I") →
          res ≠ .panic := by
        intro typ dd res hres hdd
        unfold unmarshalKind at hres
        have hpair : ∀ mk, unmarshalPair typ dd mk ≠ .panic := by
          intro mk
          unfold unmarshalPair
          repeat' split
          all_goals first
            | (simp; done)
            | exact Res.bind_ne_panic (sid_ne_panic _) (fun _ _ => Res.bind_ne_panic (sid_ne_panic _) (fun _ _ => by simp))
        split at hres
        · rename_i hI
          cases hres
          unfold unmarshalInfo
          split
          · simp
          · split
            · rename_i h0
              rcases hdd with hdd | hdd
              · exact absurd (List.length_eq_zero_iff.mp h0) hdd
              · exact absurd hI hdd
            · simp
        split at hres
        · cases hres; unfold unmarshalHub; repeat' split
          all_goals simp
        split at hres
        · cases hres; exact hpair _
        split at hres
        · cases hres; exact hpair _
        split at hres
        · cases hres
          unfold unmarshalBroadcast
          repeat' split
          all_goals first | (simp; done) | exact Res.bind_ne_panic (sid_ne_panic _) (fun _ _ => by simp)
        split at hres
        · rename_i hF
          cases hres
          have hr : 4 ≤ room + 1 := by
            rcases h with h | h
            · exact absurd hF h
            · omega
          unfold unmarshalFeature
          repeat' split
          all_goals first
            | (simp; done)
            | exact Res.bind_ne_panic (sid_ne_panic _) (fun _ _ => Res.bind_ne_panic (selLoop_ne_panic hr _ _ _) (fun x _ => by simp))
        split at hres
        · cases hres; unfold unmarshalClient; repeat' split
          all_goals simp
        split at hres
        · cases hres
          unfold unmarshalUdp
          repeat' split
          all_goals first
            | (simp; done)
            | (rename_i hp; exact absurd hp (Identifiers.fromBase32_ne_panic _))
        · cases hres
      split
      · simp
      · rename_i res hres
        split
        · simp
        · rename_i hlast
          split
          · simp
          · rename_i hsep
            refine key _ _ res hres ?_
            left
            simp only [List.getElem?_cons_succ, List.getElem?_cons_zero, Option.some.injEq, List.drop_succ_cons, List.drop_zero]
            split
            · rename_i he
              subst he
              intro hr
              subst hr
              exact hlast (by simp at hlast)
            · simp

example : decodePacketRaw 0 b!"BMSG AAAA hi\n" ≠ .panic := raw_no_panic_partial 0 _ (.inl (by decide))

/-- A short selector at the end of the line panics when the buffer ends there; otherwise it is reported. -/
theorem short_selector_panics : decodePacketRaw 0 b!"FSCH AAAA +AB\n" = .panic ∧
    decodePacketRaw 3 b!"FSCH AAAA +AB\n" = .err (.other 123) := by
  constructor
  · show (selLoop 1 [] b!"+AB" 0 >>= fun x => Res.ok (Packet.feature ⟨b!"AAAA", rfl⟩ x.1 (.raw ⟨b!"SCH", rfl⟩ x.2))) = _
    have : selLoop 1 [] b!"+AB" 0 = .panic := by rw [selLoop]; rfl
    rw [this]; rfl
  · show (selLoop 4 [] b!"+AB" 0 >>= fun x => Res.ok (Packet.feature ⟨b!"AAAA", rfl⟩ x.1 (.raw ⟨b!"SCH", rfl⟩ x.2))) = _
    have : selLoop 4 [] b!"+AB" 0 = .err (.other 123) := by rw [selLoop]; rfl
    rw [this]; rfl

/-- Called on its own, the decoder of `InfoPacket` panics on empty data. -/
theorem info_empty_panics (name : MsgType) : unmarshalInfo name [] = .panic := rfl

/-! ## Values -/

/-- No hash that is read by the method `UnmarshalBase32`. -/
def noHash : Kind → Bool
  | .tth => false
  | .ptr k => noHash k
  | .slice k => noHash k
  | _ => true

theorem unmarshalInt_ne_panic (s : Bytes) (cur : Int) : unmarshalInt s cur ≠ .panic := by
  unfold unmarshalInt
  split
  · simp
  · rename_i h; exact absurd h (parseInt_ne_panic _ _)
  · split <;> simp

theorem feature_ne_panic (s : Bytes) : Feature.unmarshal s ≠ .panic := by
  unfold Feature.unmarshal; split <;> simp

theorem feats_ne_panic (sub : List Bytes) : ∀ arr, ExtFeatures.unmarshalLoop arr sub ≠ .panic := by
  induction sub with
  | nil => intro arr; simp [ExtFeatures.unmarshalLoop]
  | cons s sub ih =>
    intro arr
    rw [ExtFeatures.unmarshalLoop]
    exact Res.bind_ne_panic (feature_ne_panic _) (fun _ _ => ih _)

theorem path_ne_panic (sub : List Bytes) : ∀ p, Path.unmarshalLoop p sub ≠ .panic := by
  induction sub with
  | nil => intro arr; simp [Path.unmarshalLoop]
  | cons s sub ih =>
    intro arr
    rw [Path.unmarshalLoop]
    exact Res.bind_ne_panic (by simp [String.unmarshal]) (fun _ _ => ih _)

theorem features_ne_panic (s : Bytes) (cur : ExtFeatures) : ExtFeatures.unmarshal s cur ≠ .panic := by
  unfold ExtFeatures.unmarshal
  split
  · simp
  · exact feats_ne_panic _ _

theorem value_ne_panic (s : Bytes) : ∀ (k : Kind) (cur : k.T), (noHash k = true ∨ s.length ≤ 39) → unmarshalValue s k cur ≠ .panic := by
  intro k
  induction k with
  | str => intro cur _; simp only [unmarshalValue]; split <;> simp
  | int =>
    intro cur _
    show (if s.length = 0 then Res.ok (0 : Int) else unmarshalInt s cur) ≠ .panic
    split
    · simp
    · exact unmarshalInt_ne_panic _ _
  | bool => intro cur _; simp only [unmarshalValue]; repeat' split
            all_goals simp
  | sid => intro cur _; exact sid_ne_panic s
  | cid => intro cur _; exact Identifiers.fromBase32_ne_panic s
  | tth =>
    intro cur h
    rcases h with h | h
    · simp [noHash] at h
    · exact Identifiers.unmarshalBase32_ne_panic_partial h
  | feats => intro cur _; exact features_ne_panic s cur
  | path => intro cur _; exact path_ne_panic _ _
  | ptr k ih =>
    intro cur h
    simp only [unmarshalValue]
    split
    · simp
    · have := ih k.zero (by simpa [noHash] using h)
      cases hv : unmarshalValue s k k.zero with
      | ok v => simp [Res.bind]
      | err e => simp [Res.bind]
      | panic => exact absurd hv this
  | slice k _ => intro cur _; simp only [unmarshalValue]; split <;> simp

theorem slice_ne_panic (k : Kind) (vals : List Bytes) (h : ∀ s ∈ vals, noHash k = true ∨ s.length ≤ 39) :
    unmarshalSlice k vals ≠ .panic := by
  induction vals with
  | nil => simp [unmarshalSlice]
  | cons s vals ih =>
    rw [unmarshalSlice]
    refine Res.bind_ne_panic (value_ne_panic s k _ (h s (by simp))) (fun _ _ => ?_)
    exact Res.bind_ne_panic (ih (fun x hx => h x (by simp [hx]))) (fun _ _ => by simp)

theorem tagged_ne_panic (k : Kind) (cur : k.T) (vals : List Bytes) (h : ∀ s ∈ vals, noHash k = true ∨ s.length ≤ 39) :
    unmarshalTagged vals k cur ≠ .panic := by
  cases vals with
  | nil => rw [unmarshalTagged_nil]; simp
  | cons s rest =>
    by_cases hs : ∃ k', k = .slice k'
    · obtain ⟨k', rfl⟩ := hs
      exact slice_ne_panic k' (s :: rest) (by simpa [noHash] using h)
    · have hv := value_ne_panic s k cur (h s (by simp))
      have e : unmarshalTagged (s :: rest) k cur =
          if k.custom then unmarshalValue s k cur else if rest.length > 0 then .err (.other 104) else unmarshalValue s k cur := by
        cases k <;> first | rfl | exact absurd ⟨_, rfl⟩ hs
      rw [e]
      split
      · exact hv
      · split
        · simp
        · exact hv

theorem mem_taggedVals {tag : Bytes} {sub : List Bytes} {v : Bytes} (h : v ∈ taggedVals tag sub) : ∃ s ∈ sub, v = s.drop tag.length := by
  induction sub with
  | nil => simp [taggedVals] at h
  | cons s sub ih =>
    rw [taggedVals] at h
    split at h
    · rcases List.mem_cons.mp h with rfl | h
      · exact ⟨s, by simp, rfl⟩
      · obtain ⟨x, hx, rfl⟩ := ih h; exact ⟨x, by simp [hx], rfl⟩
    · obtain ⟨x, hx, rfl⟩ := ih h; exact ⟨x, by simp [hx], rfl⟩

/-- The number of fields with a position. -/
def positional (fs : List Fld) : Nat := (fs.filter (fun f => f.tag == b!"#")).length

/-- Enough parts for the fields with a position, and short parts or no hashes: no panic. -/
theorem fields_ne_panic : ∀ (fs : List Fld) (sub : List Bytes) (row : Row fs), positional fs ≤ sub.length →
    (∀ s ∈ sub, (∀ f ∈ fs, noHash f.kind = true) ∨ s.length ≤ 39) → unmarshalFields fs sub row ≠ .panic := by
  intro fs
  induction fs with
  | nil => intro sub row _ _; simp [unmarshalFields]
  | cons f fs ih =>
    rintro sub ⟨cur, row⟩ hp hs
    have hs' : ∀ s ∈ sub, (∀ g ∈ fs, noHash g.kind = true) ∨ s.length ≤ 39 := by
      intro s hm
      rcases hs s hm with h | h
      · exact .inl (fun g hg => h g (by simp [hg]))
      · exact .inr h
    have hf : ∀ s ∈ sub, noHash f.kind = true ∨ s.length ≤ 39 := by
      intro s hm
      rcases hs s hm with h | h
      · exact .inl (h f (by simp))
      · exact .inr h
    by_cases htag : f.tag = b!"#"
    · have hpc : positional (f :: fs) = positional fs + 1 := by
        simp [positional, htag]
      cases sub with
      | nil => rw [hpc] at hp; simp at hp
      | cons v sub =>
        simp only [unmarshalFields, if_pos htag]
        refine Res.bind_ne_panic (value_ne_panic v f.kind cur (hf v (by simp))) (fun _ _ => ?_)
        refine Res.bind_ne_panic (ih sub row (by rw [hpc] at hp; simpa using hp) (fun s hm => hs' s (by simp [hm]))) (fun _ _ => by simp)
    · have hpc : positional (f :: fs) = positional fs := by
        have : (f.tag == b!"#") = false := by simpa using htag
        simp [positional, this]
      simp only [unmarshalFields, if_neg htag]
      refine Res.bind_ne_panic (tagged_ne_panic f.kind cur _ ?_) (fun _ _ => ?_)
      · intro v hv
        obtain ⟨s, hm, rfl⟩ := mem_taggedVals hv
        rcases hf s hm with h | h
        · exact .inl h
        · exact .inr (by rw [List.length_drop]; omega)
      · exact Res.bind_ne_panic (ih sub row (by omega) hs') (fun _ _ => by simp)

/-! ## Messages -/

theorem get_ne_panic (data : Bytes) (cur : GetRequest) : GetRequest.unmarshal data cur ≠ .panic := by
  unfold GetRequest.unmarshal
  repeat' (first | split | simp only)
  all_goals first
    | (rename_i h; exact absurd h (parseInt_ne_panic _ _))
    | simp

theorem status_ne_panic (s : Bytes) : Status.unmarshal s ≠ .panic := by
  have h : ∃ c rest, splitMax s c!" " 2 = c :: rest := by
    simp only [splitMax]
    split
    · exact ⟨_, _, rfl⟩
    · exact ⟨_, _, rfl⟩
  obtain ⟨c, rest, h⟩ := h
  unfold Status.unmarshal
  simp only [h]
  split
  · simp
  · rename_i hp; exact absurd hp (parseInt_ne_panic _ _)
  · simp

theorem salt_ne_panic (data : Bytes) : GetPassword.unmarshal data ≠ .panic := by
  unfold GetPassword.unmarshal
  simp only
  have : Base32.decode (data.length * 5 / 8) data ≠ .panic := by
    unfold Base32.decode
    apply Base32.decodeLoop_ne_panic
    have : (Base32.stripNewlines data).length ≤ data.length := List.length_filter_le _ _
    omega
  split
  · simp
  · simp
  · rename_i h; exact absurd h this

theorem fieldsLoop_ne_panic (sub : List Bytes) : ∀ mp, Fields.unmarshalLoop mp sub ≠ .panic := by
  induction sub with
  | nil => intro mp; simp [Fields.unmarshalLoop]
  | cons v sub ih =>
    intro mp
    rw [Fields.unmarshalLoop]
    split
    · simp
    · simp only [String.unmarshal]; exact ih _

theorem modAssign_ne_panic (st : Bool) (names : List Bytes) : ∀ m, modAssign m st names ≠ .panic := by
  induction names with
  | nil => intro m; simp [modAssign]
  | cons n names ih =>
    intro m
    rw [modAssign]
    exact Res.bind_ne_panic (feature_ne_panic _) (fun _ _ => ih _)

theorem split_length (s : Bytes) (c : Byte) : 1 ≤ (split s c).length :=
  List.length_pos_iff.mpr (split_ne_nil s c)

theorem mod_ne_panic (s : Bytes) (cur : ModFeatures) : ModFeatures.unmarshal s cur ≠ .panic := by
  unfold ModFeatures.unmarshal
  refine Res.bind_ne_panic ?_ (fun _ _ => Res.bind_ne_panic (modAssign_ne_panic _ _ _) (fun _ _ =>
    Res.bind_ne_panic (modAssign_ne_panic _ _ _) (fun _ _ => by simp)))
  refine fields_ne_panic modFields _ _ (Nat.zero_le _) (fun s _ => .inl ?_)
  intro f hf
  simp only [modFields, List.mem_cons, List.not_mem_nil, or_false] at hf
  rcases hf with rfl | rfl <;> rfl

/-- The types whose decoding can panic: those with more than one position, and those with a hash. -/
def unsafeTypes : List StructType := [.revConnect, .connect, .getInfo, .password, .search, .result]

theorem safe_table : ∀ t : StructType, t ∉ unsafeTypes → positional t.fields ≤ 1 ∧ ∀ f ∈ t.fields, noHash f.kind = true := by
  intro t ht
  have : (decide (positional t.fields ≤ 1) && t.fields.all (fun f => noHash f.kind)) = true := by
    cases t <;> first | exact absurd (by decide) ht | decide +kernel
  simpa using this

/-- Messages without those: no payload makes the decoder panic. -/
theorem message_no_panic_partial (m : Msg) (data : Bytes) (h : ∀ t row, m = .struct t row → t ∉ unsafeTypes) :
    m.unmarshalTo data ≠ .panic := by
  cases m with
  | raw => simp [Msg.unmarshalTo]
  | zon => simp [Msg.unmarshalTo]
  | zoff => simp [Msg.unmarshalTo]
  | supported f => exact Res.bind_ne_panic (mod_ne_panic _ _) (fun _ _ => by simp)
  | status s => exact Res.bind_ne_panic (status_ne_panic _) (fun _ _ => by simp)
  | get r => exact Res.bind_ne_panic (get_ne_panic _ _) (fun _ _ => by simp)
  | snd r => exact Res.bind_ne_panic (get_ne_panic _ _) (fun _ _ => by simp)
  | sidAssign id => exact Res.bind_ne_panic (sid_ne_panic _) (fun _ _ => by simp)
  | getPassword s => exact Res.bind_ne_panic (salt_ne_panic _) (fun _ _ => by simp)
  | infoMod f =>
    refine Res.bind_ne_panic ?_ (fun _ _ => by simp)
    unfold Fields.unmarshal
    split
    · simp
    · exact fieldsLoop_ne_panic _ _
  | struct t row =>
    obtain ⟨h1, h2⟩ := safe_table t (h t row rfl)
    refine Res.bind_ne_panic ?_ (fun _ _ => by simp)
    exact fields_ne_panic t.fields _ _ (Nat.le_trans h1 (split_length _ _)) (fun _ _ => .inl h2)

/-- The remaining types do not panic on payloads with enough parts, none of them longer than a hash. -/
theorem struct_no_panic_partial (t : StructType) (row : Row t.fields) (data : Bytes) (h1 : positional t.fields ≤ (split data c!" ").length)
    (h2 : ∀ s ∈ split data c!" ", s.length ≤ 39) : (Msg.struct t row).unmarshalTo data ≠ .panic := by
  refine Res.bind_ne_panic ?_ (fun _ _ => by simp)
  exact fields_ne_panic t.fields _ _ h1 (fun s hs => .inr (h2 s hs))

/-- The commands whose payload can make the decoder panic. -/
theorem panic_commands {typ : MsgType} {data : Bytes} (h : unmarshalMessage typ data = .panic) :
    typ.bytes ∈ [b!"RCM", b!"CTM", b!"GFI", b!"PAS", b!"SCH", b!"RES"] := by
  unfold unmarshalMessage at h
  split at h
  · cases h
  · rename_i z hz
    have hc : z.cmd = typ := by simpa using List.find?_some hz
    by_cases hs : ∃ t row, z = .struct t row ∧ t ∈ unsafeTypes
    · obtain ⟨t, row, rfl, ht⟩ := hs
      rw [← hc]
      simp only [unsafeTypes, List.mem_cons, List.not_mem_nil, or_false] at ht
      rcases ht with rfl | rfl | rfl | rfl | rfl | rfl <;> simp [Msg.cmd, StructType.cmd]
    · refine absurd h (message_no_panic_partial z data ?_)
      intro t row he ht
      exact hs ⟨t, row, he, ht⟩

/-- A line is decoded without panic if its packet is and its command is none of those. -/
theorem line_no_panic_partial (room : Nat) (p : Bytes) (h : p.head? ≠ some c!"F" ∨ 3 ≤ room)
    (hc : ∀ m, decodePacketRaw room p = .ok m → m.message.cmd.bytes ∉ [b!"RCM", b!"CTM", b!"GFI", b!"PAS", b!"SCH", b!"RES"]) :
    decodePacket room p ≠ .panic := by
  unfold decodePacket
  refine Res.bind_ne_panic (raw_no_panic_partial room p h) (fun m hm => Res.bind_ne_panic ?_ (fun _ _ => by simp))
  have := hc m hm
  revert this
  cases m.message with
  | raw typ data => exact fun this hp => this (panic_commands hp)
  | _ => simp [decodeMessage]

example : decodePacket 0 b!"BMSG AAAA hi\n" ≠ .panic :=
  line_no_panic_partial 0 _ (.inl (by decide)) (fun m hm => by
    have : decodePacketRaw 0 b!"BMSG AAAA hi\n" = .ok (.broadcast ⟨b!"AAAA", rfl⟩ (.raw ⟨b!"MSG", rfl⟩ b!"hi")) := rfl
    rw [this] at hm; cases hm; decide)

example (row : Row StructType.connect.fields) : (Msg.struct .connect row).unmarshalTo b!"ADC/1.0 3000 tok" ≠ .panic :=
  struct_no_panic_partial _ _ _ (by decide) (by decide)

/-- A connection request without all its parts panics; so does a file request. -/
theorem missing_part_panics (data : Bytes) (h : c!" " ∉ data) :
    unmarshalMessage ⟨b!"RCM", rfl⟩ data = .panic ∧ unmarshalMessage ⟨b!"CTM", rfl⟩ data = .panic ∧
      unmarshalMessage ⟨b!"GFI", rfl⟩ data = .panic := by
  have hs := split_of_not_mem h
  have hstr : ∀ cur : Bytes, ∃ x, unmarshalValue data .str cur = .ok x := by
    intro cur
    show ∃ x, (if data.length = 0 then Res.ok ([] : Bytes) else .ok (unescape data)) = .ok x
    split <;> exact ⟨_, rfl⟩
  obtain ⟨x, hx⟩ := hstr []
  have e2 : ∀ fs : List Fld, ∀ f g : Fld, f.tag = b!"#" → g.tag = b!"#" → ∀ (c : f.kind.T) (r : Row (g :: fs)) (y : f.kind.T),
      unmarshalValue data f.kind c = .ok y → unmarshalFields (f :: g :: fs) [data] (c, r) = .panic := by
    intro fs f g hf hg c r y hy
    have h0 : unmarshalFields (g :: fs) [] r = .panic := by
      obtain ⟨c', r'⟩ := r
      simp [unmarshalFields, if_pos hg]
    simp only [unmarshalFields, if_pos hf, hy, Res.ok_bind]
    rw [h0]
    rfl
  refine ⟨?_, ?_, ?_⟩
  · show (unmarshalRow StructType.revConnect.fields data (Row.zero _) >>= fun row => Res.ok (Msg.struct .revConnect row)) = _
    rw [unmarshalRow, hs]
    have := e2 [] ⟨"Proto", b!"#", false, .str⟩ ⟨"Token", b!"#", false, .str⟩ rfl rfl ([] : Bytes) (([] : Bytes), ()) x hx
    have e : unmarshalFields StructType.revConnect.fields [data] (Row.zero _) = .panic := this
    rw [e]; rfl
  · show (unmarshalRow StructType.connect.fields data (Row.zero _) >>= fun row => Res.ok (Msg.struct .connect row)) = _
    rw [unmarshalRow, hs]
    have := e2 [⟨"Token", b!"#", false, .str⟩] ⟨"Proto", b!"#", false, .str⟩ ⟨"Port", b!"#", false, .int⟩ rfl rfl ([] : Bytes) ((0 : Int), ([] : Bytes), ()) x hx
    have e : unmarshalFields StructType.connect.fields [data] (Row.zero _) = .panic := this
    rw [e]; rfl
  · show (unmarshalRow StructType.getInfo.fields data (Row.zero _) >>= fun row => Res.ok (Msg.struct .getInfo row)) = _
    rw [unmarshalRow, hs]
    have := e2 [] ⟨"Type", b!"#", false, .str⟩ ⟨"Path", b!"#", false, .str⟩ rfl rfl ([] : Bytes) (([] : Bytes), ()) x hx
    have e : unmarshalFields StructType.getInfo.fields [data] (Row.zero _) = .panic := this
    rw [e]; rfl

/-- **C45 is false.** Lines that panic: a short connection request, a long password hash, a search or a result with a long tree hash. -/
theorem lines_panic : ∀ room,
    decodePacket room b!"CRCM x\n" = .panic ∧ decodePacket room b!"DCTM AAAA BBBB x\n" = .panic ∧
    decodePacket room b!"CGFI x\n" = .panic ∧
    decodePacket room (b!"HPAS " ++ List.replicate 40 c!"A" ++ b!"\n") = .panic ∧
    decodePacket room (b!"BSCH AAAA TR" ++ List.replicate 40 c!"A" ++ b!"\n") = .panic ∧
    decodePacket room (b!"DRES AAAA BBBB TR" ++ List.replicate 40 c!"A" ++ b!"\n") = .panic := by
  intro room
  refine ⟨rfl, rfl, rfl, ?_, ?_, ?_⟩ <;> with_unfolding_all rfl

end Verif.Props.AdcSafety
