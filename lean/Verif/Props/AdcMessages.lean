import Verif.Adc.Messages
import Verif.Adc.MarshalLemmas
import Verif.Props.Identifiers

/-!
# C42, C49, C50, C51: ADC messages

`RowOk` (in `Verif/Adc/MarshalLemmas.lean`) says of every field of a struct what has to hold for it to come back: nothing for
text and hashes, 64 bits for numbers, no separators inside session ids and features, `true` for booleans that are written, and a
value with a text for pointers.  Fields that are zero and may be left out are always fine.
-/

namespace Verif.Props.AdcMessages

open Verif.Go Verif.Adc Verif.Tiger Verif.Spec Verif.Props.AdcText

variable [ParseFloat]

set_option linter.unusedSectionVars false

/-! ## C42: structs -/

/-- All struct types have tables that can be read: positions first, then distinct tags of two bytes. -/
theorem tables_good : ∀ t : StructType, goodTable t.fields = true := by
  intro t; cases t <;> decide +kernel

/-- The struct types come back. -/
theorem struct_roundtrip (t : StructType) (row : Row t.fields) (h : RowOk t.fields row) :
    ∃ b, (Msg.struct t row).marshal = .ok b ∧ t.new.unmarshalTo b = .ok (.struct t row) := by
  obtain ⟨b, h1, h2⟩ := row_roundtrip t.fields (tables_good t) row h
  refine ⟨b, h1, ?_⟩
  simp only [StructType.new, Msg.unmarshalTo, h2, Res.ok_bind]

/-- A chat message with a private target, an action flag and a time satisfies the conditions; and so does an empty one. -/
example : RowOk StructType.chat.fields (b!"hi there", some ⟨b!"AAAB", rfl⟩, true, (5 : Int), ()) ∧
    RowOk StructType.chat.fields (Row.zero StructType.chat.fields) := by
  refine ⟨⟨.inr trivial, .inr ⟨_, rfl, ?_, ?_⟩, .inr rfl, .inr ⟨?_, ?_⟩, trivial⟩,
    .inr trivial, .inl ⟨rfl, rfl⟩, .inl ⟨rfl, rfl⟩, .inl ⟨rfl, rfl⟩, trivial⟩
  · show c!" " ∉ b!"AAAB"; decide
  · show Res.ok b!"AAAB" ≠ .ok []; decide
  · decide
  · decide

example : (Msg.struct .chat (b!"hi there", some ⟨b!"AAAB", rfl⟩, true, (5 : Int), ())).marshal = .ok b!"hi\\sthere PMAAAB ME1 TS5" := by
  decide +kernel

/-- A search for two words without one, with a size, satisfies the conditions. -/
example : RowOk StructType.search.fields ((b!"tok", [b!"one two", b!"three"], [b!"bad"], [], (10 : Int), (0 : Int), (0 : Int), (1 : Int),
    (none : Option Hash), (0 : Int), [], ()) : Row StructType.search.fields) := by
  refine ⟨.inr trivial, .inr (fun _ _ => trivial), .inr (fun _ _ => trivial), .inl ⟨rfl, rfl⟩, .inr ⟨by decide, by decide⟩,
    .inl ⟨rfl, rfl⟩, .inl ⟨rfl, rfl⟩, .inr ⟨by decide, by decide⟩, .inl ⟨rfl, rfl⟩, .inl ⟨rfl, rfl⟩, .inl ⟨rfl, rfl⟩, trivial⟩

/-! ## C50: GET and SND -/

theorem cut {a rest : Bytes} {c : Byte} (h : c ∉ a) : indexByte (a ++ c :: rest) c = some a.length := indexByte_append h

theorem take_cut (a rest : Bytes) (c : Byte) : (a ++ c :: rest).take a.length = a := by simp

theorem drop_cut (a rest : Bytes) (c : Byte) : (a ++ c :: rest).drop (a.length + 1) = rest := by
  rw [List.drop_append]; simp

theorem itoa_no_space (n : Int) : c!" " ∉ itoa n := itoa_not_mem (by decide) (by decide)

/-- A request for a file comes back, whatever the type, path, start and length. -/
theorem get_roundtrip (r cur : GetRequest) (hs : IntOk r.start) (hb : IntOk r.bytes) (hc : cur.compressed = false) :
    GetRequest.unmarshal r.marshal cur = .ok r := by
  obtain ⟨typ, path, start, bytes, comp⟩ := r
  simp only at hs hb
  have e : GetRequest.marshal ⟨typ, path, start, bytes, comp⟩ =
      escape typ ++ c!" " :: (escape path ++ c!" " :: (itoa start ++ c!" " :: (itoa bytes ++ if comp then b!" ZL1" else []))) := by
    simp [GetRequest.marshal]
  rw [e, GetRequest.unmarshal, cut (escape_clean typ).1]
  simp only [take_cut, drop_cut]
  rw [cut (escape_clean path).1]
  simp only [take_cut, drop_cut]
  rw [cut (itoa_no_space start)]
  simp only [take_cut, drop_cut]
  rw [parseInt_itoa hs.1 hs.2]
  simp only [unescape_escape]
  cases comp
  · simp only [Bool.false_eq_true, if_false, List.append_nil]
    rw [indexByte_none.mpr (itoa_no_space bytes)]
    simp only
    rw [parseInt_itoa hb.1 hb.2]
    simp [hc]
  · simp only [if_true]
    have e2 : itoa bytes ++ b!" ZL1" = itoa bytes ++ c!" " :: b!"ZL1" := rfl
    rw [e2, cut (itoa_no_space bytes)]
    simp only [take_cut, drop_cut]
    rw [parseInt_itoa hb.1 hb.2]
    simp

example : GetRequest.unmarshal (GetRequest.marshal ⟨b!"file", b!"TTH/a b", 5, -1, true⟩) ⟨[], [], 0, 0, false⟩ =
    .ok ⟨b!"file", b!"TTH/a b", 5, -1, true⟩ := by decide +kernel

/-- Decoding into a value that was used before keeps its flag `Compressed`. -/
theorem get_stale (r cur : GetRequest) (hs : IntOk r.start) (hb : IntOk r.bytes) (hn : r.compressed = false)
    (hc : cur.compressed = true) : GetRequest.unmarshal r.marshal cur = .ok { r with compressed := true } := by
  obtain ⟨typ, path, start, bytes, comp⟩ := r
  simp only at hs hb hn
  subst hn
  have e : GetRequest.marshal ⟨typ, path, start, bytes, false⟩ =
      escape typ ++ c!" " :: (escape path ++ c!" " :: (itoa start ++ c!" " :: itoa bytes)) := by
    simp [GetRequest.marshal]
  rw [e, GetRequest.unmarshal, cut (escape_clean typ).1]
  simp only [take_cut, drop_cut]
  rw [cut (escape_clean path).1]
  simp only [take_cut, drop_cut]
  rw [cut (itoa_no_space start)]
  simp only [take_cut, drop_cut]
  rw [parseInt_itoa hs.1 hs.2]
  simp only [unescape_escape]
  rw [indexByte_none.mpr (itoa_no_space bytes)]
  simp only
  rw [parseInt_itoa hb.1 hb.2]
  simp [hc]

/-! ## C49: status, salts, updates -/

/-- `%02d` of the numbers below a hundred: two digits with that value. -/
theorem pad2_ok {n : Int} (h0 : 0 ≤ n) (h1 : n < 100) :
    ∃ a b : Byte, pad2 n = [a, b] ∧ IsDigit a ∧ IsDigit b ∧ (value (pad2 n) : Int) = n := by
  obtain ⟨k, rfl⟩ := Int.eq_ofNat_of_zero_le h0
  have hk : k < 100 := by omega
  have small : ∀ m, m < 10 → utoa m = [UInt8.ofNat (48 + m)] := by
    intro m hm; rw [utoa, if_pos hm]
  have dig : ∀ m, m < 10 → IsDigit (UInt8.ofNat (48 + m)) := by
    have : ∀ m : Fin 10, IsDigit (UInt8.ofNat (48 + m.val)) := by decide +kernel
    intro m hm; exact this ⟨m, hm⟩
  have val : ∀ m, m < 10 → (UInt8.ofNat (48 + m)).toNat - 48 = m := by
    have : ∀ m : Fin 10, (UInt8.ofNat (48 + m.val)).toNat - 48 = m.val := by decide +kernel
    intro m hm; exact this ⟨m, hm⟩
  by_cases hk9 : k < 10
  · have e : pad2 (k : Int) = [c!"0", UInt8.ofNat (48 + k)] := by
      rw [pad2, itoa_natCast, small k hk9]; rfl
    refine ⟨c!"0", UInt8.ofNat (48 + k), e, by decide, dig k hk9, ?_⟩
    rw [e]
    simp only [value, List.foldl_cons, List.foldl_nil]
    rw [val k hk9]; simp
  · have e0 : utoa k = [UInt8.ofNat (48 + k / 10), UInt8.ofNat (48 + k % 10)] := by
      rw [utoa, if_neg hk9, small (k / 10) (by omega)]; rfl
    have e : pad2 (k : Int) = [UInt8.ofNat (48 + k / 10), UInt8.ofNat (48 + k % 10)] := by
      rw [pad2, itoa_natCast, e0, if_neg (by simp)]
    refine ⟨_, _, e, dig _ (by omega), dig _ (by omega), ?_⟩
    rw [e]
    simp only [value, List.foldl_cons, List.foldl_nil]
    rw [val _ (by omega), val _ (by omega)]
    omega

/-- Statuses with a severity that is not negative and a code of two digits come back. -/
theorem status_roundtrip_partial (st : Status) (hs : 0 ≤ st.sev) (hc0 : 0 ≤ st.code) (hc : st.code < 100)
    (hr : 100 * st.sev + st.code < 2 ^ 63) : Status.unmarshal st.marshal = .ok st := by
  obtain ⟨sev, code, msg⟩ := st
  simp only at hs hc0 hc hr
  obtain ⟨a, b, e, ha, hb, hv⟩ := pad2_ok hc0 hc
  obtain ⟨k, rfl⟩ := Int.eq_ofNat_of_zero_le hs
  have hd : ∀ x ∈ utoa k ++ pad2 code, IsDigit x := by
    intro x hx
    rcases List.mem_append.mp hx with hx | hx
    · exact utoa_digit hx
    · rw [e] at hx
      simp only [List.mem_cons, List.not_mem_nil, or_false] at hx
      rcases hx with rfl | rfl <;> assumption
  have hns : c!" " ∉ utoa k ++ pad2 code := fun h => absurd (hd _ h) (by decide)
  have hval : (value (utoa k ++ pad2 code) : Int) = 100 * k + code := by
    rw [value_append, value_utoa]
    have : (pad2 code).length = 2 := by rw [e]; rfl
    rw [this]; push_cast; omega
  have hparse : parseInt (utoa k ++ pad2 code) 64 = .ok (100 * (k : Int) + code) := by
    refine (parseInt_ok (by omega) (by omega)).mpr ⟨?_, by omega, hr⟩
    rw [← hval]
    exact .plain ⟨by simp [utoa_ne_nil], hd⟩
  have em : Status.marshal ⟨(k : Int), code, msg⟩ = (utoa k ++ pad2 code) ++ c!" " :: escape msg := by
    simp [Status.marshal]
  rw [em, Status.unmarshal]
  rw [splitMax_append hns 0]
  simp only [hparse]
  rw [Int.tdiv_eq_ediv_of_nonneg (by omega), Int.tmod_eq_emod_of_nonneg (by omega)]
  have h1 : (100 * (k : Int) + code) / 100 = k := by omega
  have h2 : (100 * (k : Int) + code) % 100 = code := by omega
  simp [h1, h2, splitMax, unescape_escape]

example : Status.unmarshal (Status.marshal ⟨2, 5, b!"no such file"⟩) = .ok ⟨2, 5, b!"no such file"⟩ := by decide +kernel

/-- A code of three digits spills into the severity. -/
theorem status_not_roundtrip : Status.unmarshal (Status.marshal ⟨1, 100, []⟩) = .ok ⟨11, 0, []⟩ := by decide +kernel

/-- Salts of every length and content come back. -/
theorem salt_roundtrip (salt : Bytes) : GetPassword.unmarshal (GetPassword.marshal salt) = .ok salt := by
  have e : (Base32.encode salt).length * 5 / 8 = salt.length := by rw [Base32.encode_length]; omega
  simp only [GetPassword.unmarshal, GetPassword.marshal]
  rw [e, Base32.decode_encode (Nat.le_refl _)]
  simp

/-- A salt whose text holds a carriage return is accepted, and gets zero bytes at its end. -/
theorem salt_padded : GetPassword.unmarshal (b!"ME" ++ [13]) = .ok [0x61] ∧
    GetPassword.unmarshal (b!"ME" ++ [13, 13, 13]) = .ok [0x61, 0, 0] := by decide +kernel

/-! ### Updates of user information -/

omit [ParseFloat] in
theorem fields_marshal_eq (f : Fields) (first : Bool) :
    Fields.marshalLoop first f = glue first (f.map (fun x => x.tag ++ escape x.value)) := by
  induction f generalizing first with
  | nil => rfl
  | cons x f ih => simp [Fields.marshalLoop, glue, String.marshal, ih]

theorem fields_unmarshalLoop (mp f : Fields) :
    Fields.unmarshalLoop mp (f.map (fun x => x.tag ++ escape x.value)) =
      .ok (mp ++ f.map (fun x => { x with value := escape x.value })) := by
  induction f generalizing mp with
  | nil => simp [Fields.unmarshalLoop]
  | cons x f ih =>
    have hl : ¬ (x.tag ++ escape x.value).length < 2 := by have := x.size; simp; omega
    have ht : (x.tag ++ escape x.value).take 2 = x.tag := by rw [← x.size]; simp
    have hd : (x.tag ++ escape x.value).drop 2 = escape x.value := by rw [← x.size]; simp
    rw [List.map_cons, Fields.unmarshalLoop, dif_neg hl]
    simp only [String.unmarshal, hd, ht, ih]
    simp

/-- What an update of user information is read as: the values stay escaped. -/
theorem fields_read (f : Fields) (ht : ∀ x ∈ f, c!" " ∉ x.tag) :
    Fields.unmarshal f.marshal = .ok (f.map (fun x => { x with value := escape x.value })) := by
  have hj : f.marshal = join (f.map (fun x => x.tag ++ escape x.value)) c!" " := by
    rw [Fields.marshal, fields_marshal_eq, glue_join]
  cases f with
  | nil => rfl
  | cons x f =>
    rw [Fields.unmarshal, if_neg]
    · rw [hj, split_join (by simp)]
      · exact fields_unmarshalLoop [] (x :: f)
      · intro p hp
        obtain ⟨y, hy, rfl⟩ := List.mem_map.mp hp
        simp only [List.mem_append, not_or]
        exact ⟨ht y hy, (escape_clean _).1⟩
    · have := x.size
      simp [Fields.marshal, Fields.marshalLoop]
      intro h; rw [h] at this; simp at this

/-- An update comes back exactly if no value has a character that is escaped. -/
theorem fields_roundtrip_iff (f : Fields) (ht : ∀ x ∈ f, c!" " ∉ x.tag) :
    Fields.unmarshal f.marshal = .ok f ↔ ∀ x ∈ f, escape x.value = x.value := by
  rw [fields_read f ht]
  constructor
  · intro h x hx
    have h : f.map (fun x => { x with value := escape x.value }) = f := by injection h
    have := (List.map_inj_left (f := fun x : Field => { x with value := escape x.value }) (g := id)).mp (by simpa using h) x hx
    have := congrArg Field.value this
    simpa using this
  · intro h
    congr 1
    have : ∀ x ∈ f, (fun x : Field => { x with value := escape x.value }) x = id x := by
      intro x hx
      obtain ⟨t, s, v⟩ := x
      simp [h _ hx] at *
    rw [List.map_congr_left this]; simp

/-- A description with a space is read as its escaped text. -/
theorem fields_not_roundtrip :
    Fields.unmarshal (Fields.marshal [⟨b!"DE", rfl, b!"a b"⟩]) = .ok [⟨b!"DE", rfl, b!"a\\sb"⟩] := by decide +kernel

/-- A flag written as `0` is read as set; the encoder leaves out flags that are not set. -/
theorem flag_zero_is_true : unmarshalValue b!"0" .bool false = .ok true := rfl

/-! ## C51: typed decoding -/

/-- The registered names, each with one type; looking a name up finds that type. -/
theorem registry : registered.map (fun m => m.cmd.bytes) =
    [b!"SUP", b!"STA", b!"ZON", b!"ZOF", b!"MSG", b!"RCM", b!"CTM", b!"GFI", b!"GET", b!"SND", b!"SID", b!"CMD", b!"GPA", b!"PAS",
     b!"QUI", b!"SCH", b!"RES", b!"INF"] := by decide +kernel

theorem lookup_own : ∀ m ∈ registered, lookupType m.cmd = some m := by
  simp only [registered, List.mem_cons, List.not_mem_nil, or_false]
  rintro m (rfl | rfl | rfl | rfl | rfl | rfl | rfl | rfl | rfl | rfl | rfl | rfl | rfl | rfl | rfl | rfl | rfl | rfl) <;> rfl

/-- Unmarshalling does not change the type of the target. -/
theorem unmarshalTo_cmd {data : Bytes} {m m' : Msg} (h : m.unmarshalTo data = .ok m') : m'.cmd = m.cmd := by
  cases m <;> simp only [Msg.unmarshalTo] at h
  case raw => cases h; rfl
  case zon => cases h; rfl
  case zoff => cases h; rfl
  all_goals
    obtain ⟨x, _, hx⟩ := Res.bind_eq_ok.mp h
    cases hx; rfl

/-- `DecodeMessageTo` succeeds only on a raw message with the command of the target, and then gives what `Unmarshal` into the target gives. -/
theorem decodeTo_exact (frm to m : Msg) :
    decodeMessageTo frm to = .ok m ↔ ∃ data, frm = .raw to.cmd data ∧ to.unmarshalTo data = .ok m := by
  cases frm <;> simp only [decodeMessageTo]
  case raw typ data =>
    split
    · rename_i h
      simp only [reduceCtorEq, Msg.raw.injEq, false_iff, not_exists, not_and]
      rintro d ⟨h1, _⟩
      exact absurd h1.symm h
    · rename_i h
      have h : to.cmd = typ := by simpa using h
      subst h
      simp
  all_goals simp

/-- Different commands are refused, and nothing is decoded. -/
theorem decodeTo_mismatch (typ : MsgType) (data : Bytes) (to : Msg) (h : to.cmd ≠ typ) :
    decodeMessageTo (.raw typ data) to = .err (.other 115) := by
  rw [decodeMessageTo, if_pos h]

/-- What was decoded has the command of the line. -/
theorem decode_cmd {typ : MsgType} {data : Bytes} {m : Msg} (h : decodeMessage (.raw typ data) = .ok m) : m.cmd = typ := by
  simp only [decodeMessage, unmarshalMessage] at h
  split at h
  · cases h; rfl
  · rename_i z hz
    rw [unmarshalTo_cmd h]
    have := List.find?_some hz
    simpa using this

/-- Unknown commands are kept as they are. -/
theorem decode_unknown (typ : MsgType) (data : Bytes) (h : ∀ m ∈ registered, m.cmd ≠ typ) :
    decodeMessage (.raw typ data) = .ok (.raw typ data) := by
  have : lookupType typ = none := by
    rw [lookupType, List.find?_eq_none]
    intro m hm
    simpa using h m hm
  simp only [decodeMessage, unmarshalMessage, this]

/-- Known commands are decoded into a new value of the registered type. -/
theorem decode_known (z : Msg) (hz : z ∈ registered) (data : Bytes) :
    decodeMessage (.raw z.cmd data) = z.unmarshalTo data := by
  simp only [decodeMessage, unmarshalMessage, lookup_own z hz]

/-- A message that is already decoded is left alone. -/
theorem decode_again (m : Msg) (h : ∀ typ data, m ≠ .raw typ data) : decodeMessage m = .ok m := by
  cases m <;> first | exact absurd rfl (h _ _) | rfl

/-! ## C42: all registered messages -/

/-- The messages that come back from their payload. -/
def MsgOk : Msg → Prop
  | .raw typ _ => ∀ m ∈ registered, m.cmd ≠ typ
  | .supported _ => False
  | .status s => 0 ≤ s.sev ∧ 0 ≤ s.code ∧ s.code < 100 ∧ 100 * s.sev + s.code < 2 ^ 63
  | .get r => IntOk r.start ∧ IntOk r.bytes
  | .snd r => IntOk r.start ∧ IntOk r.bytes
  | .infoMod _ => False
  | .struct t row => t ≠ .hubInfo ∧ RowOk t.fields row
  | .zon => True
  | .zoff => True
  | .sidAssign _ => True
  | .getPassword _ => True

/-- Every registered message is decoded back from its payload, under the name of its command. Feature maps are treated in
`Verif/Props/AdcFeatures.lean`. -/
theorem message_roundtrip (m : Msg) (h : MsgOk m) : ∃ b, m.marshal = .ok b ∧ unmarshalMessage m.cmd b = .ok m := by
  cases m with
  | raw typ data =>
    refine ⟨data, rfl, ?_⟩
    exact decode_unknown typ data h
  | supported f => exact h.elim
  | infoMod f => exact h.elim
  | status s =>
    refine ⟨_, rfl, ?_⟩
    have := status_roundtrip_partial s h.1 h.2.1 h.2.2.1 h.2.2.2
    show (Status.unmarshal s.marshal >>= fun s => Res.ok (Msg.status s)) = _
    rw [this]; rfl
  | zon => exact ⟨_, rfl, rfl⟩
  | zoff => exact ⟨_, rfl, rfl⟩
  | get r =>
    refine ⟨_, rfl, ?_⟩
    show (GetRequest.unmarshal r.marshal ⟨[], [], 0, 0, false⟩ >>= fun r => Res.ok (Msg.get r)) = _
    rw [get_roundtrip r _ h.1 h.2 rfl]; rfl
  | snd r =>
    refine ⟨_, rfl, ?_⟩
    show (GetRequest.unmarshal r.marshal ⟨[], [], 0, 0, false⟩ >>= fun r => Res.ok (Msg.snd r)) = _
    rw [get_roundtrip r _ h.1 h.2 rfl]; rfl
  | sidAssign id =>
    refine ⟨_, rfl, ?_⟩
    show (SID.unmarshal id.bytes >>= fun s => Res.ok (Msg.sidAssign s)) = _
    have : SID.unmarshal id.bytes = .ok id := by rw [SID.unmarshal, dif_pos id.size]
    rw [this]; rfl
  | getPassword salt =>
    refine ⟨_, rfl, ?_⟩
    show (GetPassword.unmarshal (GetPassword.marshal salt) >>= fun s => Res.ok (Msg.getPassword s)) = _
    rw [salt_roundtrip]; rfl
  | struct t row =>
    obtain ⟨b, h1, h2⟩ := struct_roundtrip t row h.2
    refine ⟨b, h1, ?_⟩
    have hreg : t.new ∈ registered := by
      simp only [registered, List.mem_cons, List.not_mem_nil, or_false]
      have := h.1
      cases t <;> simp at this ⊢
    exact (decode_known t.new hreg b).trans h2

end Verif.Props.AdcMessages
