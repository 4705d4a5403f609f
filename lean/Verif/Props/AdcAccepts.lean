import Verif.Spec.AdcPacket
import Verif.Props.AdcPacketsIff

/-!
# C96: which lines are ADC packets
-/

namespace Verif.Props.AdcAccepts

open Verif.Go Verif.Adc Verif.Tiger Verif.Spec Verif.Props.AdcText Verif.Props.AdcPackets Verif.Props.AdcRelay
open Verif.Spec.AdcPacket

theorem selectors_iff (t : Bytes) (sel : List FeatureSel) (rest : Bytes) : Selectors t sel rest ↔ SelRead t sel rest := by
  constructor
  · intro h
    induction h with
    | done h => exact .done h
    | space _ ih => exact .space ih
    | plus f _ ih => exact SelRead.sel ⟨f, true⟩ ih
    | minus f _ ih => exact SelRead.sel ⟨f, false⟩ ih
  · intro h
    induction h with
    | done h => exact .done h
    | space _ ih => exact .space ih
    | sel f _ ih =>
      obtain ⟨f, s⟩ := f
      cases s
      · exact .minus f ih
      · exact .plus f ih

theorem line_iff {p : Bytes} {k : Byte} {name : MsgType} {a data : Bytes} : Line p k name a data ↔ WellFormed p k name a data := by
  constructor
  · rintro ⟨tail, rfl | ⟨rfl, rfl⟩, rfl⟩
    · exact .inr (by simp)
    · exact .inl ⟨by simp, rfl⟩
  · rintro (⟨rfl, rfl⟩ | rfl)
    · exact ⟨_, .inr ⟨rfl, rfl⟩, by simp⟩
    · exact ⟨_, .inl rfl, by simp⟩

/-- The loop reads the selectors. -/
theorem selLoop_of {t : Bytes} {ss : List FeatureSel} {rest : Bytes} (h : SelRead t ss rest) : ∀ (room : Nat) (acc : List FeatureSel)
    (pre : Bytes), (t ≠ [] ∨ pre = []) → selLoop room acc (pre ++ t) pre.length = .ok (acc ++ ss, rest) := by
  induction h with
  | @done d h =>
    intro room acc pre hp
    cases d with
    | nil =>
      have : pre = [] := by simpa using hp
      subst this
      rw [selLoop]
      simp
    | cons c d =>
      have h := h c rfl
      rw [selLoop]
      split
      · rename_i hn; simp at hn
      · rename_i x hx
        have : x = c := by simpa using hx.symm
        subst this
        rw [if_neg (by simp [h]), if_neg h.2.2]
        simp
  | @space d sel rest h ih =>
    intro room acc pre hp
    rw [selLoop]
    split
    · rename_i hn; simp at hn
    · rename_i x hx
      have : x = c!" " := by simpa using hx.symm
      subst this
      rw [if_neg (by decide), if_pos rfl]
      simp only [List.drop_left]
      split
      · rename_i hl
        have : d = [] := by simpa using hl
        subst this
        cases h with
        | done => simp
      · rename_i hl
        have : d ≠ [] := by rintro rfl; simp at hl
        exact ih room acc b!" " (.inl this)
  | @sel d sel rest f h ih =>
    intro room acc pre hp
    have hf := f.fea.size
    have hg : ((if f.sel then c!"+" else c!"-") = c!"+" ∨ (if f.sel then c!"+" else c!"-") = c!"-") ∧
        ((if f.sel then c!"+" else c!"-") == c!"+") = f.sel := by cases f.sel <;> decide
    generalize (if f.sel then c!"+" else c!"-") = g at hg
    rw [selLoop]
    split
    · rename_i hn; simp at hn
    · rename_i x hx
      have hx : x = g := by simpa using hx.symm
      subst hx
      rw [if_pos hg.1]
      have e : selAt room (pre ++ (x :: f.fea.bytes ++ d)) pre.length = .ok f.fea := by
        unfold selAt
        rw [dif_neg (by simp; omega)]
        obtain ⟨⟨fb, fl⟩, s⟩ := f
        simp only at hf
        congr 2
        rw [← List.drop_drop, List.drop_left]
        simp [← hf]
      rw [e]
      simp only [hg.2]
      have hlen : (pre ++ (x :: f.fea.bytes ++ d)).length = pre.length + 4 + 1 + d.length := by simp [hf]; omega
      rw [hlen]
      split
      · rename_i hl
        have : d = [] := by
          have : d.length = 0 := by omega
          simpa using this
        subst this
        cases h with
        | done => rfl
      · rename_i hl
        have hd : d ≠ [] := by rintro rfl; simp at hl
        have := ih room (acc ++ [f]) (pre ++ x :: f.fea.bytes) (.inl hd)
        rw [show (pre ++ x :: f.fea.bytes).length = pre.length + 4 + 1 by simp [hf]] at this
        simpa using this

/-! ## Reading a line of the right form -/

theorem rest_newline {p : Bytes} (hl : IsLine p) {a b : Bytes} (hp : p = a ++ b) (hb : b ≠ []) : b.getLast? = some c!"\n" := by
  obtain ⟨l, h, -⟩ := hl
  have : p.getLast? = some c!"\n" := by rw [h]; simp
  rw [hp, List.getLast?_append] at this
  cases b with
  | nil => exact absurd rfl hb
  | cons x y => simpa using this

theorem read_space {room : Nat} {p : Bytes} {k : Byte} {name : MsgType} {d : Bytes} {pk : Packet} (hl : IsLine p) (h0 : (0 : Byte) ∉ p)
    (hp : p = k :: name.bytes ++ c!" " :: d) (hd : d ≠ []) (h : d.getLast? = some c!"\n" → unmarshalKind room k name d = some (.ok pk)) :
    decodePacketRaw room p = .ok pk := by
  have h1 := rest_newline hl hp (by simp)
  have h2 := rest_newline hl (a := k :: name.bytes ++ b!" ") (b := d) (by rw [hp]; simp) hd
  subst hp
  rw [(decodeRaw_step room k name _ h0 h1).1 d rfl, h h2]

theorem read_end {room : Nat} {p : Bytes} {k : Byte} {name : MsgType} {pk : Packet} (h0 : (0 : Byte) ∉ p)
    (hp : p = k :: name.bytes ++ b!"\n") (h : unmarshalKind room k name b!"\n" = some (.ok pk)) : decodePacketRaw room p = .ok pk := by
  subst hp
  rw [(decodeRaw_step room k name _ h0 rfl).2 [] rfl, h]

/-- The data behind an address. -/
theorem end_after {x data tail : Bytes} {n : Nat} (hx : x.length = n) (h : End data tail) :
    ¬ badSep (x ++ tail) n ∧ payloadAfter (x ++ tail).dropLast n = data ∧ n < (x ++ tail).length ∧ (x ++ tail).getLast? = some c!"\n" := by
  subst hx
  rcases h with rfl | ⟨rfl, rfl⟩
  · refine ⟨?_, ?_, by simp, by rw [← List.append_assoc, List.getLast?_concat]⟩
    · rintro ⟨_, h, -⟩; simp at h
    · rw [← List.append_assoc, List.dropLast_concat, payloadAfter]
      cases data with
      | nil => simp
      | cons c d => rw [if_pos (by simp)]; simp
  · refine ⟨?_, by simp [payloadAfter], by simp, by simp⟩
    rintro ⟨_, -, h⟩; simp at h

theorem plain_of {room : Nat} {p : Bytes} {k : Byte} {name : MsgType} {data : Bytes} {pk : Packet} (hl : IsLine p) (h0 : (0 : Byte) ∉ p)
    (h : Line p k name [] data)
    (hk : ∀ d, 1 ≤ d.length → d.getLast? = some c!"\n" → d.dropLast = data → unmarshalKind room k name d = some (.ok pk)) :
    decodePacketRaw room p = .ok pk := by
  obtain ⟨tail, rfl | ⟨rfl, rfl⟩, hp⟩ := h
  · exact read_space hl h0 (d := data ++ b!"\n") (by rw [hp]; simp) (by simp) (fun _ => hk _ (by simp) (by simp) (by simp))
  · exact read_end h0 (by rw [hp]; simp) (hk _ (by simp) rfl rfl)

theorem short_after {x : Bytes} {n : Nat} (hx : x.length = n) : ¬ badSep x n ∧ payloadAfter x.dropLast n = [] := by
  subst hx
  refine ⟨fun h => absurd h.1 (by omega), ?_⟩
  unfold payloadAfter
  rw [if_neg (by simp; omega)]

/-- A line of this form is read as this packet. -/
theorem accepts_read {room : Nat} {p : Bytes} {pk : Packet} (hl : IsLine p) (h0 : (0 : Byte) ∉ p) (h : Accepts p pk) :
    decodePacketRaw room p = .ok pk := by
  have pair : ∀ {name : MsgType} {id to : SID} {data tail : Bytes} (mk : SID → SID → Msg → Packet), End data tail →
      unmarshalPair name (id.bytes ++ c!" " :: to.bytes ++ tail) mk = .ok (mk id to (.raw name data)) := by
    intro name id to data tail mk he
    have hi := id.size
    have ht := to.size
    obtain ⟨h1, h2, h3, h4⟩ := end_after (x := id.bytes ++ c!" " :: to.bytes) (n := 9) (by simp [hi, ht]) he
    have e4 : (id.bytes ++ c!" " :: to.bytes ++ tail)[4]? = some c!" " := by rw [← hi]; simp
    have e5 : (id.bytes ++ c!" " :: to.bytes ++ tail).take 4 = id.bytes := by rw [← hi]; simp
    have e6 : ((id.bytes ++ c!" " :: to.bytes ++ tail).drop 5).take 4 = to.bytes := by
      rw [show (5 : Nat) = id.bytes.length + 1 by rw [hi], ← List.drop_drop]
      simp [← ht]
    rw [unmarshalPair, if_neg (by omega), if_neg (by simp only [h4]; simp), if_neg (by simp only [e4]; simp), if_neg h1, h2, e5, e6,
      sid_unmarshal, sid_unmarshal]
    rfl
  have shortPair : ∀ {name : MsgType} {id to : SID} (mk : SID → SID → Msg → Packet),
      (id.bytes ++ c!" " :: to.bytes).getLast? = some c!"\n" →
      unmarshalPair name (id.bytes ++ c!" " :: to.bytes) mk = .ok (mk id to (.raw name [])) := by
    intro name id to mk h4
    have hi := id.size
    have ht := to.size
    obtain ⟨h1, h2⟩ := short_after (x := id.bytes ++ c!" " :: to.bytes) (n := 9) (by simp [hi, ht])
    have e4 : (id.bytes ++ c!" " :: to.bytes)[4]? = some c!" " := by rw [← hi]; simp
    have e5 : (id.bytes ++ c!" " :: to.bytes).take 4 = id.bytes := by rw [← hi]; simp
    have e6 : ((id.bytes ++ c!" " :: to.bytes).drop 5).take 4 = to.bytes := by
      rw [show (5 : Nat) = id.bytes.length + 1 by rw [hi], ← List.drop_drop]
      simp [← ht]
    rw [unmarshalPair, if_neg (by simp [hi, ht]), if_neg (by simp only [h4]; simp), if_neg (by simp only [e4]; simp), if_neg h1, h2, e5, e6,
      sid_unmarshal, sid_unmarshal]
    rfl
  cases h with
  | @info name data h =>
    refine plain_of hl h0 h fun d h1 h2 h3 => ?_
    show some (unmarshalInfo name d) = _
    rw [unmarshalInfo, if_neg (by simp [h2]), if_neg (by omega), h3]
  | @hub name data h =>
    refine plain_of hl h0 h fun d h1 h2 h3 => ?_
    show some (unmarshalHub name d) = _
    rw [unmarshalHub, if_neg (by omega), if_neg (by simp [h2]), h3]
  | @client name data h =>
    refine plain_of hl h0 h fun d h1 h2 h3 => ?_
    show some (unmarshalClient name d) = _
    rw [unmarshalClient, if_neg (by omega), if_neg (by simp [h2]), h3]
  | @broadcast name data id h =>
    obtain ⟨tail, he, hp⟩ := h
    obtain ⟨h1, h2, h3, h4⟩ := end_after id.size he
    refine read_space hl h0 (k := c!"B") (name := name) (d := id.bytes ++ tail) (by rw [hp]; simp) (by intro h; rw [h] at h3; simp at h3) fun _ => ?_
    show some (unmarshalBroadcast name _) = _
    rw [unmarshalBroadcast, if_neg (by omega), if_neg (by simp [h4]), if_neg h1, h2, ← id.size, List.take_left, sid_unmarshal]
    rfl
  | @direct name data id to h =>
    obtain ⟨tail, he, hp⟩ := h
    refine read_space hl h0 (k := c!"D") (name := name) (d := id.bytes ++ c!" " :: to.bytes ++ tail) (by rw [hp]; simp) (by simp) fun _ => ?_
    exact congrArg some (pair .direct he)
  | @echo name data id to h =>
    obtain ⟨tail, he, hp⟩ := h
    refine read_space hl h0 (k := c!"E") (name := name) (d := id.bytes ++ c!" " :: to.bytes ++ tail) (by rw [hp]; simp) (by simp) fun _ => ?_
    exact congrArg some (pair .echo he)
  | @feature name text data id sel h hs =>
    obtain ⟨tail, he, hp⟩ := h
    obtain ⟨h1, h2, h3, h4⟩ := end_after id.size he
    refine read_space hl h0 (k := c!"F") (name := name) (d := id.bytes ++ tail) (by rw [hp]; simp) (by intro h; rw [h] at h3; simp at h3) fun _ => ?_
    show some (unmarshalFeature room name _) = _
    have := selLoop_of ((selectors_iff _ _ _).mp hs) (room + 1) [] [] (.inr rfl)
    simp only [List.nil_append, List.length_nil] at this
    rw [unmarshalFeature, if_neg (by omega), if_neg (by simp [h4]), if_neg h1, h2, ← id.size, List.take_left, sid_unmarshal, Res.ok_bind, this]
    rfl
  | @udp name text data id h hx hn =>
    obtain ⟨tail, he, hp⟩ := h
    obtain ⟨h1, h2, h3, h4⟩ := end_after hx he
    refine read_space hl h0 (k := c!"U") (name := name) (d := text ++ tail) (by rw [hp]; simp) (by intro h; rw [h] at h3; simp at h3) fun _ => ?_
    show some (unmarshalUdp name _) = _
    have e : (text ++ tail).take 39 = text := by rw [← hx, List.take_left]
    rw [unmarshalUdp, if_neg (by omega), if_neg (by simp [h4]), if_neg h1, h2, e, (Verif.Props.Identifiers.hash_exact _ _).mpr hn]
  | @shortBroadcast name id h =>
    have hne : id.bytes ≠ [] := by intro h; have := id.size; rw [h] at this; cases this
    refine read_space hl h0 (k := c!"B") (name := name) (d := id.bytes) (by rw [h]; simp) hne fun h4 => ?_
    obtain ⟨h1, h2⟩ := short_after id.size
    show some (unmarshalBroadcast name _) = _
    have e : id.bytes.take 4 = id.bytes := by rw [← id.size, List.take_length]
    rw [unmarshalBroadcast, if_neg (by rw [id.size]; omega), if_neg (by simp [h4]), if_neg h1, h2, e, sid_unmarshal]
    rfl
  | @shortDirect name id to h =>
    refine read_space hl h0 (k := c!"D") (name := name) (d := id.bytes ++ c!" " :: to.bytes) (by rw [h]; simp) (by simp) fun h4 => ?_
    exact congrArg some (shortPair .direct h4)
  | @shortEcho name id to h =>
    refine read_space hl h0 (k := c!"E") (name := name) (d := id.bytes ++ c!" " :: to.bytes) (by rw [h]; simp) (by simp) fun h4 => ?_
    exact congrArg some (shortPair .echo h4)
  | @shortFeature name id h =>
    have hne : id.bytes ≠ [] := by intro h; have := id.size; rw [h] at this; cases this
    refine read_space hl h0 (k := c!"F") (name := name) (d := id.bytes) (by rw [h]; simp) hne fun h4 => ?_
    obtain ⟨h1, h2⟩ := short_after id.size
    show some (unmarshalFeature room name _) = _
    have e : id.bytes.take 4 = id.bytes := by rw [← id.size, List.take_length]
    have := selLoop_of (.done (d := []) (fun c hc => nomatch hc)) (room + 1) [] [] (.inr rfl)
    rw [List.append_nil, List.append_nil, List.length_nil] at this
    rw [unmarshalFeature, if_neg (by rw [id.size]; omega), if_neg (by simp [h4]), if_neg h1, h2, e, sid_unmarshal, Res.ok_bind, this]
    rfl

/-! ## Lines that are read -/

theorem short_of {d x : Bytes} {n : Nat} (hd : IsLine d) (hn : n ≤ d.length) (hx : x = d.take n) (h : c!"\n" ∈ x) : d = x ∧ d.dropLast.length < n := by
  have : d.length = n := by
    rcases Nat.lt_or_ge n d.length with h1 | h1
    · exact absurd (hx ▸ h) (isLine_take hd h1)
    · omega
  refine ⟨by rw [hx, ← this, List.take_length], ?_⟩
  obtain ⟨l, rfl, -⟩ := hd
  simp at this ⊢
  omega

theorem payload_short {d : Bytes} {n : Nat} (h : d.length < n) : payloadAfter d n = [] := by
  unfold payloadAfter
  rw [if_neg (by omega)]

theorem pair_end {d : Bytes} {id to : SID} (hd : IsLine d) (h1 : 9 ≤ d.length) (h2 : d[4]? = some c!" ") (h4 : id.bytes = d.take 4)
    (h5 : to.bytes = (d.drop 5).take 4) (hto : c!"\n" ∈ to.bytes) : d = id.bytes ++ c!" " :: to.bytes ∧ payloadAfter d.dropLast 9 = [] := by
  have := short_of hd h1 (pair_split h1 h2 h4 h5).symm (by simp [hto])
  exact ⟨this.1, payload_short this.2⟩

/-- What is read has this form. -/
theorem read_accepts {room : Nat} {p : Bytes} {pk : Packet} (hl : IsLine p) (h : decodePacketRaw room p = .ok pk) : Accepts p pk := by
  by_cases hc : Complete pk
  · cases shape hl h hc with
    | info hw => exact .info (line_iff.mpr hw)
    | hub hw => exact .hub (line_iff.mpr hw)
    | client hw => exact .client (line_iff.mpr hw)
    | broadcast hw => exact .broadcast (line_iff.mpr hw)
    | direct hw => exact .direct (line_iff.mpr (by simpa using hw))
    | echo hw => exact .echo (line_iff.mpr (by simpa using hw))
    | udp text h1 h2 hw => exact .udp (line_iff.mpr hw) h1 ((Verif.Props.Identifiers.hash_exact _ _).mp h2)
    | feature text hs hw => exact .feature (line_iff.mpr hw) ((selectors_iff _ _ _).mpr hs)
  · obtain ⟨k, name, d, hk, _, hp⟩ := raw_ok h hl
    have hkind := kind_inv hk
    cases pk with
    | info | hub | client | udp => exact absurd trivial hc
    | broadcast id m =>
      simp only [Packet.kind] at hkind
      subst hkind
      obtain ⟨id', he, h1, h2, h3⟩ := broadcast_inv (Option.some.inj hk)
      cases he
      obtain ⟨rfl, hd⟩ := after_space hp (by omega)
      obtain ⟨h4, h5⟩ := short_of hd h1 h3 (Decidable.not_not.mp hc)
      rw [payload_short h5]
      exact .shortBroadcast (by rw [h4]; simp)
    | direct id to m =>
      simp only [Packet.kind] at hkind
      subst hkind
      obtain ⟨id', to', he, h1, h2, h3, h4, h5⟩ := pair_inv (Option.some.inj hk)
      cases he
      obtain ⟨rfl, hd⟩ := after_space hp (by omega)
      obtain ⟨h6, h7⟩ := pair_end hd h1 h2 h4 h5 (Decidable.not_not.mp hc)
      rw [h7]
      exact .shortDirect (by rw [h6]; simp)
    | echo id to m =>
      simp only [Packet.kind] at hkind
      subst hkind
      obtain ⟨id', to', he, h1, h2, h3, h4, h5⟩ := pair_inv (Option.some.inj hk)
      cases he
      obtain ⟨rfl, hd⟩ := after_space hp (by omega)
      obtain ⟨h6, h7⟩ := pair_end hd h1 h2 h4 h5 (Decidable.not_not.mp hc)
      rw [h7]
      exact .shortEcho (by rw [h6]; simp)
    | feature id sel m =>
      simp only [Packet.kind] at hkind
      subst hkind
      obtain ⟨id', sel', rest, he, h1, h2, h3, h4⟩ := feature_inv (Option.some.inj hk)
      cases he
      obtain ⟨rfl, hd⟩ := after_space hp (by omega)
      obtain ⟨h5, h6⟩ := short_of hd h1 h3 (Decidable.not_not.mp hc)
      rw [payload_short h6, selLoop] at h4
      simp only [List.getElem?_nil, Res.ok.injEq, Prod.mk.injEq] at h4
      obtain ⟨rfl, rfl⟩ := h4
      exact .shortFeature (by rw [h5]; simp)

/-- **C96.** A line is read as a packet if and only if it has no NUL and has the form of that packet. -/
theorem read_iff (room : Nat) (p : Bytes) (hl : IsLine p) (pk : Packet) :
    decodePacketRaw room p = .ok pk ↔ (0 : Byte) ∉ p ∧ Accepts p pk :=
  ⟨fun h => ⟨(AdcPacketsIff.raw_kind h).1, read_accepts hl h⟩, fun h => accepts_read hl h.1 h.2⟩

/-- How much the buffer has behind the line does not matter for lines that are read. -/
theorem room_irrelevant (room room' : Nat) (p : Bytes) (hl : IsLine p) (pk : Packet) :
    decodePacketRaw room p = .ok pk ↔ decodePacketRaw room' p = .ok pk := by rw [read_iff room p hl, read_iff room' p hl]

/-- A line with two selectors, the second without space before it, and a payload. -/
example : IsLine b!"FSCH AAAB +TCP4-NAT0 ANx\n" ∧ (0 : Byte) ∉ b!"FSCH AAAB +TCP4-NAT0 ANx\n" ∧
    Accepts b!"FSCH AAAB +TCP4-NAT0 ANx\n"
      (.feature ⟨b!"AAAB", rfl⟩ [⟨⟨b!"TCP4", rfl⟩, true⟩, ⟨⟨b!"NAT0", rfl⟩, false⟩] (.raw ⟨b!"SCH", rfl⟩ b!"ANx")) := by
  refine ⟨⟨b!"FSCH AAAB +TCP4-NAT0 ANx", rfl, by decide⟩, by decide, ?_⟩
  refine .feature (text := b!"+TCP4-NAT0 ANx") ⟨_, .inl rfl, rfl⟩ ?_
  exact .plus ⟨b!"TCP4", rfl⟩ (.minus ⟨b!"NAT0", rfl⟩ (.space (.done (by intro c hc; cases hc; decide))))

/-- A line of no packet: the target of a direct packet is two bytes short. -/
example : ∀ pk, ¬ Accepts b!"DCTM AAAA BB\n" pk := by
  intro pk h
  have h1 := (read_iff 0 b!"DCTM AAAA BB\n" ⟨b!"DCTM AAAA BB", rfl, by decide⟩ pk).mpr ⟨by decide, h⟩
  have h2 : decodePacketRaw 0 b!"DCTM AAAA BB\n" = .err (.other 121) := by with_unfolding_all rfl
  rw [h2] at h1
  cases h1

end Verif.Props.AdcAccepts
