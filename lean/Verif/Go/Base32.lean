import Verif.Go.Basic

/-!
# `encoding/base32`, standard alphabet, without padding

Models `base32.StdEncoding.WithPadding(base32.NoPadding)`, used in `tiger/tiger.go:35`, `adc/types/types.go`,
`adc/user.go` and `keyprint/keyprint.go`. The shifts and masks on 5-bit values are written as arithmetic.
-/

namespace Verif.Go.Base32

/-- The alphabet. -/
def encChar (d : Nat) : Byte := if d < 26 then UInt8.ofNat (65 + d) else UInt8.ofNat (24 + d)

/-- The decoding table. -/
def decChar (c : Byte) : Option Nat :=
  if 65 ≤ c ∧ c ≤ 90 then some (c.toNat - 65) else if 50 ≤ c ∧ c ≤ 55 then some (c.toNat - 24) else none

/-- Eight 5-bit values of five bytes. -/
def quint (b0 b1 b2 b3 b4 : Byte) : List Nat :=
  [b0.toNat / 8, b0.toNat % 8 * 4 + b1.toNat / 64, b1.toNat / 2 % 32, b1.toNat % 2 * 16 + b2.toNat / 16,
    b2.toNat % 16 * 2 + b3.toNat / 128, b3.toNat / 4 % 32, b3.toNat % 4 * 8 + b4.toNat / 32, b4.toNat % 32]

/-- `Encode`: full groups of five, then the rest. -/
def encode : Bytes → Bytes
  | b0 :: b1 :: b2 :: b3 :: b4 :: s => (quint b0 b1 b2 b3 b4).map encChar ++ encode s
  | [b0, b1, b2, b3] => ((quint b0 b1 b2 b3 0).take 7).map encChar
  | [b0, b1, b2] => ((quint b0 b1 b2 0 0).take 5).map encChar
  | [b0, b1] => ((quint b0 b1 0 0 0).take 4).map encChar
  | [b0] => ((quint b0 0 0 0 0).take 2).map encChar
  | [] => []

/-- The bytes of up to eight 5-bit values. The `switch` of `decode` has no case for one, three or six values: nothing is
written for them, and there is no error. -/
def pack : List Nat → Bytes
  | [d0, d1, d2, d3, d4, d5, d6, d7] =>
    [UInt8.ofNat (d0 * 8 + d1 / 4), UInt8.ofNat (d1 % 4 * 64 + d2 * 2 + d3 / 16), UInt8.ofNat (d3 % 16 * 16 + d4 / 2),
      UInt8.ofNat (d4 % 2 * 128 + d5 * 4 + d6 / 8), UInt8.ofNat (d6 % 8 * 32 + d7)]
  | [d0, d1, d2, d3, d4, d5, d6] =>
    [UInt8.ofNat (d0 * 8 + d1 / 4), UInt8.ofNat (d1 % 4 * 64 + d2 * 2 + d3 / 16), UInt8.ofNat (d3 % 16 * 16 + d4 / 2),
      UInt8.ofNat (d4 % 2 * 128 + d5 * 4 + d6 / 8)]
  | [d0, d1, d2, d3, d4] =>
    [UInt8.ofNat (d0 * 8 + d1 / 4), UInt8.ofNat (d1 % 4 * 64 + d2 * 2 + d3 / 16), UInt8.ofNat (d3 % 16 * 16 + d4 / 2)]
  | [d0, d1, d2, d3] => [UInt8.ofNat (d0 * 8 + d1 / 4), UInt8.ofNat (d1 % 4 * 64 + d2 * 2 + d3 / 16)]
  | [d0, d1] => [UInt8.ofNat (d0 * 8 + d1 / 4)]
  | _ => []

/-- `CorruptInputError`. -/
def corrupt : Err := .other 60

/-- One quantum of `decode`: the values read so far are `acc`. Returns the values, the rest and `end`.
The padding character is the byte `0xFF` (`byte(NoPadding)`). -/
def quantum (acc : List Nat) : Bytes → Res (List Nat × Bytes × Bool)
  | [] => if 8 ≤ acc.length then .ok (acc, [], false) else .ok (acc, [], true)
  | c :: s =>
    if 8 ≤ acc.length then .ok (acc, c :: s, false)
    else if c = 0xFF ∧ 2 ≤ acc.length ∧ s.length < 8 then
      if s.length + acc.length < 7 then .err corrupt
      else if ¬ (s.take (7 - acc.length)).all (· = 0xFF) then .err corrupt
      else if acc.length = 3 ∨ acc.length = 6 then .err corrupt
      else .ok (acc, s, true)
    else match decChar c with
      | none => .err corrupt
      | some d => quantum (acc ++ [d]) s

theorem quantum_length {acc : List Nat} {s : Bytes} {ds : List Nat} {r : Bytes} {e : Bool}
    (h : quantum acc s = .ok (ds, r, e)) : r.length ≤ s.length ∧ (acc.length < 8 → s ≠ [] → r.length < s.length) := by
  induction s generalizing acc with
  | nil => unfold quantum at h; split at h <;> cases h <;> simp
  | cons c s ih =>
    unfold quantum at h
    split at h
    · cases h; simp; omega
    · split at h
      · split at h
        · cases h
        · split at h
          · cases h
          · split at h
            · cases h
            · cases h; simp
      · split at h
        · cases h
        · have := ih h
          simp; omega

/-- `decode` into a buffer with `room` bytes left; `panic` when it does not fit. -/
def decodeLoop (room : Nat) (src : Bytes) : Res Bytes :=
  if _hs : src = [] then .ok []
  else
    match _hq : quantum [] src with
    | .err e => .err e
    | .panic => .panic
    | .ok (ds, r, e) =>
      let out := pack ds
      if room < out.length then .panic
      else if e then .ok out
      else (decodeLoop (room - 5) r).bind fun t => .ok (out ++ t)
termination_by src.length
decreasing_by exact (quantum_length _hq).2 (by simp) _hs

/-- `stripNewlines`. -/
def stripNewlines (s : Bytes) : Bytes := s.filter (fun c => c ≠ 13 ∧ c ≠ 10)

/-- `Decode` into a buffer of `cap` bytes: the bytes written. -/
def decode (cap : Nat) (src : Bytes) : Res Bytes := decodeLoop cap (stripNewlines src)

/-- `DecodeString`: in place, so the buffer is as long as the text. -/
def decodeString (src : Bytes) : Res Bytes := decodeLoop src.length (stripNewlines src)

/-! ## Lemmas -/

theorem decChar_encChar {d : Nat} (h : d < 32) : decChar (encChar d) = some d := by
  have : ∀ d : Fin 32, decChar (encChar d.val) = some d.val := by decide +kernel
  exact this ⟨d, h⟩

theorem encChar_ne {d : Nat} (h : d < 32) : encChar d ≠ 0xFF ∧ encChar d ≠ 13 ∧ encChar d ≠ 10 := by
  have : ∀ d : Fin 32, encChar d.val ≠ 0xFF ∧ encChar d.val ≠ 13 ∧ encChar d.val ≠ 10 := by decide +kernel
  exact this ⟨d, h⟩

theorem decChar_lt {c : Byte} {d : Nat} (h : decChar c = some d) : d < 32 := by
  have : ∀ c d, decChar c = some d → d < 32 := by
    intro c
    have : (decChar c).all (· < 32) = true := by
      revert c; apply forall_byte; decide +kernel
    intro d hd
    simpa [hd] using this
  exact this c d h

theorem quint_lt {b0 b1 b2 b3 b4 : Byte} : ∀ d ∈ quint b0 b1 b2 b3 b4, d < 32 := by
  have := b0.toNat_lt; have := b1.toNat_lt; have := b2.toNat_lt; have := b3.toNat_lt; have := b4.toNat_lt
  simp only [quint, List.mem_cons, List.not_mem_nil, or_false]
  rintro d (rfl | rfl | rfl | rfl | rfl | rfl | rfl | rfl) <;> omega

/-- Encoded digits are read as they are. -/
theorem quantum_digits {acc ds : List Nat} {s : Bytes} (h : ∀ d ∈ ds, d < 32) (hl : acc.length + ds.length ≤ 8) :
    quantum acc (ds.map encChar ++ s) = quantum (acc ++ ds) s := by
  induction ds generalizing acc with
  | nil => simp
  | cons d ds ih =>
    simp only [List.length_cons] at hl
    have hd := h d (by simp)
    rw [List.map_cons, List.cons_append, quantum, if_neg (by omega), if_neg (by rintro ⟨h', -⟩; exact (encChar_ne hd).1 h'),
      decChar_encChar hd]
    simp only
    rw [ih (fun x hx => h x (by simp [hx])) (by simp; omega)]
    simp

theorem pack_quint (b0 b1 b2 b3 b4 : Byte) : pack (quint b0 b1 b2 b3 b4) = [b0, b1, b2, b3, b4] := by
  have h0 := b0.toNat_lt; have h1 := b1.toNat_lt; have h2 := b2.toNat_lt; have h3 := b3.toNat_lt; have h4 := b4.toNat_lt
  have e : ∀ (b : Byte) (n : Nat), n = b.toNat → UInt8.ofNat n = b := by rintro b n rfl; simp
  simp only [quint, pack]
  rw [e b0, e b1, e b2, e b3, e b4] <;> omega

theorem encode_five (b0 b1 b2 b3 b4 : Byte) (s : Bytes) :
    encode (b0 :: b1 :: b2 :: b3 :: b4 :: s) = (quint b0 b1 b2 b3 b4).map encChar ++ encode s := rfl

theorem five_or_less (s : Bytes) (h : 5 ≤ s.length) : ∃ b0 b1 b2 b3 b4 r, s = b0 :: b1 :: b2 :: b3 :: b4 :: r := by
  match s, h with
  | b0 :: b1 :: b2 :: b3 :: b4 :: r, _ => exact ⟨_, _, _, _, _, _, rfl⟩

/-- Induction by groups of five. -/
theorem five_induction {p : Bytes → Prop} (h0 : ∀ s : Bytes, s.length < 5 → p s)
    (h5 : ∀ b0 b1 b2 b3 b4 s, p s → p (b0 :: b1 :: b2 :: b3 :: b4 :: s)) (s : Bytes) : p s := by
  by_cases h : s.length < 5
  · exact h0 s h
  · obtain ⟨b0, b1, b2, b3, b4, r, rfl⟩ := five_or_less s (by omega)
    exact h5 _ _ _ _ _ _ (five_induction h0 h5 r)
termination_by s.length

/-- A short last group: its digits, and what they are packed to. -/
theorem encode_short {s : Bytes} (h : s.length < 5) :
    ∃ ds : List Nat, encode s = ds.map encChar ∧ (∀ d ∈ ds, d < 32) ∧ ds.length < 8 ∧ pack ds = s ∧
      (s ≠ [] → ds ≠ []) := by
  have e : ∀ (b : Byte) (n : Nat), n = b.toNat → UInt8.ofNat n = b := by rintro b n rfl; simp
  have z : (0 : Byte).toNat = 0 := rfl
  match s, h with
  | [], _ => exact ⟨[], rfl, by simp, by simp, rfl, by simp⟩
  | [b0], _ =>
    refine ⟨(quint b0 0 0 0 0).take 2, rfl, fun d hd => quint_lt d (List.mem_of_mem_take hd), by simp [quint], ?_, by simp [quint]⟩
    have h0 := b0.toNat_lt
    simp only [quint, List.take_succ_cons, List.take_zero, pack, z]
    rw [e b0]; omega
  | [b0, b1], _ =>
    refine ⟨(quint b0 b1 0 0 0).take 4, rfl, fun d hd => quint_lt d (List.mem_of_mem_take hd), by simp [quint], ?_, by simp [quint]⟩
    have h0 := b0.toNat_lt; have h1 := b1.toNat_lt
    simp only [quint, List.take_succ_cons, List.take_zero, pack, z]
    rw [e b0, e b1] <;> omega
  | [b0, b1, b2], _ =>
    refine ⟨(quint b0 b1 b2 0 0).take 5, rfl, fun d hd => quint_lt d (List.mem_of_mem_take hd), by simp [quint], ?_, by simp [quint]⟩
    have h0 := b0.toNat_lt; have h1 := b1.toNat_lt; have h2 := b2.toNat_lt
    simp only [quint, List.take_succ_cons, List.take_zero, pack, z]
    rw [e b0, e b1, e b2] <;> omega
  | [b0, b1, b2, b3], _ =>
    refine ⟨(quint b0 b1 b2 b3 0).take 7, rfl, fun d hd => quint_lt d (List.mem_of_mem_take hd), by simp [quint], ?_, by simp [quint]⟩
    have h0 := b0.toNat_lt; have h1 := b1.toNat_lt; have h2 := b2.toNat_lt; have h3 := b3.toNat_lt
    simp only [quint, List.take_succ_cons, List.take_zero, pack, z]
    rw [e b0, e b1, e b2, e b3] <;> omega

/-- Every character of an encoded text is in the alphabet. -/
theorem encode_chars (s : Bytes) : ∀ c ∈ encode s, ∃ d < 32, c = encChar d := by
  induction s using five_induction with
  | h0 s h =>
    obtain ⟨ds, he, hd, -, -, -⟩ := encode_short h
    rw [he]
    intro c hc
    obtain ⟨d, hd', rfl⟩ := List.mem_map.mp hc
    exact ⟨d, hd d hd', rfl⟩
  | h5 b0 b1 b2 b3 b4 s ih =>
    rw [encode_five]
    intro c hc
    rcases List.mem_append.mp hc with hc | hc
    · obtain ⟨d, hd', rfl⟩ := List.mem_map.mp hc
      exact ⟨d, quint_lt d hd', rfl⟩
    · exact ih c hc

theorem encode_length (s : Bytes) : (encode s).length = (8 * s.length + 4) / 5 := by
  induction s using five_induction with
  | h0 s h =>
    match s, h with
    | [], _ => rfl
    | [_], _ => simp [encode, quint]
    | [_, _], _ => simp [encode, quint]
    | [_, _, _], _ => simp [encode, quint]
    | [_, _, _, _], _ => simp [encode, quint]
  | h5 b0 b1 b2 b3 b4 s ih =>
    rw [encode_five]
    simp [quint, ih]; omega

theorem stripNewlines_id {s : Bytes} (h : ∀ c ∈ s, c ≠ 13 ∧ c ≠ 10) : stripNewlines s = s := by
  unfold stripNewlines
  rw [List.filter_eq_self]
  intro c hc
  simpa using h c hc

theorem stripNewlines_encode (s : Bytes) : stripNewlines (encode s) = encode s := by
  apply stripNewlines_id
  intro c hc
  obtain ⟨d, hd, rfl⟩ := encode_chars s c hc
  exact ⟨(encChar_ne hd).2.1, (encChar_ne hd).2.2⟩

theorem decodeLoop_encode (s : Bytes) : ∀ room, s.length ≤ room → decodeLoop room (encode s) = .ok s := by
  induction s using five_induction with
  | h0 s h =>
    intro room hr
    obtain ⟨ds, he, hd, hl, hp, hn⟩ := encode_short h
    rw [he]
    cases s with
    | nil => cases ds with
      | nil => simp [decodeLoop]
      | cons d ds => simp [encode] at he
    | cons b s =>
      have hne : ds.map encChar ≠ [] := by simpa using hn (by simp)
      unfold decodeLoop
      rw [dif_neg hne]
      have hq : quantum [] (ds.map encChar) = .ok (ds, [], true) := by
        have := quantum_digits (acc := []) (s := []) hd (by simp; omega)
        simp only [List.append_nil, List.nil_append] at this
        rw [this, quantum, if_neg (by omega)]
      split
      · rename_i h'; rw [hq] at h'; cases h'
      · rename_i h'; rw [hq] at h'; cases h'
      · rename_i h'
        rw [hq] at h'
        cases h'
        simp only [hp]
        rw [if_neg (by omega)]
        rfl
  | h5 b0 b1 b2 b3 b4 s ih =>
    intro room hr
    simp only [List.length_cons] at hr
    rw [encode_five]
    unfold decodeLoop
    rw [dif_neg (by simp [quint])]
    have hq : quantum [] ((quint b0 b1 b2 b3 b4).map encChar ++ encode s) = .ok (quint b0 b1 b2 b3 b4, encode s, false) := by
      rw [quantum_digits quint_lt (by simp [quint])]
      cases encode s <;> simp [quantum, quint]
    split
    · rename_i h'; rw [hq] at h'; cases h'
    · rename_i h'; rw [hq] at h'; cases h'
    · rename_i h'
      rw [hq] at h'
      cases h'
      simp only [pack_quint]
      rw [if_neg (by simp; omega), if_neg (by simp), ih (room - 5) (by omega)]
      rfl

/-- Decoding an encoded string gives it back. -/
theorem decode_encode {s : Bytes} {cap : Nat} (h : s.length ≤ cap) : decode cap (encode s) = .ok s := by
  rw [decode, stripNewlines_encode, decodeLoop_encode s cap h]

theorem decodeString_encode (s : Bytes) : decodeString (encode s) = .ok s := by
  rw [decodeString, stripNewlines_encode, decodeLoop_encode]
  rw [encode_length]; omega

theorem encode_injective {s t : Bytes} (h : encode s = encode t) : s = t := by
  have h1 := decodeString_encode s
  rw [h, decodeString_encode] at h1
  cases h1; rfl

theorem quantum_ds {acc : List Nat} {s : Bytes} {ds : List Nat} {r : Bytes} {e : Bool} (ha : acc.length ≤ 8)
    (h : quantum acc s = .ok (ds, r, e)) :
    ds.length ≤ 8 ∧ acc.length ≤ ds.length ∧ ds.length - acc.length + r.length ≤ s.length ∧
      (e = false → ds.length = 8 ∧ ∃ t : Bytes, s = t ++ r ∧ ds.length = acc.length + t.length ∧
        ∀ c ∈ t, (decChar c).isSome) := by
  induction s generalizing acc with
  | nil =>
    unfold quantum at h
    split at h
    · cases h; exact ⟨ha, by omega, by simp, fun _ => ⟨by omega, [], by simp⟩⟩
    · cases h; exact ⟨ha, by omega, by simp, by simp⟩
  | cons c s ih =>
    unfold quantum at h
    split at h
    · cases h; exact ⟨ha, by omega, by simp, fun _ => ⟨by omega, [], by simp⟩⟩
    · split at h
      · split at h
        · cases h
        · split at h
          · cases h
          · split at h
            · cases h
            · cases h
              exact ⟨ha, by omega, by simp, by simp⟩
      · split at h
        · cases h
        · rename_i d hd
          obtain ⟨h1, h2, h3, h4⟩ := ih (by simp; omega) h
          simp only [List.length_append, List.length_cons, List.length_nil] at h2 h3 h4
          refine ⟨h1, by omega, by simp; omega, fun he => ?_⟩
          obtain ⟨h5, t, rfl, h6, h7⟩ := h4 he
          refine ⟨h5, c :: t, by simp, by simp; omega, ?_⟩
          intro x hx
          rcases List.mem_cons.mp hx with rfl | hx
          · simp [hd]
          · exact h7 x hx

theorem quantum_ne_panic (acc : List Nat) (s : Bytes) : quantum acc s ≠ .panic := by
  induction s generalizing acc with
  | nil => unfold quantum; split <;> simp
  | cons c s ih =>
    unfold quantum
    repeat' split
    all_goals first | exact ih _ | simp

theorem pack_length (ds : List Nat) (h : ds.length ≤ 8) : 8 * (pack ds).length ≤ 5 * ds.length ∧ (pack ds).length ≤ 5 := by
  unfold pack
  split <;> simp

theorem pack_eight {ds : List Nat} (h : ds.length = 8) : (pack ds).length = 5 := by
  match ds, h with
  | [_, _, _, _, _, _, _, _], _ => rfl

/-- A large enough buffer never panics. -/
theorem decodeLoop_ne_panic (src : Bytes) : ∀ room, 5 * src.length ≤ 8 * room + 7 → decodeLoop room src ≠ .panic := by
  intro room hr
  induction hn : src.length using Nat.strongRecOn generalizing src room with
  | _ n ih =>
    unfold decodeLoop
    split
    · simp
    · rename_i hs
      split
      · simp
      · rename_i hq; exact absurd hq (quantum_ne_panic _ _)
      · rename_i ds r e hq
        obtain ⟨h1, -, h3, h4⟩ := quantum_ds (by simp) hq
        have hp := pack_length ds h1
        simp only [List.length_nil, Nat.sub_zero] at h3
        simp only
        rw [if_neg (by omega)]
        split
        · simp
        · rename_i he
          have h8 := (h4 (by simpa using he)).1
          have hlt := (quantum_length hq).2 (by simp) hs
          have := ih r.length (by omega) r (room - 5) (by omega) rfl
          cases hd : decodeLoop (room - 5) r with
          | ok t => simp [Res.bind]
          | err e => simp [Res.bind]
          | panic => exact absurd hd this

/-- What is written fits in the buffer. -/
theorem decodeLoop_length (src : Bytes) : ∀ room out, decodeLoop room src = .ok out → out.length ≤ room := by
  intro room out
  induction hn : src.length using Nat.strongRecOn generalizing src room out with
  | _ n ih =>
    intro h
    unfold decodeLoop at h
    split at h
    · cases h; simp
    · rename_i hs
      split at h
      · cases h
      · cases h
      · rename_i ds r e hq
        simp only at h
        split at h
        · cases h
        · split at h
          · cases h; omega
          · rename_i h5 he
            cases hd : decodeLoop (room - 5) r with
            | err e => rw [hd] at h; cases h
            | panic => rw [hd] at h; cases h
            | ok t =>
              rw [hd] at h
              cases h
              have hlt := (quantum_length hq).2 (by simp) hs
              have h1 := ih r.length (by omega) r (room - 5) t rfl hd
              obtain ⟨-, -, -, h4⟩ := quantum_ds (by simp) hq
              have h8 := pack_eight (h4 (by simpa using he)).1
              simp; omega

/-- Five bits for each character. -/
theorem decodeLoop_bits (src : Bytes) : ∀ room out, decodeLoop room src = .ok out → 8 * out.length ≤ 5 * src.length := by
  intro room out
  induction hn : src.length using Nat.strongRecOn generalizing src room out with
  | _ n ih =>
    intro h
    unfold decodeLoop at h
    split at h
    · cases h; simp
    · rename_i hs
      split at h
      · cases h
      · cases h
      · rename_i ds r e hq
        obtain ⟨h1, -, h3, h4⟩ := quantum_ds (by simp) hq
        have hp := pack_length ds h1
        simp only [List.length_nil, Nat.sub_zero] at h3
        simp only at h
        split at h
        · cases h
        · split at h
          · cases h; omega
          · rename_i h5 he
            cases hd : decodeLoop (room - 5) r with
            | err e => rw [hd] at h; cases h
            | panic => rw [hd] at h; cases h
            | ok t =>
              rw [hd] at h
              cases h
              have hlt := (quantum_length hq).2 (by simp) hs
              have h6 := ih r.length (by omega) r (room - 5) t rfl hd
              simp; omega

theorem quantum_end {acc : List Nat} {s : Bytes} {ds : List Nat} {r : Bytes} (h : quantum acc s = .ok (ds, r, true)) :
    ds.length < 8 := by
  induction s generalizing acc with
  | nil => unfold quantum at h; split at h <;> cases h; omega
  | cons c s ih =>
    unfold quantum at h
    split at h
    · cases h
    · split at h
      · split at h
        · cases h
        · split at h
          · cases h
          · split at h
            · cases h
            · cases h; omega
      · split at h
        · cases h
        · exact ih h

/-- Eight characters of the alphabet make a full quantum. -/
theorem quantum_full {t : Bytes} {acc : List Nat} (s : Bytes) (ht : ∀ c ∈ t, (decChar c).isSome) (hl : acc.length + t.length = 8) :
    ∃ ds, quantum acc (t ++ s) = .ok (ds, s, false) ∧ ds.length = 8 := by
  induction t generalizing acc with
  | nil =>
    simp only [List.length_nil, Nat.add_zero] at hl
    refine ⟨acc, ?_, hl⟩
    cases s <;> simp [quantum, hl]
  | cons c t ih =>
    simp only [List.length_cons] at hl
    obtain ⟨d, hd⟩ := Option.isSome_iff_exists.mp (ht c (by simp))
    have hc : c ≠ 0xFF := by rintro rfl; have h0 : decChar 0xFF = none := by decide
                             rw [h0] at hd; cases hd
    obtain ⟨ds, h1, h2⟩ := ih (acc := acc ++ [d]) (fun x hx => ht x (by simp [hx])) (by simp; omega)
    refine ⟨ds, ?_, h2⟩
    rw [List.cons_append, quantum, if_neg (by omega), if_neg (by rintro ⟨h', -⟩; exact hc h'), hd]
    exact h1

theorem decodeLoop_step {room : Nat} {src : Bytes} {ds : List Nat} {r : Bytes} {e : Bool} (hs : src ≠ [])
    (hq : quantum [] src = .ok (ds, r, e)) :
    decodeLoop room src = if room < (pack ds).length then .panic else if e then .ok (pack ds)
      else (decodeLoop (room - 5) r).bind fun t => .ok (pack ds ++ t) := by
  conv => lhs; unfold decodeLoop
  rw [dif_neg hs]
  split
  · rename_i h'; rw [hq] at h'; cases h'
  · rename_i h'; rw [hq] at h'; cases h'
  · rename_i h'; rw [hq] at h'; cases h'; rfl

theorem decodeLoop_err {room : Nat} {src : Bytes} {e : Err} (hs : src ≠ []) (hq : quantum [] src = .err e) :
    decodeLoop room src = .err e := by
  unfold decodeLoop
  rw [dif_neg hs]
  split
  · rename_i h'; rw [hq] at h'; cases h'; rfl
  · rename_i h'; rw [hq] at h'; cases h'
  · rename_i h'; rw [hq] at h'; cases h'

/-- Exactly when decoding into a buffer whose size leaves a remainder of four panics: the first characters, one group
more than fit, are all characters of the alphabet. -/
theorem decodeLoop_panic (k : Nat) (src : Bytes) :
    decodeLoop (5 * k + 4) src = .panic ↔ 8 * k + 8 ≤ src.length ∧ ∀ c ∈ src.take (8 * k + 8), (decChar c).isSome := by
  induction k generalizing src with
  | zero =>
    constructor
    · intro h
      by_cases hs : src = []
      · subst hs; simp [decodeLoop] at h
      · cases hq : quantum [] src with
        | err e => rw [decodeLoop_err hs hq] at h; cases h
        | panic => exact absurd hq (quantum_ne_panic _ _)
        | ok q =>
          obtain ⟨ds, r, e⟩ := q
          rw [decodeLoop_step hs hq] at h
          obtain ⟨h1, -, h3, h4⟩ := quantum_ds (by simp) hq
          cases e with
          | true =>
            have h5 := quantum_end hq
            have h6 := pack_length ds h1
            rw [if_neg (by omega)] at h
            cases h
          | false =>
            obtain ⟨h5, t, rfl, h6, h7⟩ := h4 rfl
            simp only [List.length_nil] at h6
            refine ⟨by simp; omega, ?_⟩
            have : (t ++ r).take (8 * 0 + 8) = t := by
              have : 8 * 0 + 8 = t.length := by omega
              rw [this, List.take_left']; rfl
            rw [this]; exact h7
    · rintro ⟨h1, h2⟩
      have hs : src ≠ [] := by rintro rfl; simp at h1
      obtain ⟨ds, hq, h8⟩ := quantum_full (t := src.take 8) (acc := []) (src.drop 8) h2 (by simp at h1 ⊢; omega)
      rw [List.take_append_drop] at hq
      rw [decodeLoop_step hs hq, if_pos (by rw [pack_eight h8]; omega)]
  | succ k ih =>
    have hroom : 5 * (k + 1) + 4 - 5 = 5 * k + 4 := by omega
    constructor
    · intro h
      by_cases hs : src = []
      · subst hs; simp [decodeLoop] at h
      · cases hq : quantum [] src with
        | err e => rw [decodeLoop_err hs hq] at h; cases h
        | panic => exact absurd hq (quantum_ne_panic _ _)
        | ok q =>
          obtain ⟨ds, r, e⟩ := q
          rw [decodeLoop_step hs hq] at h
          obtain ⟨h1, -, h3, h4⟩ := quantum_ds (by simp) hq
          have h6 := pack_length ds h1
          rw [if_neg (by omega)] at h
          cases e with
          | true => cases h
          | false =>
            obtain ⟨h5, t, rfl, h6, h7⟩ := h4 rfl
            simp only [List.length_nil] at h6
            rw [if_neg (by simp), hroom] at h
            have hp : decodeLoop (5 * k + 4) r = .panic := by
              cases hd : decodeLoop (5 * k + 4) r with
              | ok t => rw [hd] at h; cases h
              | err e => rw [hd] at h; cases h
              | panic => rfl
            obtain ⟨g1, g2⟩ := (ih r).mp hp
            refine ⟨by simp; omega, ?_⟩
            have : (t ++ r).take (8 * (k + 1) + 8) = t ++ r.take (8 * k + 8) := by
              have : 8 * (k + 1) + 8 = t.length + (8 * k + 8) := by omega
              rw [this, List.take_length_add_append]
            rw [this]
            intro c hc
            rcases List.mem_append.mp hc with hc | hc
            · exact h7 c hc
            · exact g2 c hc
    · rintro ⟨h1, h2⟩
      have hs : src ≠ [] := by rintro rfl; simp at h1
      have ht : src.take (8 * (k + 1) + 8) = src.take 8 ++ (src.drop 8).take (8 * k + 8) := by
        have : 8 * (k + 1) + 8 = 8 + (8 * k + 8) := by omega
        rw [this, List.take_add]
      rw [ht] at h2
      obtain ⟨ds, hq, h8⟩ := quantum_full (t := src.take 8) (acc := []) (src.drop 8)
        (fun c hc => h2 c (by simp [hc])) (by simp; omega)
      rw [List.take_append_drop] at hq
      rw [decodeLoop_step hs hq, if_neg (by rw [pack_eight h8]; omega), if_neg (by simp), hroom,
        (ih _).mpr ⟨by simp; omega, fun c hc => h2 c (by simp [hc])⟩]
      rfl

end Verif.Go.Base32
