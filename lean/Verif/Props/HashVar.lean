import Verif.Tiger.HashVar
import Verif.Spec.HashVar
import Verif.Props.Identifiers

/-!
# Variables that hold a hash or an identifier (C92)
-/

namespace Verif.Props.HashVar

open Verif.Go Verif.Spec Verif.Tiger Verif.Adc

/-- The number that the digits of a group give. -/
theorem number_pack {ds : List Nat} (hd : ∀ d ∈ ds, d < 32) (hl : ds.length ≤ 8) (hp : Base32.pack ds ≠ []) :
    (Base32.pack ds).length = 5 * ds.length / 8 ∧
      Spec.Base32.number 256 ((Base32.pack ds).map UInt8.toNat) = Spec.Base32.number 32 ds / 2 ^ (5 * ds.length % 8) := by
  match ds, hl with
  | [], _ => exact absurd rfl hp
  | [_], _ => exact absurd rfl hp
  | [_, _, _], _ => exact absurd rfl hp
  | [_, _, _, _, _, _], _ => exact absurd rfl hp
  | [d0, d1], _ =>
    simp only [List.mem_cons, List.not_mem_nil, or_false, forall_eq_or_imp, forall_eq] at hd
    obtain ⟨h0, h1⟩ := hd
    refine ⟨by simp [Base32.pack], ?_⟩
    simp only [Base32.pack, List.map_cons, List.map_nil, Spec.Base32.number, List.foldl_cons, List.foldl_nil, List.length_cons, List.length_nil,
      Nat.reduceAdd, Nat.reduceMul, Nat.reduceMod, Nat.reducePow]
    rw [Base32.toNat_ofNat_lt (by omega)]
    omega
  | [d0, d1, d2, d3], _ =>
    simp only [List.mem_cons, List.not_mem_nil, or_false, forall_eq_or_imp, forall_eq] at hd
    obtain ⟨h0, h1, h2, h3⟩ := hd
    refine ⟨by simp [Base32.pack], ?_⟩
    simp only [Base32.pack, List.map_cons, List.map_nil, Spec.Base32.number, List.foldl_cons, List.foldl_nil, List.length_cons, List.length_nil,
      Nat.reduceAdd, Nat.reduceMul, Nat.reduceMod, Nat.reducePow]
    rw [Base32.toNat_ofNat_lt (by omega), Base32.toNat_ofNat_lt (by omega)]
    omega
  | [d0, d1, d2, d3, d4], _ =>
    simp only [List.mem_cons, List.not_mem_nil, or_false, forall_eq_or_imp, forall_eq] at hd
    obtain ⟨h0, h1, h2, h3, h4⟩ := hd
    refine ⟨by simp [Base32.pack], ?_⟩
    simp only [Base32.pack, List.map_cons, List.map_nil, Spec.Base32.number, List.foldl_cons, List.foldl_nil, List.length_cons, List.length_nil,
      Nat.reduceAdd, Nat.reduceMul, Nat.reduceMod, Nat.reducePow]
    rw [Base32.toNat_ofNat_lt (by omega), Base32.toNat_ofNat_lt (by omega), Base32.toNat_ofNat_lt (by omega)]
    omega
  | [d0, d1, d2, d3, d4, d5, d6], _ =>
    obtain ⟨h1, h2⟩ := Base32.number_pack_seven (ds := [d0, d1, d2, d3, d4, d5, d6]) rfl hd
    exact ⟨by simp [Base32.pack], by rw [h2]; simp⟩
  | [d0, d1, d2, d3, d4, d5, d6, d7], _ =>
    obtain ⟨h1, h2⟩ := Base32.number_pack_eight (ds := [d0, d1, d2, d3, d4, d5, d6, d7]) rfl hd
    exact ⟨by simp [Base32.pack], by rw [h2]; simp⟩

/-- What the loop has written, `w`, and what it returns. -/
theorem into_spec (src : Bytes) : ∀ (buf : Bytes) (n : Nat), n ≤ buf.length → ∃ (w : Bytes) (ds : List Nat) (tail : Bytes),
    (Base32.intoLoop buf n src).1 = buf.take n ++ w ++ buf.drop (n + w.length) ∧ n + w.length ≤ buf.length ∧
    (∀ d ∈ ds, d < 32) ∧ src = ds.map Base32.encChar ++ tail ∧ w.length = 5 * ds.length / 8 ∧
    Spec.Base32.number 256 (w.map UInt8.toNat) = Spec.Base32.number 32 ds / 2 ^ (5 * ds.length % 8) ∧
    (∀ k, 8 * k ≤ src.length → (∀ c ∈ src.take (8 * k), (Base32.decChar c).isSome) → n + 5 * k ≤ buf.length → 8 * k ≤ ds.length) ∧
    (Base32.intoLoop buf n src).2 = (match Base32.decodeLoop (buf.length - n) src with
      | .ok out => .ok (n + out.length) | .err e => .err e | .panic => .panic) ∧
    (∀ out, Base32.decodeLoop (buf.length - n) src = .ok out → out = w) := by
  generalize hk : src.length = k
  induction k using Nat.strongRecOn generalizing src with
  | ind k ih =>
    subst hk
    intro buf n hn
    by_cases hs : src = []
    · subst hs
      refine ⟨[], [], [], ?_, by simpa using hn, by simp, rfl, rfl, by simp [Spec.Base32.number], ?_, ?_, ?_⟩
      · unfold Base32.intoLoop; simp
      · intro k hk _ _; simpa using hk
      · unfold Base32.intoLoop Base32.decodeLoop; simp
      · intro out h; unfold Base32.decodeLoop at h; simp at h; exact h
    · cases hq : Base32.quantum [] src with
      | panic => exact absurd hq (Base32.quantum_ne_panic _ _)
      | err e =>
        rw [Base32.intoLoop_err hs hq, Base32.decodeLoop_err hs hq]
        refine ⟨[], [], src, by simp, by simpa using hn, by simp, rfl, rfl, by simp [Spec.Base32.number], ?_, rfl, by simp⟩
        intro k hk hv _
        cases k with
        | zero => simp
        | succ k =>
          exfalso
          obtain ⟨ds, h, -⟩ := Base32.quantum_full (t := src.take 8) (acc := []) (src.drop 8)
            (fun c hc => hv c (by
              have : src.take 8 = (src.take (8 * (k + 1))).take 8 := by rw [List.take_take, Nat.min_eq_left (by omega)]
              rw [this] at hc; exact List.mem_of_mem_take hc)) (by simp <;> omega)
          rw [List.take_append_drop, hq] at h
          cases h
      | ok q =>
        obtain ⟨ds, r, e⟩ := q
        obtain ⟨es, tail, h1, h2, h3, h4, h5⟩ := Base32.quantum_inv hq
        rw [List.nil_append] at h1
        subst h1
        obtain ⟨hl, -, -, hl8⟩ := Base32.quantum_ds (by simp) hq
        have full : ∀ k, 8 * (k + 1) ≤ src.length → (∀ c ∈ src.take (8 * (k + 1)), (Base32.decChar c).isSome) → e = false ∧ ds.length = 8 := by
          intro k hk hv
          obtain ⟨ds', h, h'⟩ := Base32.quantum_full (t := src.take 8) (acc := []) (src.drop 8)
            (fun c hc => hv c (by
              have : src.take 8 = (src.take (8 * (k + 1))).take 8 := by rw [List.take_take, Nat.min_eq_left (by omega)]
              rw [this] at hc; exact List.mem_of_mem_take hc)) (by simp <;> omega)
          rw [List.take_append_drop, hq] at h
          cases h
          exact ⟨rfl, h'⟩
        rw [Base32.intoLoop_step hs hq, Base32.decodeLoop_step hs hq]
        by_cases hroom : buf.length < n + (Base32.pack ds).length
        · rw [if_pos hroom, if_pos (by omega)]
          refine ⟨[], [], src, by simp, by simpa using hn, by simp, rfl, rfl, by simp [Spec.Base32.number], ?_, rfl, by simp⟩
          intro k hk hv hb
          cases k with
          | zero => simp
          | succ k =>
            have := Base32.pack_eight (full k hk hv).2
            omega
        rw [if_neg hroom, if_neg (show ¬ buf.length - n < (Base32.pack ds).length by omega)]
        cases e with
        | true =>
          have kb : ∀ (m k : Nat), 8 * k ≤ src.length → (∀ c ∈ src.take (8 * k), (Base32.decChar c).isSome) → n + 5 * k ≤ buf.length → 8 * k ≤ m := by
            intro m k hk hv hb
            cases k with
            | zero => omega
            | succ k => cases (full k hk hv).1
          by_cases hp : Base32.pack ds = []
          · exact ⟨Base32.pack ds, [], src, rfl, by omega, by simp, rfl, by simp [hp], by simp [hp, Spec.Base32.number], kb _, rfl,
              fun out h => by simpa using h.symm⟩
          · obtain ⟨p1, p2⟩ := number_pack h2 hl hp
            exact ⟨Base32.pack ds, ds, tail, rfl, by omega, h2, h3, p1, p2, kb _, rfl, fun out h => by simpa using h.symm⟩
        | false =>
          have h4 := h4 rfl
          subst h4
          have h8 : ds.length = 8 := (hl8 rfl).1
          obtain ⟨p1, p2⟩ := Base32.number_pack_eight h8 h2
          have hlb : (buf.take n ++ Base32.pack ds ++ buf.drop (n + (Base32.pack ds).length)).length = buf.length := by
            simp only [List.length_append, List.length_take, List.length_drop]; omega
          obtain ⟨w, ds', tail', g1, g2, g3, g4, g5, g6, g7, g8, g9⟩ := ih tail.length (by rw [h3]; simp; omega) tail rfl
            (buf.take n ++ Base32.pack ds ++ buf.drop (n + (Base32.pack ds).length)) (n + 5) (by rw [hlb]; omega)
          rw [hlb] at g2 g7 g8 g9
          have htk : (buf.take n ++ Base32.pack ds ++ buf.drop (n + (Base32.pack ds).length)).take (n + 5) = buf.take n ++ Base32.pack ds :=
            List.take_left' (by simp [p1]; omega)
          have hdr : ∀ j, (buf.take n ++ Base32.pack ds ++ buf.drop (n + (Base32.pack ds).length)).drop (n + 5 + j) = buf.drop (n + 5 + j) := by
            intro j
            have : (buf.take n ++ Base32.pack ds).length = n + 5 := by simp [p1]; omega
            rw [← this, ← List.drop_drop, List.drop_left, List.drop_drop, p1, this]
          have hrm : buf.length - (n + 5) = buf.length - n - 5 := by omega
          rw [hrm] at g8 g9
          refine ⟨Base32.pack ds ++ w, ds ++ ds', tail', ?_, ?_, ?_, ?_, ?_, ?_, ?_, ?_, ?_⟩
          · simp only [Bool.false_eq_true, if_false]
            rw [g1, htk, hdr]
            simp [p1, Nat.add_assoc]
          · simp [p1]; omega
          · intro d hd
            rcases List.mem_append.mp hd with hd | hd
            · exact h2 d hd
            · exact g3 d hd
          · rw [h3, g4]; simp
          · simp [p1, h8, g5]; omega
          · have hm : 5 * (ds ++ ds').length % 8 = 5 * ds'.length % 8 := by simp [h8]; omega
            have hpow : 32 ^ ds'.length = 256 ^ w.length * 2 ^ (5 * ds'.length % 8) := by
              rw [show (32 : Nat) = 2 ^ 5 from rfl, show (256 : Nat) = 2 ^ 8 from rfl, ← Nat.pow_mul, ← Nat.pow_mul, ← Nat.pow_add]
              congr 1; omega
            rw [hm, List.map_append, Base32.number_append, Base32.number_append, p2, g6, List.length_map, hpow, ← Nat.mul_assoc, Nat.add_comm,
              Nat.add_comm (_ * 2 ^ _), Nat.add_mul_div_right _ _ (Nat.pow_pos (by omega))]
          · intro k hk hv hb
            cases k with
            | zero => omega
            | succ k =>
              have := g7 k (by rw [h3] at hk; simp [h8] at hk; omega) (fun c hc => hv c (by
                rw [h3, List.take_append]
                refine List.mem_append_right _ ?_
                rw [List.length_map, h8]
                exact hc)) (by omega)
              simp [h8]; omega
          · simp only [Bool.false_eq_true, if_false]
            rw [g8]
            cases hd : Base32.decodeLoop (buf.length - n - 5) tail with
            | ok out => simp [Res.bind, p1]; omega
            | err e => rfl
            | panic => rfl
          · intro out h
            simp only [Bool.false_eq_true, if_false] at h
            obtain ⟨o, ho, h⟩ := Res.bind_eq_ok.mp h
            cases h
            rw [g9 o ho]

/-- A text sets the variable to what it names; a text that names nothing is refused and leaves it. -/
theorem text_set (h : Hash) (s : Bytes) :
    (∀ x : Hash, Spec.Base32.Names s x.bytes → h.setText s = (x, .ok ())) ∧
      ((¬ ∃ x, Spec.Base32.Names s x) → ∃ e, h.setText s = (h, .err e)) := by
  refine ⟨fun x hx => ?_, fun hx => ?_⟩
  · rw [Hash.setText, (Identifiers.hash_exact s x).mpr hx]
  · unfold Hash.setText
    cases hf : Hash.fromBase32 s with
    | ok x => exact absurd ⟨x.bytes, (Identifiers.hash_exact s x).mp hf⟩ hx
    | err e => exact ⟨e, rfl⟩
    | panic => exact absurd hf (Identifiers.fromBase32_ne_panic s)

theorem names_size {s x : Bytes} (h : Spec.Base32.Names s x) : x.length = 24 := by
  obtain ⟨_, _, _, _, _, _, h, _⟩ := h
  exact h

theorem valid_iff (s : Bytes) (k : Nat) : Spec.HashVar.Valid s k ↔
    k ≤ (Base32.stripNewlines s).length ∧ ∀ c ∈ (Base32.stripNewlines s).take k, (Base32.decChar c).isSome := by
  have : ∀ c : Byte, c ∈ Spec.Base32.alphabet ↔ (Base32.decChar c).isSome = true := by apply forall_byte; decide +kernel
  unfold Spec.HashVar.Valid
  simp only [this]
  exact Iff.rfl

theorem setBuffer_outcome (h : Hash) (buf : Bytes) :
    (h.setBuffer buf).2 = (match Hash.unmarshalBase32 buf with | .ok _ => .ok () | .err e => .err e | .panic => .panic) := by
  obtain ⟨w, ds, tail, g1, g2, g3, g4, g5, g6, g7, g8, g9⟩ := into_spec (Base32.stripNewlines buf) h.bytes 0 (by omega)
  simp only [Nat.zero_add] at g8
  have hdec : Base32.decodeLoop h.bytes.length (Base32.stripNewlines buf) = Base32.decode 24 buf := by rw [h.size]; rfl
  simp only [Nat.sub_zero] at g8
  rw [hdec] at g8
  unfold Hash.setBuffer Hash.unmarshalBase32 Base32.into
  simp only
  rw [g8]
  cases Base32.decode 24 buf with
  | ok out =>
    simp only
    by_cases hl : out.length = 24
    · simp [hl]
    · simp [hl]
  | err e => rfl
  | panic => rfl

/-- A buffer sets the variable to what it names. A buffer that names nothing is refused, or the call panics; then the first bytes of the variable
are those that the first characters of the buffer give, at least those of all full groups, and the others are left. -/
theorem buffer_set (h : Hash) (buf : Bytes) :
    (∀ x : Hash, Spec.Base32.Names buf x.bytes → h.setBuffer buf = (x, .ok ())) ∧
      ((¬ ∃ x, Spec.Base32.Names buf x) → (h.setBuffer buf).2 ≠ .ok () ∧
        ∃ bs, Spec.HashVar.Begun buf bs ∧ bs.length ≤ 24 ∧ (h.setBuffer buf).1.bytes = bs ++ h.bytes.drop bs.length ∧
          ∀ k ≤ 4, Spec.HashVar.Valid buf (8 * k) → 5 * k ≤ bs.length) ∧
      ((h.setBuffer buf).2 = .panic ↔ Spec.HashVar.Valid buf 40) := by
  obtain ⟨w, ds, tail, g1, g2, g3, g4, g5, g6, g7, g8, g9⟩ := into_spec (Base32.stripNewlines buf) h.bytes 0 (by omega)
  simp only [List.take_zero, List.nil_append, Nat.zero_add, Nat.sub_zero] at g1 g2 g7 g8 g9
  have hdec : Base32.decodeLoop h.bytes.length (Base32.stripNewlines buf) = Base32.decode 24 buf := by rw [h.size]; rfl
  rw [hdec] at g8 g9
  have hout := setBuffer_outcome h buf
  refine ⟨fun x hx => ?_, fun hx => ⟨fun hok => ?_, w, ⟨ds, tail, g3, ?_, g5, g6⟩, by rw [← h.size]; exact g2, g1, fun k hk hv => ?_⟩, ?_⟩
  · have hu := (Identifiers.hash_buffer_exact buf x).mpr hx
    refine Prod.ext ?_ (by rw [hout, hu])
    unfold Hash.unmarshalBase32 at hu
    cases hd : Base32.decode 24 buf with
    | err e => rw [hd] at hu; cases hu
    | panic => rw [hd] at hu; cases hu
    | ok out =>
      rw [hd] at hu
      simp only at hu
      split at hu
      · rename_i hl
        cases hu
        have : out = w := g9 out hd
        subst this
        have hb : (h.setBuffer buf).1.bytes = out := by
          show (Base32.into h.bytes buf).1 = out
          unfold Base32.into
          rw [g1, List.drop_of_length_le (by rw [h.size, hl]; omega), List.append_nil]
        cases hs : (h.setBuffer buf).1 with
        | mk b sz => rw [hs] at hb; simp only at hb; subst hb; rfl
      · cases hu
  · rw [hout] at hok
    cases hu : Hash.unmarshalBase32 buf with
    | ok x => exact hx ⟨x.bytes, (Identifiers.hash_buffer_exact buf x).mp hu⟩
    | err e => rw [hu] at hok; cases hok
    | panic => rw [hu] at hok; cases hok
  · rw [Identifiers.map_alphabet g3]; exact g4
  · obtain ⟨v1, v2⟩ := (valid_iff _ _).mp hv
    have := g7 k v1 v2 (by rw [h.size]; omega)
    omega
  · rw [hout, show Spec.HashVar.Valid buf 40 ↔ Hash.unmarshalBase32 buf = .panic from (Identifiers.unmarshalBase32_panic_iff buf).symm]
    cases Hash.unmarshalBase32 buf <;> simp

/-- A refused buffer may change the variable: all but the last four bytes are lost. -/
theorem buffer_mixes : ∃ (h : Hash) (buf : Bytes) (e : Err), (h.setBuffer buf).2 = .err e ∧ (h.setBuffer buf).1 ≠ h ∧
    (h.setBuffer buf).1.bytes = List.replicate 20 255 ++ List.replicate 4 0 :=
  ⟨.zero, List.replicate 32 c!"7" ++ b!"!", Base32.corrupt, by decide +kernel, by decide +kernel, by decide +kernel⟩

/-- Parsing a constant: what the text names, or a panic. -/
theorem must_parse (s : Bytes) :
    (∀ x : Hash, Spec.Base32.Names s x.bytes → mustParse s = .ok x) ∧ ((¬ ∃ x, Spec.Base32.Names s x) → mustParse s = .panic) := by
  refine ⟨fun x hx => ?_, fun hx => ?_⟩
  · rw [mustParse, (text_set .zero s).1 x hx]
  · obtain ⟨e, he⟩ := (text_set .zero s).2 hx
    rw [mustParse, he]

/-- Each call has the outcome it has on the value that the calls before it have left, and the calls after it do not change that. -/
theorem run_outcomes (h : Hash) (pre post : List HashCall) (c : HashCall) :
    (h.run (pre ++ c :: post)).2[pre.length]? = some ((h.run pre).1.step c).2 := by
  induction pre generalizing h with
  | nil => rfl
  | cons x pre ih => exact ih (h.step x).1

example : ((Hash.zero.run [.text b!"MFRGGZDFMZTWQ2LKNNWG23TPOBYXE43UOV3HO6A", .text b!"short"]).2.map (fun r => decide (r = .ok ()))) = [true, false] := by decide +kernel

/-- After any calls with texts the variable holds what the last text that names anything names, or else its first value. -/
theorem run_texts (h : Hash) (ss : List Bytes) :
    ((h.run (ss.map .text)).1 = h ∧ ∀ s ∈ ss, ¬ ∃ x, Spec.Base32.Names s x) ∨
      ∃ pre s post, ss = pre ++ s :: post ∧ Spec.Base32.Names s (h.run (ss.map .text)).1.bytes ∧ ∀ t ∈ post, ¬ ∃ x, Spec.Base32.Names t x := by
  induction ss generalizing h with
  | nil => exact .inl ⟨rfl, by simp⟩
  | cons s ss ih =>
    simp only [List.map_cons, Hash.run]
    rcases ih (h.step (.text s)).1 with ⟨h1, h2⟩ | ⟨pre, t, post, h1, h2, h3⟩
    · by_cases hn : ∃ x, Spec.Base32.Names s x
      · obtain ⟨x, hx⟩ := hn
        refine .inr ⟨[], s, ss, rfl, ?_, h2⟩
        rw [h1]
        show Spec.Base32.Names s (h.setText s).1.bytes
        rw [(text_set h s).1 ⟨x, names_size hx⟩ hx]
        exact hx
      · obtain ⟨e, he⟩ := (text_set h s).2 hn
        refine .inl ⟨?_, fun t ht => ?_⟩
        · rw [h1]; show (h.setText s).1 = h; rw [he]
        · rcases List.mem_cons.mp ht with rfl | ht
          · exact hn
          · exact h2 t ht
    · exact .inr ⟨s :: pre, t, post, by rw [h1]; rfl, h2, h3⟩

/-! ### Text forms -/

theorem hex_digits (bs : Bytes) : (bs.flatMap fun b => [hexChar (b.toNat / 16), hexChar (b.toNat % 16)]) =
    (Spec.Base32.digits 16 (2 * bs.length) (Spec.Base32.number 256 (bs.map UInt8.toNat))).map (fun d => b!"0123456789abcdef".getD d 0) := by
  generalize hn : bs.length = n
  induction n generalizing bs with
  | zero => rw [List.length_eq_zero_iff] at hn; subst hn; rfl
  | succ n ih =>
    rcases List.eq_nil_or_concat bs with rfl | ⟨t, b, rfl⟩
    · cases hn
    · rw [List.concat_eq_append] at *
      have hb := b.toNat_lt
      rw [List.flatMap_append, ih t (by simpa using hn), List.map_append, List.map_singleton, Base32.number_snoc,
        show 2 * (n + 1) = 2 * n + 1 + 1 by omega, Spec.Base32.digits, Spec.Base32.digits]
      generalize Spec.Base32.number 256 (t.map UInt8.toNat) = m
      rw [show (m * 256 + b.toNat) / 16 / 16 = m by omega, show (m * 256 + b.toNat) / 16 % 16 = b.toNat / 16 by omega,
        show (m * 256 + b.toNat) % 16 = b.toNat % 16 by omega]
      simp [hexChar]

/-- The hexadecimal form: 48 small hexadecimal digits of the number the bytes make. -/
theorem hex_form (h : Hash) :
    h.hex = (Spec.Base32.digits 16 48 (Spec.Base32.number 256 (h.bytes.map UInt8.toNat))).map (fun d => b!"0123456789abcdef".getD d 0) := by
  rw [Hash.hex, hex_digits, h.size]

theorem hex_pair : ∀ a b : Fin 16, hexChar a.val = hexChar b.val → a = b := by decide +kernel

theorem hex_injective {h1 h2 : Hash} (h : h1.hex = h2.hex) : h1 = h2 := by
  have key : ∀ a b : Bytes, a.length = b.length → (a.flatMap fun b => [hexChar (b.toNat / 16), hexChar (b.toNat % 16)]) =
      (b.flatMap fun b => [hexChar (b.toNat / 16), hexChar (b.toNat % 16)]) → a = b := by
    intro a
    induction a with
    | nil => intro b hb _; exact (List.length_eq_zero_iff.mp hb.symm).symm
    | cons x a ih =>
      intro b hb h
      cases b with
      | nil => cases hb
      | cons y b =>
        simp only [List.flatMap_cons, List.cons_append, List.nil_append, List.cons.injEq] at h
        have hx := x.toNat_lt
        have hy := y.toNat_lt
        have e1 := congrArg Fin.val (hex_pair ⟨x.toNat / 16, by omega⟩ ⟨y.toNat / 16, by omega⟩ h.1)
        have e2 := congrArg Fin.val (hex_pair ⟨x.toNat % 16, by omega⟩ ⟨y.toNat % 16, by omega⟩ h.2.1)
        simp only at e1 e2
        rw [ih b (by simpa using hb) h.2.2, UInt8.toNat_inj.mp (show x.toNat = y.toNat by omega)]
  obtain ⟨a, ha⟩ := h1
  obtain ⟨b, hb⟩ := h2
  have : a = b := key a b (by omega) h
  subst this
  rfl

/-- Whatever is written into a buffer or given as text sets any variable to the same hash, by every method. -/
theorem forms_back (h g : Hash) : g.setText h.string = (h, .ok ()) ∧ g.setBuffer h.string = (h, .ok ()) ∧
    (∀ buf, g.setBuffer ((h.appendTo buf).drop buf.length) = (h, .ok ())) ∧ mustParse h.string = .ok h := by
  have hn : Spec.Base32.Names h.base32 h.bytes := (Identifiers.hash_exact _ _).mp h.from_base32
  refine ⟨(text_set g _).1 h hn, (buffer_set g _).1 h hn, fun buf => ?_, (must_parse _).1 h hn⟩
  rw [Hash.appendTo, List.drop_left]
  exact (buffer_set g _).1 h hn

/-- The zero hash is the one whose text is all `A`, and the one whose hexadecimal form is all `0`. -/
theorem zero_iff (h : Hash) : (h.isZero = true ↔ ∀ b ∈ h.bytes, b = 0) ∧ (h.isZero = true ↔ h.string = List.replicate 39 c!"A") ∧
    (h.isZero = true ↔ h.hex = List.replicate 48 c!"0") := by
  have hz : h.isZero = true ↔ h = .zero := by simp [Hash.isZero]
  refine ⟨?_, ?_, ?_⟩
  · rw [hz]
    constructor
    · rintro rfl; decide
    · intro hb
      obtain ⟨b, hl⟩ := h
      have : b = List.replicate 24 0 := List.eq_replicate_iff.mpr ⟨hl, hb⟩
      subst this; rfl
  · rw [hz]
    constructor
    · rintro rfl; decide +kernel
    · intro h'
      exact Identifiers.hash_injective (h'.trans (by decide +kernel))
  · rw [hz]
    constructor
    · rintro rfl; decide +kernel
    · intro h'
      exact hex_injective (h'.trans (by decide +kernel))

/-- A session identifier: four bytes, or the variable is left. -/
theorem sid_set (id : SID) (s : Bytes) :
    (s.length = 4 → (id.set s).1.bytes = s ∧ (id.set s).2 = .ok ()) ∧ (s.length ≠ 4 → ∃ e, id.set s = (id, .err e)) := by
  refine ⟨fun h => ?_, fun h => ?_⟩
  · simp [SID.set, SID.unmarshal, h]
  · exact ⟨.other 78, by simp [SID.set, SID.unmarshal, h]⟩

/-! ### Examples -/

example : (Hash.zero.run [.text b!"MFRGGZDFMZTWQ2LKNNWG23TPOBYXE43UOV3HO6A", .text b!"short"]).1.bytes = b!"abcdefghijklmnopqrstuvwx" := by
  decide +kernel
example : (Hash.zero.run [.text b!"MFRGGZDFMZTWQ2LKNNWG23TPOBYXE43UOV3HO6A", .buffer b!"AAAAAAAAAA"]).1.bytes =
    0 :: 0 :: 0 :: 0 :: 0 :: 0 :: b!"ghijklmnopqrstuvwx" := by decide +kernel
example : mustParse b!"short" = .panic := (must_parse _).2 (by
  rintro ⟨x, hx⟩
  exact absurd ((Identifiers.hash_exact _ ⟨x, names_size hx⟩).mpr hx) (by simp [show Hash.fromBase32 b!"short" = .err Base32.corrupt by decide +kernel]))
example : (Hash.mk b!"abcdefghijklmnopqrstuvwx" rfl).hex = b!"6162636465666768696a6b6c6d6e6f707172737475767778" := by decide +kernel

end Verif.Props.HashVar
