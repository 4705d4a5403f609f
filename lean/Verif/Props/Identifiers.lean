import Verif.Go.Base32Lemmas
import Verif.Adc.Ids
import Verif.Spec.Base32

/-!
# Textual identifiers: hashes, client and session identifiers (C40, C41)
-/

namespace Verif.Props.Identifiers

open Verif.Go Verif.Tiger Verif.Adc

/-! ## The encoder writes RFC 4648 base32 -/

theorem encChar_alphabet : ∀ d : Fin 32, Base32.encChar d.val = Spec.Base32.alphabet.getD d.val 0 := by decide +kernel

theorem quint_digits (b0 b1 b2 b3 b4 : Byte) :
    Spec.Base32.digits 32 8 (Spec.Base32.number 256 [b0.toNat, b1.toNat, b2.toNat, b3.toNat, b4.toNat]) =
      Base32.quint b0 b1 b2 b3 b4 := by
  have h0 := b0.toNat_lt; have h1 := b1.toNat_lt; have h2 := b2.toNat_lt; have h3 := b3.toNat_lt; have h4 := b4.toNat_lt
  simp only [Spec.Base32.digits, Spec.Base32.number, Base32.quint, List.foldl, List.nil_append, List.cons_append,
    List.cons.injEq, and_true]
  omega

theorem map_alphabet {ds : List Nat} (h : ∀ d ∈ ds, d < 32) :
    ds.map (fun d => Spec.Base32.alphabet.getD d 0) = ds.map Base32.encChar := by
  apply List.map_congr_left
  intro d hd
  exact (encChar_alphabet ⟨d, h d hd⟩).symm

theorem quint_lt {b0 b1 b2 b3 b4 : Byte} : ∀ d ∈ Base32.quint b0 b1 b2 b3 b4, d < 32 := by
  have h0 := b0.toNat_lt; have h1 := b1.toNat_lt; have h2 := b2.toNat_lt; have h3 := b3.toNat_lt; have h4 := b4.toNat_lt
  intro d hd
  simp only [Base32.quint, List.mem_cons, List.not_mem_nil, or_false] at hd
  omega

theorem group_eq (b0 b1 b2 b3 b4 : Byte) (k : Nat) :
    ((Spec.Base32.digits 32 8 (Spec.Base32.number 256 [b0.toNat, b1.toNat, b2.toNat, b3.toNat, b4.toNat])).take k).map
      (fun d => Spec.Base32.alphabet.getD d 0) = ((Base32.quint b0 b1 b2 b3 b4).take k).map Base32.encChar := by
  rw [quint_digits, map_alphabet]
  intro d hd
  exact quint_lt d (List.mem_of_mem_take hd)

/-- C40: the text of every byte string is its RFC 4648 base32 text without padding. -/
theorem encode_is_base32 (s : Bytes) : Base32.encode s = Spec.Base32.text s := by
  induction s using Base32.five_induction with
  | h0 s h =>
    match s, h with
    | [], _ => simp [Base32.encode, Spec.Base32.text]
    | [b0], _ => simpa [Base32.encode, Spec.Base32.text, Spec.Base32.group, Spec.Base32.chars] using (group_eq b0 0 0 0 0 2).symm
    | [b0, b1], _ => simpa [Base32.encode, Spec.Base32.text, Spec.Base32.group, Spec.Base32.chars] using (group_eq b0 b1 0 0 0 4).symm
    | [b0, b1, b2], _ => simpa [Base32.encode, Spec.Base32.text, Spec.Base32.group, Spec.Base32.chars] using (group_eq b0 b1 b2 0 0 5).symm
    | [b0, b1, b2, b3], _ => simpa [Base32.encode, Spec.Base32.text, Spec.Base32.group, Spec.Base32.chars] using (group_eq b0 b1 b2 b3 0 7).symm
  | h5 b0 b1 b2 b3 b4 s ih =>
    rw [Base32.encode_five, ih]
    conv => rhs; rw [Spec.Base32.text]
    have := group_eq b0 b1 b2 b3 b4 8
    simp only [List.cons_ne_nil, if_false, List.take_succ_cons, List.take_zero, List.drop_succ_cons, List.drop_zero]
    congr 1
    have h8 : (Base32.quint b0 b1 b2 b3 b4).take 8 = Base32.quint b0 b1 b2 b3 b4 := rfl
    rw [h8] at this
    rw [← this]
    simp [Spec.Base32.group, Spec.Base32.chars]

/-- RFC 4648, section 10 (without padding). -/
example : Base32.encode b!"foobar" = b!"MZXW6YTBOI" := by decide +kernel

/-! ## C40 -/

/-- A hash is written with 39 characters, which both decoders turn into the same hash. -/
theorem hash_roundtrip (h : Hash) :
    h.base32 = Spec.Base32.text h.bytes ∧ h.base32.length = 39 ∧ Hash.unmarshalBase32 h.base32 = .ok h ∧
      Hash.fromBase32 h.base32 = .ok h :=
  ⟨encode_is_base32 _, h.base32_length, h.unmarshal_base32, h.from_base32⟩

example : Hash.base32 ⟨b!"abcdefghijklmnopqrstuvwx", rfl⟩ = b!"MFRGGZDFMZTWQ2LKNNWG23TPOBYXE43UOV3HO6A" := by decide +kernel

/-- Different hashes have different texts. -/
theorem hash_injective {h1 h2 : Hash} (h : h1.base32 = h2.base32) : h1 = h2 := by
  have := h1.from_base32
  rw [h, h2.from_base32] at this
  cases this; rfl

theorem cid_roundtrip (id : CID) : CID.unmarshal (CID.marshal id) = .ok id := Hash.from_base32 id

/-- What a text decodes to has the size of a hash, by construction, and the text is not unique: the last character carries
three bits that are ignored, and line ends are skipped. -/
theorem decode_not_injective :
    ∃ s t : Bytes, s ≠ t ∧ s.length = 39 ∧ t.length = 39 ∧ Hash.fromBase32 s = .ok .zero ∧ Hash.fromBase32 t = .ok .zero :=
  ⟨List.replicate 39 c!"A", List.replicate 38 c!"A" ++ b!"H", by decide, by decide, by decide, by decide +kernel, by decide +kernel⟩

/-! ### Session identifiers -/

theorem sidLoop_digits (k v : Nat) (t : Bytes) :
    sidLoop k v t = (Spec.Base32.digits 32 k v).map (fun d => Spec.Base32.alphabet.getD d 0) ++ t := by
  induction k generalizing v t with
  | zero => rfl
  | succ k ih =>
    rw [sidLoop, ih, Spec.Base32.digits]
    simp only [List.map_append, List.map_cons, List.map_nil, List.append_assoc, List.cons_append, List.nil_append]
    rfl

/-- A session identifier is the number written with four base32 digits; it is read back unchanged. -/
theorem sid_text (v : Nat) :
    (sidFromInt v).marshal = (Spec.Base32.digits 32 4 v).map (fun d => Spec.Base32.alphabet.getD d 0) ∧
      SID.unmarshal (sidFromInt v).marshal = .ok (sidFromInt v) := by
  refine ⟨?_, ?_⟩
  · show sidLoop 4 v [] = _
    rw [sidLoop_digits, List.append_nil]
  · unfold SID.unmarshal
    rw [dif_pos (by exact (sidFromInt v).size)]
    rfl

example : (sidFromInt 0xABCDE).marshal = b!"VPG6" := by decide +kernel

theorem alphabet_injective : ∀ a b : Fin 32, Spec.Base32.alphabet.getD a.val 0 = Spec.Base32.alphabet.getD b.val 0 → a = b := by
  decide +kernel

theorem digits_lt {k n d : Nat} (h : d ∈ Spec.Base32.digits 32 k n) : d < 32 := by
  induction k generalizing n with
  | zero => simp [Spec.Base32.digits] at h
  | succ k ih =>
    simp only [Spec.Base32.digits, List.mem_append, List.mem_cons, List.not_mem_nil, or_false] at h
    rcases h with h | rfl
    · exact ih h
    · omega

theorem map_alphabet_injective {a b : List Nat} (ha : ∀ d ∈ a, d < 32) (hb : ∀ d ∈ b, d < 32)
    (h : a.map (fun d => Spec.Base32.alphabet.getD d 0) = b.map (fun d => Spec.Base32.alphabet.getD d 0)) : a = b := by
  induction a generalizing b with
  | nil => cases b <;> simp at h; rfl
  | cons x a ih =>
    cases b with
    | nil => simp at h
    | cons y b =>
      simp only [List.map_cons, List.cons.injEq] at h
      have := alphabet_injective ⟨x, ha x (by simp)⟩ ⟨y, hb y (by simp)⟩ h.1
      simp only [Fin.mk.injEq] at this
      rw [this, ih (fun d hd => ha d (by simp [hd])) (fun d hd => hb d (by simp [hd])) h.2]

/-- The 2^20 session identifiers are distinct. -/
theorem sid_injective {v w : Nat} (hv : v < 2 ^ 20) (hw : w < 2 ^ 20) (h : sidFromInt v = sidFromInt w) : v = w := by
  have h' := congrArg SID.marshal h
  rw [(sid_text v).1, (sid_text w).1] at h'
  have := map_alphabet_injective (fun d => digits_lt) (fun d => digits_lt) h'
  simp only [Spec.Base32.digits, List.nil_append, List.cons_append, List.cons.injEq, and_true] at this
  omega

example : sidFromInt 1 ≠ sidFromInt 32 := fun h => absurd (sid_injective (by decide) (by decide) h) (by decide)

/-! ## Exactly which texts are read, and as what -/

theorem names_iff (src h : Bytes) : Spec.Base32.Names src h ↔
    ∃ ds tail, ds.length = 8 * 4 + 7 ∧ (∀ d ∈ ds, d < 32) ∧ Base32.stripNewlines src = ds.map Base32.encChar ++ tail ∧
      Base32.End tail ∧ h.length = 5 * 4 + 4 ∧
      Spec.Base32.number 256 (h.map UInt8.toNat) = Spec.Base32.number 32 ds / 8 := by
  constructor
  · rintro ⟨ds, tail, h1, h2, h3, h4, h5, h6⟩
    exact ⟨ds, tail, h1, h2, by rw [← map_alphabet h2]; exact h3, h4, h5, h6⟩
  · rintro ⟨ds, tail, h1, h2, h3, h4, h5, h6⟩
    exact ⟨ds, tail, h1, h2, by rw [map_alphabet h2]; exact h3, h4, h5, h6⟩

/-- Reading an identifier from a string: it succeeds on exactly the texts that name 24 bytes, and gives those. -/
theorem hash_exact (s : Bytes) (h : Hash) : Hash.fromBase32 s = .ok h ↔ Spec.Base32.Names s h.bytes := by
  rw [names_iff]
  have hlen : ∀ {ds : List Nat} {tail : Bytes}, ds.length = 8 * 4 + 7 → Base32.stripNewlines s = ds.map Base32.encChar ++ tail →
      5 * 4 + 4 ≤ s.length := by
    intro ds tail h1 h3
    have h0 : (Base32.stripNewlines s).length ≤ s.length := List.length_filter_le _ _
    rw [h3, List.length_append, List.length_map] at h0
    omega
  have key := Base32.decodeLoop_ok_iff 4 s.length (Base32.stripNewlines s) h.bytes
  constructor
  · intro e
    have hd : Base32.decodeString s = .ok h.bytes := by
      unfold Hash.fromBase32 at e
      split at e
      · rename_i b hb
        split at e
        · cases e; exact hb
        · cases e
      · cases e
      · cases e
    exact (key.mp ⟨hd, h.size⟩).2
  · intro hx
    have hx' := hx
    obtain ⟨ds, tail, h1, h2, h3, -⟩ := hx'
    have hd : Base32.decodeString s = .ok h.bytes := (key.mpr ⟨hlen h1 h3, hx⟩).1
    unfold Hash.fromBase32
    rw [hd]
    simp [h.size]

/-- Reading it from a buffer: the same texts, the same bytes. -/
theorem hash_buffer_exact (s : Bytes) (h : Hash) : Hash.unmarshalBase32 s = .ok h ↔ Spec.Base32.Names s h.bytes := by
  rw [names_iff]
  have key := Base32.decodeLoop_ok_iff 4 24 (Base32.stripNewlines s) h.bytes
  constructor
  · intro e
    have hd : Base32.decode 24 s = .ok h.bytes := by
      unfold Hash.unmarshalBase32 at e
      split at e
      · rename_i b hb
        split at e
        · cases e; exact hb
        · cases e
      · cases e
      · cases e
    exact (key.mp ⟨hd, h.size⟩).2
  · intro hx
    have hd : Base32.decode 24 s = .ok h.bytes := (key.mpr ⟨by omega, hx⟩).1
    unfold Hash.unmarshalBase32
    rw [hd]
    simp [h.size]

example : Spec.Base32.Names b!"MFRGGZDFMZTWQ2LKNNWG23TPOBYXE43UOV3HO6A" b!"abcdefghijklmnopqrstuvwx" :=
  (hash_exact _ ⟨b!"abcdefghijklmnopqrstuvwx", rfl⟩).mp (by decide +kernel)

/-- The padding byte and garbage after the name are accepted. -/
theorem garbage_after_name : Hash.fromBase32 (b!"MFRGGZDFMZTWQ2LKNNWG23TPOBYXE43UOV3HO6A" ++ 0xFF :: b!"garbage") =
    .ok ⟨b!"abcdefghijklmnopqrstuvwx", rfl⟩ := by decide +kernel

/-! ## C41 -/

/-- Reading a hash from a string never panics, whatever the string. -/
theorem fromBase32_ne_panic (s : Bytes) : Hash.fromBase32 s ≠ .panic := by
  unfold Hash.fromBase32
  have : Base32.decodeString s ≠ .panic := by
    unfold Base32.decodeString
    apply Base32.decodeLoop_ne_panic
    have : (Base32.stripNewlines s).length ≤ s.length := List.length_filter_le _ _
    omega
  cases hd : Base32.decodeString s with
  | ok b => simp only; split <;> simp
  | err e => simp
  | panic => exact absurd hd this

example : Hash.fromBase32 (List.replicate 4000 c!"A") ≠ .panic := fromBase32_ne_panic _

/-- Nor does reading it from a buffer of at most 39 bytes. -/
theorem unmarshalBase32_ne_panic_partial {buf : Bytes} (h : buf.length ≤ 39) : Hash.unmarshalBase32 buf ≠ .panic :=
  Hash.unmarshal_ne_panic h

example : Hash.unmarshalBase32 (List.replicate 39 c!"A") ≠ .panic := unmarshalBase32_ne_panic_partial (by decide)

/-- Longer buffers panic exactly when, line ends aside, they start with forty characters of the alphabet. -/
theorem unmarshalBase32_panic_iff (buf : Bytes) :
    Hash.unmarshalBase32 buf = .panic ↔
      40 ≤ (buf.filter (fun c => c ≠ c!"\r" ∧ c ≠ c!"\n")).length ∧
        ∀ c ∈ (buf.filter (fun c => c ≠ c!"\r" ∧ c ≠ c!"\n")).take 40, c ∈ Spec.Base32.alphabet := by
  have halpha : ∀ c : Byte, (Base32.decChar c).isSome = true ↔ c ∈ Spec.Base32.alphabet := by
    apply forall_byte; decide +kernel
  have key := Base32.decodeLoop_panic 4 (Base32.stripNewlines buf)
  have e : Hash.unmarshalBase32 buf = .panic ↔ Base32.decode 24 buf = .panic := by
    unfold Hash.unmarshalBase32
    cases Base32.decode 24 buf with
    | ok b => simp only; split <;> simp
    | err e => simp
    | panic => simp
  rw [e]
  show Base32.decodeLoop 24 (Base32.stripNewlines buf) = .panic ↔ _
  rw [key]
  show 40 ≤ (Base32.stripNewlines buf).length ∧ (∀ c ∈ (Base32.stripNewlines buf).take 40, (Base32.decChar c).isSome) ↔ _
  simp only [halpha]
  exact Iff.rfl

example : Hash.unmarshalBase32 (List.replicate 39 c!"A" ++ b!"-") ≠ .panic := by
  rw [ne_eq, unmarshalBase32_panic_iff]
  decide +kernel

/-- The buffer decoder does panic: forty characters are enough. -/
theorem unmarshalBase32_panics : ∃ buf : Bytes, buf.length = 40 ∧ Hash.unmarshalBase32 buf = .panic :=
  ⟨List.replicate 40 c!"A", by decide, by decide +kernel⟩

end Verif.Props.Identifiers
