import Verif.Go.Base32

/-!
# `tiger.Hash` (`tiger/tiger.go`)
-/

namespace Verif.Tiger

open Verif.Go

/-- `tiger/tiger.go:54`: 24 bytes. -/
structure Hash where
  bytes : Bytes
  size : bytes.length = 24
deriving DecidableEq, Repr

/-- `zeroTH`, `tiger/tiger.go:51`. -/
def Hash.zero : Hash := ⟨List.replicate 24 0, by decide⟩

instance : Inhabited Hash := ⟨.zero⟩

/-- `IsZero`, `tiger/tiger.go:57`. -/
def Hash.isZero (h : Hash) : Bool := h = .zero

/-- `Base32`, `tiger/tiger.go:71-73`, and `MarshalBase32`, `tiger/tiger.go:76-79`, in a buffer of 39 bytes or more. -/
def Hash.base32 (h : Hash) : Bytes := Base32.encode h.bytes

/-- `UnmarshalBase32`, `tiger/tiger.go:82-91`: decodes into the 24 bytes. On error the hash may be partly overwritten;
callers do not look at it then. -/
def Hash.unmarshalBase32 (buf : Bytes) : Res Hash :=
  match Base32.decode 24 buf with
  | .ok b => if h : b.length = 24 then .ok ⟨b, h⟩ else .err (.other 61)
  | .err e => .err e
  | .panic => .panic

/-- `FromBase32`, `tiger/tiger.go:94-104`. -/
def Hash.fromBase32 (s : Bytes) : Res Hash :=
  match Base32.decodeString s with
  | .ok b => if h : b.length = 24 then .ok ⟨b, h⟩ else .err (.other 61)
  | .err e => .err e
  | .panic => .panic

theorem Hash.base32_length (h : Hash) : h.base32.length = 39 := by
  rw [Hash.base32, Base32.encode_length, h.size]

theorem Hash.unmarshal_base32 (h : Hash) : Hash.unmarshalBase32 h.base32 = .ok h := by
  obtain ⟨b, hb⟩ := h
  simp only [Hash.unmarshalBase32, Hash.base32]
  rw [Base32.decode_encode (by omega)]
  simp [hb]

theorem Hash.from_base32 (h : Hash) : Hash.fromBase32 h.base32 = .ok h := by
  obtain ⟨b, hb⟩ := h
  simp only [Hash.fromBase32, Hash.base32]
  rw [Base32.decodeString_encode]
  simp [hb]

/-- Characters of the alphabet are not separators of any protocol message. -/
theorem Hash.base32_alpha {h : Hash} {c : Byte} (hc : c ∈ h.base32) :
    (c!"A" ≤ c ∧ c ≤ c!"Z") ∨ (c!"2" ≤ c ∧ c ≤ c!"7") := by
  obtain ⟨d, hd, rfl⟩ := Base32.encode_chars _ c hc
  have : ∀ d : Fin 32, (c!"A" ≤ Base32.encChar d.val ∧ Base32.encChar d.val ≤ c!"Z") ∨
    (c!"2" ≤ Base32.encChar d.val ∧ Base32.encChar d.val ≤ c!"7") := by decide +kernel
  exact this ⟨d, hd⟩

/-- With at most 39 characters there is no panic. -/
theorem Hash.unmarshal_ne_panic {buf : Bytes} (h : buf.length ≤ 39) : Hash.unmarshalBase32 buf ≠ .panic := by
  unfold Hash.unmarshalBase32
  have : Base32.decode 24 buf ≠ .panic := by
    apply Base32.decodeLoop_ne_panic
    have : (Base32.stripNewlines buf).length ≤ buf.length := List.length_filter_le _ _
    omega
  cases hd : Base32.decode 24 buf with
  | ok b => simp only; split <;> simp
  | err e => simp
  | panic => exact absurd hd this

end Verif.Tiger
