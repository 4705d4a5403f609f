import Verif.Adc.Ids

/-!
# Variables that hold a hash or an identifier (`tiger/tiger.go`, `adc/types/types.go`)

The decoders are methods of a pointer, so what they leave in the variable when they fail can be seen.
-/

namespace Verif.Go.Base32

/-- `Decode(dst, src)` from the `n`-th byte of `buf` on: what is in the buffer afterwards, and the number of bytes or the error. The bytes of a
group are written from the last one to the first one, so nothing of a group is written that does not fit. -/
def intoLoop (buf : Bytes) (n : Nat) (src : Bytes) : Bytes × Res Nat :=
  if _hs : src = [] then (buf, .ok n)
  else
    match _hq : quantum [] src with
    | .err e => (buf, .err e)
    | .panic => (buf, .panic)
    | .ok (ds, r, e) =>
      let out := pack ds
      if buf.length < n + out.length then (buf, .panic)
      else
        let buf := buf.take n ++ out ++ buf.drop (n + out.length)
        if e then (buf, .ok (n + out.length)) else intoLoop buf (n + 5) r
termination_by src.length
decreasing_by exact (quantum_length _hq).2 (by simp) _hs

/-- `Decode(buf, src)`. -/
def into (buf src : Bytes) : Bytes × Res Nat := intoLoop buf 0 (stripNewlines src)

theorem intoLoop_step {buf src : Bytes} {n : Nat} {ds : List Nat} {r : Bytes} {e : Bool} (hs : src ≠ [])
    (hq : quantum [] src = .ok (ds, r, e)) :
    intoLoop buf n src = if buf.length < n + (pack ds).length then (buf, .panic)
      else if e then (buf.take n ++ pack ds ++ buf.drop (n + (pack ds).length), .ok (n + (pack ds).length))
      else intoLoop (buf.take n ++ pack ds ++ buf.drop (n + (pack ds).length)) (n + 5) r := by
  conv => lhs; unfold intoLoop
  rw [dif_neg hs]
  split
  · rename_i h'; rw [hq] at h'; cases h'
  · rename_i h'; rw [hq] at h'; cases h'
  · rename_i h'; rw [hq] at h'; cases h'; rfl

theorem intoLoop_err {buf src : Bytes} {n : Nat} {e : Err} (hs : src ≠ []) (hq : quantum [] src = .err e) :
    intoLoop buf n src = (buf, .err e) := by
  unfold intoLoop
  rw [dif_neg hs]
  split
  · rename_i h'; rw [hq] at h'; cases h'; rfl
  · rename_i h'; rw [hq] at h'; cases h'
  · rename_i h'; rw [hq] at h'; cases h'

theorem intoLoop_length (src : Bytes) : ∀ (buf : Bytes) (n : Nat), (intoLoop buf n src).1.length = buf.length := by
  generalize hk : src.length = k
  induction k using Nat.strongRecOn generalizing src with
  | ind k ih =>
    intro buf n
    by_cases hs : src = []
    · subst hs; unfold intoLoop; simp
    · cases hq : quantum [] src with
      | err e => rw [intoLoop_err hs hq]
      | panic => exact absurd hq (quantum_ne_panic _ _)
      | ok q =>
        obtain ⟨ds, r, e⟩ := q
        rw [intoLoop_step hs hq]
        split
        · rfl
        · rename_i hl
          have h : (buf.take n ++ pack ds ++ buf.drop (n + (pack ds).length)).length = buf.length := by
            simp only [List.length_append, List.length_take, List.length_drop]; omega
          split
          · exact h
          · rw [ih r.length (by have := (quantum_length hq).2 (by simp) hs; omega) r rfl, h]

end Verif.Go.Base32

namespace Verif.Tiger

open Verif.Go

/-- `Hash.UnmarshalBase32`, `tiger/tiger.go:82-91`, and `Hash.UnmarshalADC`, `tiger/tiger.go:127-129`, on a variable: its new value and the
outcome. -/
def Hash.setBuffer (h : Hash) (buf : Bytes) : Hash × Res Unit :=
  (⟨(Base32.into h.bytes buf).1, by rw [Base32.into, Base32.intoLoop_length, h.size]⟩,
    match (Base32.into h.bytes buf).2 with
    | .ok n => if n = 24 then .ok () else .err (.other 61)
    | .err e => .err e
    | .panic => .panic)

/-- `Hash.FromBase32`, `tiger/tiger.go:94-104`, `Hash.UnmarshalText`, `tiger/tiger.go:112-114`, `CID.FromBase32`, `CID.UnmarshalText` and
`CID.UnmarshalADC`, `adc/types/types.go:102-130`, on a variable. -/
def Hash.setText (h : Hash) (s : Bytes) : Hash × Res Unit :=
  match Hash.fromBase32 s with
  | .ok x => (x, .ok ())
  | .err e => (h, .err e)
  | .panic => (h, .panic)

/-- `MustParseBase32`, `tiger/tiger.go:39-44`, `MustParseCID`, `adc/types/types.go:58-63` and `MustParseCIDP`, `adc/types/types.go:66-69`. -/
def mustParse (s : Bytes) : Res Hash :=
  match Hash.setText .zero s with
  | (x, .ok ()) => .ok x
  | _ => .panic

/-- `hextable` of `encoding/hex`. -/
def hexChar (d : Nat) : Byte := b!"0123456789abcdef".getD d 0

/-- `Hash.Hex`, `tiger/tiger.go:66-68`. -/
def Hash.hex (h : Hash) : Bytes := h.bytes.flatMap fun b => [hexChar (b.toNat / 16), hexChar (b.toNat % 16)]

/-- The text forms of a hash: `String` and `Base32`, `tiger/tiger.go:63`, `71-73`, `MarshalText`, `tiger/tiger.go:107-109`, and what `MarshalADC`
appends, `tiger/tiger.go:117-124`; of a CID `adc/types/types.go:92-120`. -/
def Hash.string (h : Hash) : Bytes := h.base32

/-- `MarshalADC` on a buffer. -/
def Hash.appendTo (h : Hash) (buf : Bytes) : Bytes := buf ++ h.base32

/-- The ways to set a variable. -/
inductive HashCall where
  /-- `FromBase32` and `UnmarshalText`; also `UnmarshalADC` of a CID -/
  | text (s : Bytes)
  /-- `UnmarshalBase32` and `UnmarshalADC` of a hash -/
  | buffer (b : Bytes)
deriving DecidableEq, Repr

/-- One call on a variable. -/
def Hash.step (h : Hash) : HashCall → Hash × Res Unit
  | .text s => h.setText s
  | .buffer b => h.setBuffer b

/-- Several calls; the outcome of each call, and the value in the end. -/
def Hash.run (h : Hash) : List HashCall → Hash × List (Res Unit)
  | [] => (h, [])
  | c :: cs =>
    let (h, r) := h.step c
    let (h, rs) := h.run cs
    (h, r :: rs)

end Verif.Tiger

namespace Verif.Adc

open Verif.Go

/-- `SID.UnmarshalADC`, `adc/types/types.go:47-55`, on a variable. -/
def SID.set (id : SID) (s : Bytes) : SID × Res Unit :=
  match SID.unmarshal s with
  | .ok x => (x, .ok ())
  | .err e => (id, .err e)
  | .panic => (id, .panic)

end Verif.Adc
