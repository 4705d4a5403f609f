import Verif.Adc.Left

/-!
# The arrays behind decoded lists (`adc/types.go`, `adc/messages.go`)

`Verif/Adc/Left.lean` has the same decoders with lists as values.  Here a list is a slice of an array that other variables may see as well:
`Path.UnmarshalADC` appends to the list of the variable, `Fields.UnmarshalADC` cuts it to length 0 and fills its array again.
-/

namespace Verif.Adc

open Verif.Go

variable {α : Type}

/-- The arrays, in the order in which they were made. -/
abbrev Arrays (α : Type) := List (List α)

/-- A slice: array, first element, length and capacity.  The nil slice has length and capacity 0, and its array is of no account. -/
structure Slc where
  arr : Nat
  off : Nat
  len : Nat
  cap : Nat
deriving DecidableEq

/-- The elements of a slice. -/
def Slc.read (s : Slc) (h : Arrays α) : List α := ((h.getD s.arr []).drop s.off).take s.len

/-- The slice lies within its array. -/
def Slc.Within (s : Slc) (h : Arrays α) : Prop :=
  s.len ≤ s.cap ∧ (s.cap = 0 ∨ s.arr < h.length ∧ s.off + s.cap ≤ (h.getD s.arr []).length)

/-- `append(s, x)` of Go: in place if there is room, otherwise in a new array, which has `extra n` elements more than are needed where `n` is the
old length. -/
def push (zero : α) (extra : Nat → Nat) (x : α) (h : Arrays α) (s : Slc) : Arrays α × Slc :=
  if s.len < s.cap then (h.set s.arr ((h.getD s.arr []).set (s.off + s.len) x), { s with len := s.len + 1 })
  else (h ++ [s.read h ++ x :: List.replicate (extra s.len) zero], ⟨h.length, 0, s.len + 1, s.len + 1 + extra s.len⟩)

/-- The loop of `Path.UnmarshalADC`, `adc/types.go:292-298`. -/
def Path.memLoop (extra : Nat → Nat) (h : Arrays Bytes) (p : Slc) : List Bytes → Arrays Bytes × Slc × Res Unit
  | [] => (h, p, .ok ())
  | a :: arr =>
    match String.unmarshal a with
    | .ok path => Path.memLoop extra (push [] extra path h p).1 (push [] extra path h p).2 arr
    | .err e => (h, p, .err e)
    | .panic => (h, p, .panic)

/-- `Path.UnmarshalADC`, `adc/types.go:290-300`: the arrays, the variable and the result. -/
def Path.mem (extra : Nat → Nat) (data : Bytes) (h : Arrays Bytes) (p : Slc) : Arrays Bytes × Slc × Res Unit :=
  Path.memLoop extra h p (split data c!"/")

/-- The zero value of `Field`, `adc/messages.go:107-110`. -/
def Field.zero : Field := ⟨[0, 0], rfl, []⟩

/-- The loop of `Fields.UnmarshalADC`, `adc/messages.go:134-145`: the arrays, `mp` and the result. -/
def Fields.memLoop (extra : Nat → Nat) (h : Arrays Field) (mp : Slc) : List Bytes → Arrays Field × Slc × Res Unit
  | [] => (h, mp, .ok ())
  | v :: sub =>
    if hv : v.length < 2 then (h, mp, .err (.other 106))
    else
      match String.unmarshal (v.drop 2) with
      | .err e => (h, mp, .err e)
      | .panic => (h, mp, .panic)
      | .ok _ =>
        let r := push Field.zero extra ⟨v.take 2, by rw [List.length_take]; omega, v.drop 2⟩ h mp
        Fields.memLoop extra r.1 r.2 sub

/-- `Fields.UnmarshalADC`, `adc/messages.go:127-148`: the arrays, the variable and the result.  The variable is cut to length 0 (line 128), and set
to the new list at the end (line 146). -/
def Fields.mem (extra : Nat → Nat) (data : Bytes) (h : Arrays Field) (f : Slc) : Arrays Field × Slc × Res Unit :=
  let cut := { f with len := 0 }
  if data.length = 0 then (h, cut, .ok ())
  else
    match Fields.memLoop extra h cut (split data c!" ") with
    | (h, mp, .ok _) => (h, mp, .ok ())
    | (h, _, r) => (h, cut, r)

end Verif.Adc
