import Verif.Adc.Own
import Verif.Go.Numbers

/-!
# What a struct of the caller receives

Written without the functions of `Adc/Own` that decode: which values a text stands for in a variable of a Go type, and which parts of a
message are given to a field.
-/

namespace Verif.Spec.AdcOwn

open Verif.Go Verif.Adc

section
variable [ParseFloat] [ParseFloat32]

/-- The size in bits that a numeral must fit. -/
def asked : IntSize → Nat
  | .i64 => 64
  | _ => 32

/-- The size in bits of the variable. -/
def size : IntSize → Nat
  | .i64 => 64
  | .i32 => 32
  | .i16 => 16

/-- The text as a floating point number of the size that is asked for. -/
def asFloat : IntSize → Bytes → FloatRes
  | .i64 => ParseFloat.run
  | _ => ParseFloat32.run

/-- A text that is not empty, for a variable of an integer type: a numeral within the size that is asked for, or else something that is a
floating point number.  A variable takes the lowest bits of a number; it stays as it is if the number is not whole. -/
def IntText (z : IntSize) (s : Bytes) (old new : Int) : Prop :=
  (∃ n, SignedNumeral s n ∧ -(2 ^ (asked z - 1) : Int) ≤ n ∧ n < 2 ^ (asked z - 1) ∧ new = Int.bmod n (2 ^ size z)) ∨
  (¬ (∃ n, SignedNumeral s n ∧ -(2 ^ (asked z - 1) : Int) ≤ n ∧ n < 2 ^ (asked z - 1)) ∧
    match asFloat z s with
    | .bad => False
    | .fraction => new = old
    | .whole v => new = Int.bmod v (2 ^ size z))

/-- The text `s` is accepted for a variable of this type; it changes from `old` to `new`. -/
def Reads (s : Bytes) : (t : GoType) → t.T → t.T → Prop
  | .own _ _ read, old, new => read s old = (new, .ok ())
  | .str, _, new => new = unescape s
  | .bool, _, new => (s = [] ∧ new = false) ∨ ∃ b, s = [b] ∧ new = (b != 0)
  | .int z, old, new => (s = [] ∧ new = (0 : Int)) ∨ (s ≠ [] ∧ IntText z s old new)
  | .ptr t, _, new => (s = [] ∧ new = none) ∨ (s ≠ [] ∧ ∃ v, new = some v ∧ Reads s t t.zero v)
  | .slice _, _, new => s = [] ∧ new = []
  | .other _ z, _, new => s = [] ∧ new = z

/-- The texts are accepted for a field with a tag: a method gets the first, a slice takes all of them, and for every other type there must be
only one. -/
def ReadsAll (vals : List Bytes) : (t : GoType) → t.T → t.T → Prop
  | .own _ _ read, old, new => ∃ p, vals.head? = some p ∧ read p old = (new, .ok ())
  | .slice t, _, new =>
    List.length new = vals.length ∧ ∀ (i : Nat) (p : Bytes) (v : t.T), vals[i]? = some p → (show List t.T from new)[i]? = some v → Reads p t t.zero v
  | t, old, new => ∃ p, vals = [p] ∧ Reads p t old new

/-- What stands behind the tag in the parts that begin with it. -/
def valuesOf (tag : Bytes) (parts : List Bytes) : List Bytes := (parts.filter (tag.isPrefixOf ·)).map (·.drop tag.length)

/-- A field, given the parts of the text that are left for it, becomes another one. -/
def Takes (c : Cell) (parts : List Bytes) (c' : Cell) : Prop :=
  if c.tag = [] ∨ c.tag = b!"-" then c' = c
  else if c.tag = b!"#" then c.exported = true ∧ ∃ p v, parts.head? = some p ∧ Reads p c.type c.val v ∧ c' = c.put v
  else if valuesOf c.tag parts = [] then c' = c
  else c.exported = true ∧ ∃ v, ReadsAll (valuesOf c.tag parts) c.type c.val v ∧ c' = c.put v

end

/-- The text that is given to the method of a field. -/
def given (c : Cell) (parts : List Bytes) : Option Bytes :=
  if c.tag = b!"#" then parts.head? else (valuesOf c.tag parts).head?

/-- The value of a field whose reading ended with `r`, which is not success: a method leaves what it likes, every other type its old value. -/
def LeftBy (text : Option Bytes) (r : Res Unit) : (t : GoType) → t.T → t.T → Prop
  | .own _ _ read, old, new => (∃ p, text = some p ∧ read p old = (new, r)) ∨ (new = old ∧ r = .panic)
  | _, old, new => new = old

/-- How many fields have the tag `#`: each of them uses up one part. -/
def positional (cs : List Cell) : Nat := cs.countP (fun c => c.tag = b!"#")

end Verif.Spec.AdcOwn
