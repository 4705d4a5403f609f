import Verif.Go.Slices

/-!
# `strconv.ParseFloat`

As in Go 1.13 and later: decimal and hexadecimal notation, underscores, infinities and NaN.  The conversion to binary is not modelled as it
is done (19 digits of mantissa, tables, a slower path) but as it is documented: the nearest number of the format, and of two the one with an even
mantissa.  A finite number of a format is a multiple of its smallest positive one, `2^-1074` for 64 bits and `2^-149` for 32.
-/

namespace Verif.Go.Float

/-- A format: bits of the mantissa, the smallest positive number is `2^-unit`, and all numbers are below `2^top`. -/
structure Format where
  bits : Nat
  unit : Nat
  top : Nat

/-- `float64`. -/
def f64 : Format := ⟨53, 1074, 1024⟩
/-- `float32`. -/
def f32 : Format := ⟨24, 149, 128⟩

/-- What is returned: an error, not a number, an infinity, or a number as a sign and a multiple of the smallest number. -/
inductive Value where
  | bad
  | nan
  | inf (neg : Bool)
  | num (neg : Bool) (x : Nat)
deriving DecidableEq, Repr

/-- `n / d`, the nearest integer, and of two the even one. -/
def roundEven (n d : Nat) : Nat :=
  if 2 * (n % d) < d then n / d
  else if d < 2 * (n % d) then n / d + 1
  else if n / d % 2 = 0 then n / d else n / d + 1

/-- `n / d`, the nearest number with a mantissa of so many bits. -/
def round (bits n d : Nat) : Nat :=
  let e := Nat.log2 (n / d) - (bits - 1)
  roundEven n (d * 2 ^ e) * 2 ^ e

/-- `lower`: `c | ('x' - 'X')`. -/
def lower (c : Byte) : Byte := c ||| 0x20

/-- A digit. -/
def digit (hex : Bool) (c : Byte) : Option Nat :=
  if c!"0" ≤ c ∧ c ≤ c!"9" then some (c.toNat - 48)
  else if hex ∧ c!"a" ≤ lower c ∧ lower c ≤ c!"f" then some ((lower c).toNat - 87)
  else none

/-- An optional sign. -/
def sign : Bytes → Bool × Bytes
  | c :: s => if c = c!"+" then (false, s) else if c = c!"-" then (true, s) else (false, c :: s)
  | [] => (false, [])

/-- The mantissa: its digits, how many of them come after the point, and what follows. -/
def mant (hex : Bool) (dot : Bool) : Bytes → List Nat × Nat × Bytes
  | [] => ([], 0, [])
  | c :: s =>
    if c = c!"_" then mant hex dot s
    else if c = c!"." then if dot then ([], 0, c :: s) else mant hex true s
    else match digit hex c with
      | none => ([], 0, c :: s)
      | some d => (d :: (mant hex dot s).1, (if dot then 1 else 0) + (mant hex dot s).2.1, (mant hex dot s).2.2)

/-- The digits of the exponent; from 10000 on they are skipped. -/
def expLoop (e : Nat) : Bytes → Nat × Bytes
  | [] => (e, [])
  | c :: s =>
    if c = c!"_" then expLoop e s
    else match digit false c with
      | none => (e, c :: s)
      | some d => expLoop (if e < 10000 then e * 10 + d else e) s

/-- The exponent, if it is the rest of the text. -/
def expo (s : Bytes) : Option Int :=
  match (sign s).2 with
  | [] => none
  | c :: t =>
    if digit false c = none then none
    else if (expLoop 0 (c :: t)).2 ≠ [] then none
    else some (if (sign s).1 then -(expLoop 0 (c :: t)).1 else (expLoop 0 (c :: t)).1)

/-- What `underscoreOK` has seen last. -/
inductive Saw where
  | start
  | digit
  | under
  | other
deriving DecidableEq, Repr

/-- The loop of `underscoreOK`. -/
def underLoop (hex : Bool) (saw : Saw) : Bytes → Bool
  | [] => saw ≠ .under
  | c :: s =>
    if (digit hex c).isSome then underLoop hex .digit s
    else if c = c!"_" then if saw ≠ .digit then false else underLoop hex .under s
    else if saw = .under then false
    else underLoop hex .other s

/-- Whether the text begins with `0x`. -/
def hexPrefix : Bytes → Bool
  | c :: x :: _ => c = c!"0" ∧ lower x = c!"x"
  | _ => false

/-- `underscoreOK`; the prefixes `0b` and `0o`, which are refused anyway, are left out. -/
def underscoreOK (s : Bytes) : Bool :=
  let t := (sign s).2
  if hexPrefix t then underLoop true .digit (t.drop 2) else underLoop false .start t

/-- A number of the text: sign, mantissa, whether it is hexadecimal, and exponent. -/
structure Parts where
  neg : Bool
  mant : Nat
  hex : Bool
  exp : Int
deriving DecidableEq, Repr

/-- The number of digits in a base. -/
def value (base : Nat) (ds : List Nat) : Nat := ds.foldl (fun n d => n * base + d) 0

/-- What follows the mantissa: nothing, or an exponent, which hexadecimal notation must have. -/
def tail (hex : Bool) : Bytes → Option Int
  | [] => if hex then none else some 0
  | c :: r => if lower c = (if hex then c!"p" else c!"e") then expo r else none

/-- `readFloat`, if it consumes the whole text. -/
def readFloat (s : Bytes) : Option Parts :=
  let (neg, t) := sign s
  let hex := decide (2 < t.length) && hexPrefix t
  let (ds, k, r) := mant hex false (if hex then t.drop 2 else t)
  if ds = [] then none
  else
    match tail hex r with
    | none => none
    | some e =>
      if c!"_" ∈ s ∧ underscoreOK s = false then none
      else some ⟨neg, value (if hex then 16 else 10) ds, hex, if hex then e - 4 * k else e - k⟩

/-- `special`, if it consumes the whole text. -/
def special (s : Bytes) : Option Value :=
  let (neg, t) := sign s
  if t.map lower = b!"inf" ∨ t.map lower = b!"infinity" then some (.inf neg)
  else if s.map lower = b!"nan" then some .nan
  else none

/-- The value of a number in a format. -/
def finite (F : Format) (p : Parts) : Value :=
  let b := if p.hex then 2 else 10
  let x := if 0 ≤ p.exp then round F.bits (p.mant * b ^ p.exp.toNat * 2 ^ F.unit) 1
    else round F.bits (p.mant * 2 ^ F.unit) (b ^ (-p.exp).toNat)
  if x < 2 ^ (F.top + F.unit) then .num p.neg x else .bad

/-- `ParseFloat`. -/
def parse (F : Format) (s : Bytes) : Value :=
  match special s with
  | some v => v
  | none =>
    match readFloat s with
    | none => .bad
    | some p => finite F p

end Verif.Go.Float
