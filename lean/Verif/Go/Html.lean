import Verif.Go.Utf8
import Verif.Go.Slices

/-!
# `html.UnescapeString`

The table of named entities is a parameter: the theorems hold for every table that has `amp;`,
`lt;` and `gt;`.
-/

namespace Verif.Go

/-- The tables `entity` (one rune) and `entity2` (two runes) of package `html`; values are UTF-8. -/
class HtmlEntities where
  entity : Bytes → Option Bytes
  entity2 : Bytes → Option Bytes
  amp : entity b!"amp;" = some b!"&"
  lt : entity b!"lt;" = some b!"<"
  gt : entity b!"gt;" = some b!">"

export HtmlEntities (entity entity2)

/-- `int32` wrap-around, for the accumulator of a numeric reference. -/
def wrap32 (x : Int) : Int := (x + 2147483648) % 4294967296 - 2147483648

def isAlnum (c : Byte) : Bool :=
  (c!"a" ≤ c && c ≤ c!"z") || (c!"A" ≤ c && c ≤ c!"Z") || (c!"0" ≤ c && c ≤ c!"9")

/-- The value of a digit in a numeric reference. -/
def refDigit (hex : Bool) (c : Byte) : Option Int :=
  if c!"0" ≤ c && c ≤ c!"9" then some (c.toNat - 48)
  else if hex && (c!"a" ≤ c && c ≤ c!"f") then some (c.toNat - 97 + 10)
  else if hex && (c!"A" ≤ c && c ≤ c!"F") then some (c.toNat - 65 + 10)
  else none

/-- The digit loop of a numeric reference: final value and position. A `;` is consumed. -/
def refLoop (hex : Bool) : Bytes → Int → Nat → Int × Nat
  | [], x, i => (x, i)
  | c :: s, x, i =>
    match refDigit hex c with
    | some d => refLoop hex s (wrap32 ((if hex then 16 else 10) * x + d)) (i + 1)
    | none => (x, if c = c!";" then i + 1 else i)

/-- Position after a run of alphanumerics and an optional `;`. -/
def nameLoop : Bytes → Nat → Nat
  | [], i => i
  | c :: s, i => if isAlnum c then nameLoop s (i + 1) else if c = c!";" then i + 1 else i

/-- `html.replacementTable`: Windows-1252 characters for 0x80–0x9F. -/
def replacementTable : List Nat :=
  [0x20AC, 0x0081, 0x201A, 0x0192, 0x201E, 0x2026, 0x2020, 0x2021, 0x02C6, 0x2030, 0x0160, 0x2039, 0x0152, 0x008D,
    0x017D, 0x008F, 0x0090, 0x2018, 0x2019, 0x201C, 0x201D, 0x2022, 0x2013, 0x2014, 0x02DC, 0x2122, 0x0161, 0x203A,
    0x0153, 0x009D, 0x017E, 0x0178]

/-- The rune of a numeric reference. `utf8.EncodeRune` turns negative values into U+FFFD. -/
def refRune (x : Int) : Bytes :=
  if 0x80 ≤ x ∧ x ≤ 0x9F then encodeRune ((replacementTable.getD (x.toNat - 0x80) 0 : Nat) : Int)
  else if x = 0 ∨ (0xD800 ≤ x ∧ x ≤ 0xDFFF) ∨ x > 0x10FFFF then encodeRune 0xFFFD
  else encodeRune x

/-- The longest prefix of length `j, j-1, …, 2` that is an entity by itself. -/
def prefixEntity [HtmlEntities] (name : Bytes) : Nat → Option (Bytes × Nat)
  | 0 => none
  | j + 1 =>
    if j + 1 ≤ 1 then none
    else
      match entity (name.take (j + 1)) with
      | some v => some (v, j + 2)
      | none => prefixEntity name j

/-- `html.unescapeEntity` at a `&`: the bytes written and the number of bytes read (≥ 1).
The in-place buffer of the original is in `Verif/Go/HtmlPlace.lean`; C123 shows that it makes no difference. -/
def unescapeEntity [HtmlEntities] (s : Bytes) : Bytes × Nat :=
  match s with
  | _ :: c1 :: rest =>
    if c1 = c!"#" then
      if s.length ≤ 3 then (b!"&", 1)
      else
        let hex := rest.head? = some c!"x" ∨ rest.head? = some c!"X"
        let r := refLoop hex (if hex then rest.drop 1 else rest) 0 (if hex then 3 else 2)
        if r.2 ≤ 3 then (b!"&", 1) else (refRune r.1, r.2)
    else
      let i := nameLoop (c1 :: rest) 1
      let name := (s.take i).drop 1
      if name = [] then (s.take i, i)
      else
        match entity name with
        | some v => (v, i)
        | none =>
          match entity2 name with
          | some v => (v, i)
          | none =>
            match prefixEntity name (min (name.length - 1) 6) with
            | some (v, k) => (v, k)
            | none => (s.take i, i)
  | _ => (b!"&", 1)

/-- `html.UnescapeString`, `k` bytes are skipped first (they belong to an entity). -/
def unescapeFrom [HtmlEntities] : Nat → Bytes → Bytes
  | _, [] => []
  | k + 1, _ :: s => unescapeFrom k s
  | 0, b :: s =>
    if b = c!"&" then (unescapeEntity (b :: s)).1 ++ unescapeFrom ((unescapeEntity (b :: s)).2 - 1) s
    else b :: unescapeFrom 0 s

/-- `html.UnescapeString`. -/
def htmlUnescape [HtmlEntities] (s : Bytes) : Bytes := unescapeFrom 0 s

/-- A small table, for examples. -/
@[instance_reducible] def basicEntities : HtmlEntities where
  entity n :=
    if n = b!"amp;" then some b!"&" else if n = b!"lt;" then some b!"<" else if n = b!"gt;" then some b!">"
    else if n = b!"quot;" then some b!"\"" else if n = b!"amp" then some b!"&" else if n = b!"lt" then some b!"<"
    else if n = b!"gt" then some b!">" else none
  entity2 _ := none
  amp := rfl
  lt := rfl
  gt := rfl

/-! ## Lemmas -/

variable [HtmlEntities]

theorem unescapeFrom_drop (k : Nat) (s : Bytes) : unescapeFrom k s = unescapeFrom 0 (s.drop k) := by
  induction k generalizing s with
  | zero => rfl
  | succ k ih =>
    cases s with
    | nil => simp [unescapeFrom]
    | cons b s => simp [unescapeFrom, ih]

@[simp] theorem htmlUnescape_nil : htmlUnescape [] = [] := rfl

theorem htmlUnescape_cons {b : Byte} (h : b ≠ c!"&") (s : Bytes) : htmlUnescape (b :: s) = b :: htmlUnescape s := by
  simp [htmlUnescape, unescapeFrom, h]

/-- Text without `&` is unchanged. -/
theorem htmlUnescape_id {s : Bytes} (h : c!"&" ∉ s) : htmlUnescape s = s := by
  induction s with
  | nil => rfl
  | cons b s ih =>
    simp only [List.mem_cons, not_or] at h
    rw [htmlUnescape_cons (Ne.symm h.1), ih h.2]

theorem htmlUnescape_entity {e v s : Bytes} (h : unescapeEntity (c!"&" :: e ++ s) = (v, e.length + 1)) :
    htmlUnescape (c!"&" :: e ++ s) = v ++ htmlUnescape s := by
  simp only [List.cons_append] at h ⊢
  simp only [htmlUnescape, unescapeFrom, h, if_true]
  rw [unescapeFrom_drop]
  simp

/-- A known name with its semicolon is replaced by its value, whatever follows. -/
theorem htmlUnescape_named {n v s : Bytes} (hn : ∀ c ∈ n, isAlnum c = true) (hne : n ≠ [])
    (h : entity (n ++ b!";") = some v) : htmlUnescape (c!"&" :: (n ++ b!";") ++ s) = v ++ htmlUnescape s := by
  have hl : ∀ (n : Bytes) (i : Nat), (∀ c ∈ n, isAlnum c = true) → nameLoop (n ++ b!";" ++ s) i = i + n.length + 1 := by
    intro n
    induction n with
    | nil => intro i _; simp [nameLoop, show isAlnum c!";" = false from by decide]
    | cons c n ih =>
      intro i hc
      simp only [List.cons_append, nameLoop, hc c (by simp), if_true]
      have := ih (i + 1) (fun x hx => hc x (by simp [hx]))
      rw [this, List.length_cons]; omega
  refine htmlUnescape_entity ?_
  cases n with
  | nil => simp at hne
  | cons c n =>
    have hc : c ≠ c!"#" := by rintro rfl; exact absurd (hn c!"#" (by simp)) (by decide)
    have hlen := hl (c :: n) 1 hn
    simp only [List.cons_append, List.append_assoc, List.nil_append] at hlen h ⊢
    simp only [unescapeEntity, hc, if_false, hlen]
    have ht : List.take (1 + (c :: n).length + 1) (c!"&" :: c :: (n ++ c!";" :: s)) = c!"&" :: c :: (n ++ [c!";"]) := by
      rw [show 1 + (c :: n).length + 1 = (n.length + 1) + 1 + 1 by simp; omega]
      simp only [List.take_succ_cons]
      rw [show n ++ c!";" :: s = (n ++ [c!";"]) ++ s by simp, List.take_left' (by simp)]
    rw [ht]
    simp only [List.drop_succ_cons, List.drop_zero, reduceCtorEq, if_false, h]
    simp
    omega

theorem htmlUnescape_amp (s : Bytes) : htmlUnescape (b!"&amp;" ++ s) = b!"&" ++ htmlUnescape s :=
  htmlUnescape_named (n := b!"amp") (by decide) (by decide) HtmlEntities.amp

theorem htmlUnescape_lt (s : Bytes) : htmlUnescape (b!"&lt;" ++ s) = b!"<" ++ htmlUnescape s :=
  htmlUnescape_named (n := b!"lt") (by decide) (by decide) HtmlEntities.lt

theorem htmlUnescape_gt (s : Bytes) : htmlUnescape (b!"&gt;" ++ s) = b!">" ++ htmlUnescape s :=
  htmlUnescape_named (n := b!"gt") (by decide) (by decide) HtmlEntities.gt

theorem htmlUnescape_dollar (s : Bytes) : htmlUnescape (b!"&#36;" ++ s) = b!"$" ++ htmlUnescape s := by
  refine htmlUnescape_entity (e := b!"#36;") ?_
  simp [unescapeEntity, refLoop, refDigit, refRune]
  decide

theorem htmlUnescape_pipe (s : Bytes) : htmlUnescape (b!"&#124;" ++ s) = b!"|" ++ htmlUnescape s := by
  refine htmlUnescape_entity (e := b!"#124;") ?_
  simp [unescapeEntity, refLoop, refDigit, refRune]
  decide

end Verif.Go
