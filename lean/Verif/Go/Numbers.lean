import Verif.Spec.Decimal

/-!
# Package `strconv`, as far as it is used

`int` is 64 bits wide. Numbers are mathematical integers; arithmetic that can wrap is reduced explicitly.
-/

namespace Verif.Go

open Verif.Spec

/-- `strconv.ErrSyntax`, `strconv.ErrRange`. -/
def errSyntax : Err := .other 1
def errRange : Err := .other 2

/-- The largest `uint64`. -/
def maxU64 : Nat := 18446744073709551615

/-- `strconv.FormatUint(n, 10)`, `fmt` verb `%d` for a non-negative number. -/
def utoa (n : Nat) : Bytes :=
  if n < 10 then [UInt8.ofNat (48 + n)] else utoa (n / 10) ++ [UInt8.ofNat (48 + n % 10)]
termination_by n

/-- `strconv.Itoa`, `strconv.FormatInt(n, 10)`. -/
def itoa (n : Int) : Bytes :=
  match n with
  | .ofNat k => utoa k
  | .negSucc k => c!"-" :: utoa (k + 1)

/-- The digit loop of `strconv.ParseUint(s, 10, bits)` with `maxVal = 2^bits - 1`;
`n1` is computed in 64 bits. -/
def parseUintLoop (maxVal : Nat) : Bytes → Nat → Res Nat
  | [], n => .ok n
  | c :: s, n =>
    if c < c!"0" ∨ c > c!"9" then .err errSyntax
    else if n ≥ maxU64 / 10 + 1 then .err errRange
    else
      let n10 := n * 10
      let n1 := (n10 + (c - c!"0").toNat) % (maxU64 + 1)
      if n1 < n10 ∨ n1 > maxVal then .err errRange
      else parseUintLoop maxVal s n1

/-- `strconv.ParseUint(s, 10, bits)`. -/
def parseUint (s : Bytes) (bits : Nat) : Res Nat :=
  if s = [] then .err errSyntax else parseUintLoop (2 ^ bits - 1) s 0

/-- `strconv.ParseInt(s, 10, bits)`, and `strconv.Atoi` with `bits = 64`
(the fast path of `Atoi` for short input computes the same). -/
def parseInt (s : Bytes) (bits : Nat) : Res Int :=
  match s with
  | [] => .err errSyntax
  | c :: t =>
    if c = c!"-" then do
      let un ← parseUint t 64
      if un > 2 ^ (bits - 1) then .err errRange else .ok (-(un : Int))
    else do
      let un ← parseUint (if c = c!"+" then t else s) 64
      if un ≥ 2 ^ (bits - 1) then .err errRange else .ok un

/-! ## Lemmas -/

theorem digit_iff {c : Byte} : ¬ (c < c!"0" ∨ c > c!"9") ↔ IsDigit c := by
  revert c
  apply forall_byte
  decide +kernel

theorem digit_sub {c : Byte} (h : IsDigit c) : (c - c!"0").toNat = c.toNat - 48 := by
  revert c
  apply forall_byte
  decide +kernel

theorem digit_le {c : Byte} (h : IsDigit c) : c.toNat - 48 ≤ 9 := by
  have := h.2; omega

theorem value_mono_foldl (s : Bytes) (n : Nat) : n ≤ s.foldl (fun n (b : Byte) => 10 * n + (b.toNat - 48)) n := by
  induction s generalizing n with
  | nil => simp
  | cons b s ih =>
    simp only [List.foldl_cons]
    exact Nat.le_trans (by omega) (ih _)

/-- The loop computes the value, and fails exactly on non-digits and overflow. -/
theorem parseUintLoop_ok {m : Nat} (hm : m ≤ maxU64) {s : Bytes} {n k : Nat} (hn : n ≤ m) :
    parseUintLoop m s n = .ok k ↔
      (∀ b ∈ s, IsDigit b) ∧ s.foldl (fun n (b : Byte) => 10 * n + (b.toNat - 48)) n = k ∧ k ≤ m := by
  induction s generalizing n with
  | nil =>
    simp only [parseUintLoop, Res.ok.injEq, List.not_mem_nil, false_implies, implies_true, List.foldl_nil, true_and]
    constructor
    · rintro rfl; exact ⟨rfl, hn⟩
    · exact fun h => h.1
  | cons c s ih =>
    simp only [parseUintLoop]
    by_cases hd : c < c!"0" ∨ c > c!"9"
    · rw [if_pos hd]
      simp only [reduceCtorEq, false_iff]
      rintro ⟨h, -⟩
      exact digit_iff.mpr (h c (by simp)) hd
    · rw [if_neg hd]
      have hdig := digit_iff.mp hd
      have h9 := digit_le hdig
      rw [digit_sub hdig]
      have hall : (∀ b ∈ c :: s, IsDigit b) ↔ ∀ b ∈ s, IsDigit b := by simp [hdig]
      rw [hall]
      simp only [List.foldl_cons]
      unfold maxU64 at *
      by_cases hc : n ≥ 18446744073709551615 / 10 + 1
      · rw [if_pos hc]
        simp only [reduceCtorEq, false_iff]
        rintro ⟨-, h, h'⟩
        have := value_mono_foldl s (10 * n + (c.toNat - 48))
        omega
      · rw [if_neg hc]
        by_cases ho : 10 * n + (c.toNat - 48) ≤ m
        · have e : (n * 10 + (c.toNat - 48)) % (18446744073709551615 + 1) = 10 * n + (c.toNat - 48) := by omega
          rw [e, if_neg (by omega), ih ho]
        · have : (n * 10 + (c.toNat - 48)) % (18446744073709551615 + 1) < n * 10 ∨
              (n * 10 + (c.toNat - 48)) % (18446744073709551615 + 1) > m := by omega
          rw [if_pos this]
          simp only [reduceCtorEq, false_iff]
          rintro ⟨-, h, h'⟩
          have := value_mono_foldl s (10 * n + (c.toNat - 48))
          omega

theorem parseUintLoop_ne_panic (m : Nat) (s : Bytes) (n : Nat) : parseUintLoop m s n ≠ .panic := by
  induction s generalizing n with
  | nil => simp [parseUintLoop]
  | cons c s ih =>
    simp only [parseUintLoop]
    split
    · simp
    · split
      · simp
      · split
        · simp
        · exact ih _

/-- `strconv.ParseUint` accepts the numerals in range and returns their value. -/
theorem parseUint_ok {s : Bytes} {bits k : Nat} (hb : bits ≤ 64) :
    parseUint s bits = .ok k ↔ IsNumeral s ∧ value s = k ∧ k < 2 ^ bits := by
  have hp : 2 ^ bits ≤ 2 ^ 64 := Nat.pow_le_pow_right (by omega) hb
  have hp0 : 0 < 2 ^ bits := Nat.pow_pos (by omega)
  unfold parseUint
  by_cases hs : s = []
  · simp [hs, IsNumeral]
  · rw [if_neg hs, parseUintLoop_ok (by unfold maxU64; omega) (by omega)]
    simp only [IsNumeral, value, ne_eq, hs, not_false_eq_true, true_and]
    constructor
    · rintro ⟨h1, h2, h3⟩; exact ⟨h1, h2, by omega⟩
    · rintro ⟨h1, h2, h3⟩; exact ⟨h1, h2, by omega⟩

theorem parseUint_ne_panic (s : Bytes) (bits : Nat) : parseUint s bits ≠ .panic := by
  unfold parseUint
  split
  · simp
  · exact parseUintLoop_ne_panic _ _ _

theorem not_digit_minus : ¬ IsDigit c!"-" := by decide
theorem not_digit_plus : ¬ IsDigit c!"+" := by decide
theorem not_digit_space : ¬ IsDigit c!" " := by decide

/-- `strconv.ParseInt` accepts the signed numerals in range and returns their value. -/
theorem parseInt_ok {s : Bytes} {bits : Nat} {k : Int} (hb : bits ≤ 64) (hb1 : 1 ≤ bits) :
    parseInt s bits = .ok k ↔ SignedNumeral s k ∧ -(2 ^ (bits - 1) : Int) ≤ k ∧ k < 2 ^ (bits - 1) := by
  have hp : (2 : Nat) ^ (bits - 1) ≤ 2 ^ 63 := Nat.pow_le_pow_right (by omega) (by omega)
  have hp0 : 0 < (2 : Nat) ^ (bits - 1) := Nat.pow_pos (by omega)
  have hc2 : ((2 : Int) ^ (bits - 1)) = ((2 ^ (bits - 1) : Nat) : Int) := by simp
  rw [hc2]
  have key : ∀ d : Bytes, (parseUint d 64 >>= fun un => if un ≥ 2 ^ (bits - 1) then Res.err errRange else Res.ok (un : Int)) = .ok k ↔
      IsNumeral d ∧ k = value d ∧ k < ((2 ^ (bits - 1) : Nat) : Int) := by
    intro d
    generalize (2 : Nat) ^ (bits - 1) = p at *
    constructor
    · intro h
      obtain ⟨u, h1, h2⟩ := Res.bind_eq_ok.mp h
      rw [parseUint_ok (Nat.le_refl _)] at h1
      obtain ⟨h1, rfl, -⟩ := h1
      split at h2
      · simp at h2
      · simp at h2; subst h2
        exact ⟨h1, rfl, by omega⟩
    · rintro ⟨h, rfl, h2⟩
      rw [(parseUint_ok (k := value d) (Nat.le_refl _)).mpr ⟨h, rfl, by omega⟩]
      simp only [Res.ok_bind]
      rw [if_neg (by omega)]
  cases s with
  | nil =>
    simp only [parseInt, reduceCtorEq, false_iff]
    rintro ⟨h, -⟩
    cases h with
    | plain h => exact h.1 rfl
  | cons c t =>
    simp only [parseInt]
    by_cases hm : c = c!"-"
    · subst hm
      rw [if_pos rfl]
      generalize (2 : Nat) ^ (bits - 1) = p at *
      constructor
      · intro h
        obtain ⟨u, h1, h2⟩ := Res.bind_eq_ok.mp h
        rw [parseUint_ok (Nat.le_refl _)] at h1
        obtain ⟨h1, rfl, -⟩ := h1
        split at h2
        · simp at h2
        · simp at h2; subst h2
          exact ⟨.minus h1, by omega, by omega⟩
      · rintro ⟨h, h1, h2⟩
        cases h with
        | plain h => exact absurd (h.2 _ (by simp)) not_digit_minus
        | minus h =>
          rw [(parseUint_ok (k := value t) (Nat.le_refl _)).mpr ⟨h, rfl, by omega⟩]
          simp only [Res.ok_bind]
          rw [if_neg (by omega)]
    · rw [if_neg hm, key]
      by_cases hpl : c = c!"+"
      · subst hpl
        simp only [if_true]
        constructor
        · rintro ⟨h1, rfl, h2⟩; exact ⟨.plus h1, by omega, h2⟩
        · rintro ⟨h, h1, h2⟩
          cases h with
          | plain h => exact absurd (h.2 _ (by simp)) not_digit_plus
          | plus h => exact ⟨h, rfl, h2⟩
      · simp only [hpl, if_false]
        constructor
        · rintro ⟨h1, rfl, h2⟩; exact ⟨.plain h1, by omega, h2⟩
        · rintro ⟨h, h1, h2⟩
          cases h with
          | plain h => exact ⟨h, rfl, h2⟩
          | plus h => exact absurd rfl hpl
          | minus h => exact absurd rfl hm

theorem parseInt_ne_panic (s : Bytes) (bits : Nat) : parseInt s bits ≠ .panic := by
  unfold parseInt
  split
  · simp
  · split
    · exact Res.bind_ne_panic (parseUint_ne_panic _ _) (fun a _ => by split <;> simp)
    · exact Res.bind_ne_panic (parseUint_ne_panic _ _) (fun a _ => by split <;> simp)

theorem digit_ofNat {n : Nat} (h : n < 10) : IsDigit (UInt8.ofNat (48 + n)) ∧ (UInt8.ofNat (48 + n)).toNat - 48 = n := by
  have : (UInt8.ofNat (48 + n)).toNat = 48 + n := by
    rw [UInt8.toNat_ofNat']; omega
  unfold IsDigit
  rw [this]
  omega

theorem utoa_numeral (n : Nat) : IsNumeral (utoa n) := by
  induction n using Nat.strongRecOn with
  | _ n ih =>
    unfold utoa
    split
    · rename_i h; exact ⟨by simp, by intro b hb; rw [List.mem_singleton] at hb; subst hb; exact (digit_ofNat h).1⟩
    · refine ⟨by simp, ?_⟩
      intro b hb
      simp only [List.mem_append, List.mem_singleton] at hb
      rcases hb with hb | rfl
      · exact (ih (n / 10) (by omega)).2 b hb
      · exact (digit_ofNat (by omega)).1

@[simp] theorem value_utoa (n : Nat) : value (utoa n) = n := by
  induction n using Nat.strongRecOn with
  | _ n ih =>
    unfold utoa
    split
    · rename_i h
      have := (digit_ofNat h).2
      simpa [value] using this
    · rw [value_snoc, ih (n / 10) (by omega), (digit_ofNat (n := n % 10) (by omega)).2]
      omega

theorem utoa_ne_nil (n : Nat) : utoa n ≠ [] := (utoa_numeral n).1

theorem utoa_digit {n : Nat} {b : Byte} (h : b ∈ utoa n) : IsDigit b := (utoa_numeral n).2 b h

/-- Reading what `FormatUint` wrote. -/
theorem parseUint_utoa {n bits : Nat} (hb : bits ≤ 64) (h : n < 2 ^ bits) : parseUint (utoa n) bits = .ok n :=
  (parseUint_ok hb).mpr ⟨utoa_numeral n, value_utoa n, h⟩

theorem itoa_signed (n : Int) : SignedNumeral (itoa n) n := by
  cases n with
  | ofNat k =>
    have := SignedNumeral.plain (utoa_numeral k)
    rw [value_utoa] at this
    exact this
  | negSucc k =>
    have := SignedNumeral.minus (utoa_numeral (k + 1))
    rw [value_utoa] at this
    exact this

/-- Reading what `FormatInt` wrote. -/
theorem parseInt_itoa {n : Int} (h1 : -(2 ^ 63 : Int) ≤ n) (h2 : n < 2 ^ 63) : parseInt (itoa n) 64 = .ok n :=
  (parseInt_ok (by omega) (by omega)).mpr ⟨itoa_signed n, h1, h2⟩

theorem itoa_bytes {n : Int} {b : Byte} (h : b ∈ itoa n) : IsDigit b ∨ b = c!"-" := by
  cases n with
  | ofNat k => exact .inl (utoa_digit h)
  | negSucc k =>
    simp only [itoa, List.mem_cons] at h
    rcases h with h | h
    · exact .inr h
    · exact .inl (utoa_digit h)

theorem itoa_ne_nil (n : Int) : itoa n ≠ [] := by
  cases n with
  | ofNat k => exact utoa_ne_nil k
  | negSucc k => simp [itoa]

theorem utoa_digits (n : Nat) : utoa n = (Nat.toDigits 10 n).map (fun c => UInt8.ofNat c.toNat) := by
  have hd : ∀ d, d < 10 → UInt8.ofNat d.digitChar.toNat = UInt8.ofNat (48 + d) := by decide
  induction n using Nat.strongRecOn with
  | ind n ih =>
    rw [utoa, Nat.toDigits_eq_if (by decide)]
    by_cases h : n < 10
    · rw [if_pos h, if_pos h, List.map_cons, List.map_nil, hd n h]
    · rw [if_neg h, if_neg h, List.map_append, ih (n / 10) (by omega), List.map_cons, List.map_nil,
        hd (n % 10) (by omega)]

/-- `itoa` is the usual notation. -/
theorem itoa_decimal (n : Int) : itoa n = decimal n := by
  cases n with
  | ofNat k => simp [itoa, decimal, utoa_digits]
  | negSucc k =>
    have h : Int.negSucc k < 0 := by omega
    simp [itoa, decimal, utoa_digits, h]

@[simp] theorem itoa_natCast (n : Nat) : itoa (n : Int) = utoa n := rfl

end Verif.Go
