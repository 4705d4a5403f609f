import Verif.Spec.Utf8

/-!
# Package `unicode/utf8`
-/

namespace Verif.Go

open Verif.Spec

/-- The replacement character U+FFFD. -/
def runeError : Nat := 0xFFFD

/-- `utf8.EncodeRune`: anything that is not a scalar value is written as U+FFFD. -/
def encodeRune (r : Int) : Bytes :=
  if 0 ≤ r ∧ IsScalar r.toNat then utf8 r.toNat else utf8 runeError

/-- The bounds of the second byte (`acceptRanges`). -/
def acceptLo (x : Nat) : Nat := if x = 0xE0 then 0xA0 else if x = 0xF0 then 0x90 else 0x80
def acceptHi (x : Nat) : Nat := if x = 0xED then 0x9F else if x = 0xF4 then 0x8F else 0xBF

theorem acceptLo_spec (x : Nat) : (x = 0xE0 ∧ acceptLo x = 0xA0) ∨ (x = 0xF0 ∧ acceptLo x = 0x90) ∨
    (x ≠ 0xE0 ∧ x ≠ 0xF0 ∧ acceptLo x = 0x80) := by
  unfold acceptLo
  by_cases h : x = 0xE0
  · simp [h]
  · by_cases h' : x = 0xF0 <;> simp [h, h']

theorem acceptHi_spec (x : Nat) : (x = 0xED ∧ acceptHi x = 0x9F) ∨ (x = 0xF4 ∧ acceptHi x = 0x8F) ∨
    (x ≠ 0xED ∧ x ≠ 0xF4 ∧ acceptHi x = 0xBF) := by
  unfold acceptHi
  by_cases h : x = 0xED
  · simp [h]
  · by_cases h' : x = 0xF4 <;> simp [h, h']

/-- `utf8.DecodeRune` on a prefix of the input: the rune and its width; `none` for an invalid
encoding (Go: `RuneError, 1`) and for the empty string.  The bounds of the second byte are the
`acceptRanges` table. -/
def decodeRune (s : Bytes) : Option (Nat × Nat) :=
  match s with
  | [] => none
  | b0 :: s1 =>
    if b0.toNat < 0x80 then some (b0.toNat, 1)
    else if b0.toNat < 0xC2 ∨ b0.toNat > 0xF4 then none
    else
      match s1 with
      | [] => none
      | b1 :: s2 =>
        if b1.toNat < acceptLo b0.toNat ∨ b1.toNat > acceptHi b0.toNat then none
        else if b0.toNat < 0xE0 then some ((b0.toNat % 32) * 64 + b1.toNat % 64, 2)
        else
          match s2 with
          | [] => none
          | b2 :: s3 =>
            if b2.toNat < 0x80 ∨ b2.toNat > 0xBF then none
            else if b0.toNat < 0xF0 then
              some ((b0.toNat % 16) * 4096 + (b1.toNat % 64) * 64 + b2.toNat % 64, 3)
            else
              match s3 with
              | [] => none
              | b3 :: _ =>
                if b3.toNat < 0x80 ∨ b3.toNat > 0xBF then none
                else some ((b0.toNat % 8) * 262144 + (b1.toNat % 64) * 4096 + (b2.toNat % 64) * 64 + b3.toNat % 64, 4)

/-- The runes of a string from left to right (`for range`); `none` stands for one invalid byte.
`k` bytes are skipped first. -/
def runesFrom : Nat → Bytes → List (Option Nat)
  | _, [] => []
  | k + 1, _ :: s => runesFrom k s
  | 0, b :: s =>
    match decodeRune (b :: s) with
    | some (r, n) => some r :: runesFrom (n - 1) s
    | none => none :: runesFrom 0 s

/-- The runes of a string. -/
def runes (s : Bytes) : List (Option Nat) := runesFrom 0 s

/-- `utf8.Valid`. -/
def validUtf8 (s : Bytes) : Bool := (runes s).all Option.isSome

/-! ## Lemmas -/

theorem toNat_ofNat_lt {n : Nat} (h : n < 256) : (UInt8.ofNat n).toNat = n := by
  rw [UInt8.toNat_ofNat']; omega

theorem eq_ofNat {b : Byte} {n : Nat} (h : b.toNat = n) : b = UInt8.ofNat n := by
  subst h; simp

theorem runesFrom_drop (k : Nat) (s : Bytes) : runesFrom k s = runesFrom 0 (s.drop k) := by
  induction k generalizing s with
  | zero => rfl
  | succ k ih =>
    cases s with
    | nil => simp [runesFrom]
    | cons b s => simp [runesFrom, ih]

/-- What is decoded is a scalar value, and the bytes taken are its encoding. -/
theorem decodeRune_some {s : Bytes} {r n : Nat} (h : decodeRune s = some (r, n)) :
    IsScalar r ∧ s = utf8 r ++ s.drop n ∧ (utf8 r).length = n ∧ 1 ≤ n := by
  unfold decodeRune at h
  split at h
  · simp at h
  · rename_i b0 s1
    have l0 := b0.toNat_lt
    split at h
    · simp only [Option.some.injEq, Prod.mk.injEq] at h
      obtain ⟨rfl, rfl⟩ := h
      rename_i hx
      refine ⟨.inl (by omega), ?_, ?_, by omega⟩
      · simp [utf8, hx]
      · simp [utf8, hx]
    · split at h
      · simp at h
      · split at h
        · simp at h
        · rename_i b1 s2
          have l1 := b1.toNat_lt
          have hlo := acceptLo_spec b0.toNat
          have hhi := acceptHi_spec b0.toNat
          split at h
          · simp at h
          · rename_i hA _ hC
            split at h
            · simp only [Option.some.injEq, Prod.mk.injEq] at h
              obtain ⟨rfl, rfl⟩ := h
              rename_i hD
              generalize hr : b0.toNat % 32 * 64 + b1.toNat % 64 = r
              have h1 : 0x80 ≤ b1.toNat ∧ b1.toNat ≤ 0xBF := by
                omega
              have e : utf8 r = [b0, b1] := by
                unfold utf8
                rw [if_neg (by omega), if_pos (by omega), ← eq_ofNat (b := b0) (by omega), ← eq_ofNat (b := b1) (by omega)]
              exact ⟨.inl (by omega), by simp [e], by simp [e], by omega⟩
            · rename_i hD
              split at h
              · simp at h
              · rename_i b2 s3
                have l2 := b2.toNat_lt
                split at h
                · simp at h
                · rename_i hE
                  split at h
                  · simp only [Option.some.injEq, Prod.mk.injEq] at h
                    obtain ⟨rfl, rfl⟩ := h
                    rename_i hF
                    generalize hr : b0.toNat % 16 * 4096 + b1.toNat % 64 * 64 + b2.toNat % 64 = r
                    have h1 : (0x80 ≤ b1.toNat ∧ b1.toNat ≤ 0xBF) ∧ (b0.toNat = 0xE0 → 0xA0 ≤ b1.toNat) ∧
                        (b0.toNat = 0xED → b1.toNat ≤ 0x9F) := by
                      omega
                    have e : utf8 r = [b0, b1, b2] := by
                      unfold utf8
                      rw [if_neg (by omega), if_neg (by omega), if_pos (by omega), ← eq_ofNat (b := b0) (by omega),
                        ← eq_ofNat (b := b1) (by omega), ← eq_ofNat (b := b2) (by omega)]
                    refine ⟨?_, by simp [e], by simp [e], by omega⟩
                    unfold IsScalar
                    omega
                  · rename_i hF
                    split at h
                    · simp at h
                    · rename_i b3 s4
                      have l3 := b3.toNat_lt
                      split at h
                      · simp at h
                      · rename_i hG
                        simp only [Option.some.injEq, Prod.mk.injEq] at h
                        obtain ⟨rfl, rfl⟩ := h
                        generalize hr : b0.toNat % 8 * 262144 + b1.toNat % 64 * 4096 + b2.toNat % 64 * 64 + b3.toNat % 64 = r
                        have h1 : (0x80 ≤ b1.toNat ∧ b1.toNat ≤ 0xBF) ∧ (b0.toNat = 0xF0 → 0x90 ≤ b1.toNat) ∧
                            (b0.toNat = 0xF4 → b1.toNat ≤ 0x8F) := by
                          omega
                        have e : utf8 r = [b0, b1, b2, b3] := by
                          unfold utf8
                          rw [if_neg (by omega), if_neg (by omega), if_neg (by omega), ← eq_ofNat (b := b0) (by omega),
                            ← eq_ofNat (b := b1) (by omega), ← eq_ofNat (b := b2) (by omega), ← eq_ofNat (b := b3) (by omega)]
                        refine ⟨?_, by simp [e], by simp [e], by omega⟩
                        unfold IsScalar
                        omega

/-- Decoding undoes encoding. -/
theorem decodeRune_utf8 {r : Nat} (h : IsScalar r) (t : Bytes) :
    decodeRune (utf8 r ++ t) = some (r, (utf8 r).length) := by
  unfold IsScalar at h
  unfold utf8
  split
  · rename_i h1
    simp only [List.cons_append, List.nil_append, decodeRune]
    rw [toNat_ofNat_lt (by omega), if_pos h1]
    rfl
  · split
    · rename_i h0 h1
      simp only [List.cons_append, List.nil_append, decodeRune]
      have hlo := acceptLo_spec (0xC0 + r / 64)
      have hhi := acceptHi_spec (0xC0 + r / 64)
      rw [toNat_ofNat_lt (n := 0xC0 + r / 64) (by omega), toNat_ofNat_lt (n := 0x80 + r % 64) (by omega)]
      rw [if_neg (by omega), if_neg (by omega), if_neg (by omega), if_pos (by omega)]
      simp only [List.length_cons, List.length_nil, Option.some.injEq, Prod.mk.injEq, and_true]
      omega
    · split
      · rename_i h0 h1 h2
        simp only [List.cons_append, List.nil_append, decodeRune]
        have hlo := acceptLo_spec (0xE0 + r / 4096)
        have hhi := acceptHi_spec (0xE0 + r / 4096)
        rw [toNat_ofNat_lt (n := 0xE0 + r / 4096) (by omega), toNat_ofNat_lt (n := 0x80 + r / 64 % 64) (by omega),
          toNat_ofNat_lt (n := 0x80 + r % 64) (by omega)]
        rw [if_neg (by omega), if_neg (by omega), if_neg (by omega), if_neg (by omega), if_neg (by omega),
          if_pos (by omega)]
        simp only [List.length_cons, List.length_nil, Option.some.injEq, Prod.mk.injEq, and_true]
        omega
      · rename_i h0 h1 h2
        simp only [List.cons_append, List.nil_append, decodeRune]
        have hlo := acceptLo_spec (0xF0 + r / 262144)
        have hhi := acceptHi_spec (0xF0 + r / 262144)
        rw [toNat_ofNat_lt (n := 0xF0 + r / 262144) (by omega), toNat_ofNat_lt (n := 0x80 + r / 4096 % 64) (by omega),
          toNat_ofNat_lt (n := 0x80 + r / 64 % 64) (by omega), toNat_ofNat_lt (n := 0x80 + r % 64) (by omega)]
        rw [if_neg (by omega), if_neg (by omega), if_neg (by omega), if_neg (by omega), if_neg (by omega),
          if_neg (by omega), if_neg (by omega)]
        simp only [List.length_cons, List.length_nil, Option.some.injEq, Prod.mk.injEq, and_true]
        omega

theorem utf8_ne_nil (r : Nat) : utf8 r ≠ [] := by
  unfold utf8; repeat' split
  all_goals simp

theorem runes_utf8 {r : Nat} (h : IsScalar r) (t : Bytes) : runes (utf8 r ++ t) = some r :: runes t := by
  have hd := decodeRune_utf8 h t
  unfold runes
  cases hu : utf8 r with
  | nil => exact absurd hu (utf8_ne_nil r)
  | cons b u =>
    rw [hu] at hd
    simp only [List.cons_append] at hd ⊢
    simp only [runesFrom, hd]
    rw [runesFrom_drop]
    simp

theorem runes_flatMap {rs : List Nat} (h : ∀ r ∈ rs, IsScalar r) (t : Bytes) :
    runes (rs.flatMap utf8 ++ t) = rs.map some ++ runes t := by
  induction rs with
  | nil => rfl
  | cons r rs ih =>
    simp only [List.flatMap_cons, List.append_assoc]
    rw [runes_utf8 (h r (by simp)), ih (fun x hx => h x (by simp [hx]))]
    rfl

/-- `utf8.Valid` accepts exactly the well-formed text. -/
theorem validUtf8_iff {s : Bytes} : validUtf8 s = true ↔ IsUtf8 s := by
  constructor
  · intro h
    induction hn : s.length using Nat.strongRecOn generalizing s with
    | _ n ih =>
      cases s with
      | nil => exact ⟨[], by simp, rfl⟩
      | cons b s =>
        simp only [validUtf8, runes, runesFrom] at h
        split at h
        · rename_i r k hd
          obtain ⟨h1, h2, h3, h4⟩ := decodeRune_some hd
          simp only [List.all_cons, Option.isSome_some, Bool.true_and] at h
          rw [runesFrom_drop] at h
          have hk : s.drop (k - 1) = (b :: s).drop k := by
            obtain ⟨j, rfl⟩ : ∃ j, k = j + 1 := ⟨k - 1, by omega⟩
            simp
          rw [hk] at h
          obtain ⟨rs, ha, hb⟩ := ih ((b :: s).drop k).length (by subst hn; rw [List.length_drop, List.length_cons]; omega) h rfl
          exact ⟨r :: rs, by simpa [h1] using ha, by rw [h2, hb]; rfl⟩
        · simp at h
  · rintro ⟨rs, h, rfl⟩
    have := runes_flatMap h []
    simp only [List.append_nil] at this
    rw [validUtf8, this]
    simp [runes, runesFrom]

theorem isUtf8_append {s t : Bytes} (h : IsUtf8 s) (h' : IsUtf8 t) : IsUtf8 (s ++ t) := by
  obtain ⟨a, ha, rfl⟩ := h
  obtain ⟨b, hb, rfl⟩ := h'
  exact ⟨a ++ b, fun r hr => (List.mem_append.mp hr).elim (ha r) (hb r), by simp⟩

theorem isUtf8_ascii {s : Bytes} (h : ∀ b ∈ s, b.toNat < 0x80) : IsUtf8 s := by
  refine ⟨s.map (·.toNat), ?_, ?_⟩
  · intro r hr
    simp only [List.mem_map] at hr
    obtain ⟨b, hb, rfl⟩ := hr
    exact .inl (by have := h b hb; omega)
  · induction s with
    | nil => rfl
    | cons b s ih =>
      have hb := h b (by simp)
      simp only [List.map_cons, List.flatMap_cons, utf8, hb, if_true, UInt8.ofNat_toNat]
      rw [← ih (fun x hx => h x (by simp [hx]))]
      rfl

end Verif.Go
