import Verif.Props.NmdcNumbers
import Verif.Nmdc.Chat

/-!
# Lemmas on printed numbers and joined lists
-/

namespace Verif.Nmdc

open Verif.Go Verif.Spec Verif.Props

theorem takeWhile_all {α : Type} {p : α → Bool} {l : List α} (h : ∀ x ∈ l, p x = true) : l.takeWhile p = l := by
  induction l with
  | nil => rfl
  | cons a l ih => simp [h a (by simp), ih (fun x hx => h x (by simp [hx]))]

theorem digits_takeWhile (n : Nat) : (utoa n).takeWhile (fun b => c!"0" ≤ b && b ≤ c!"9") = utoa n := by
  apply takeWhile_all
  intro b hb
  have := utoa_digit hb
  have hall : ∀ b : Byte, IsDigit b → (c!"0" ≤ b && b ≤ c!"9") = true := by apply forall_byte; decide +kernel
  exact hall b this

theorem utoa_no {n : Nat} {c : Byte} (h : ¬ IsDigit c) : c ∉ utoa n := fun h' => h (utoa_digit h')

theorem toU64_nonneg {k : Int} (h0 : 0 ≤ k) (h : k < 2 ^ 63) : ((toU64 k : Nat) : Int) = k ∧ toU64 k < 2 ^ 63 := by
  unfold toU64; omega

theorem int_utoa {k : Int} (h0 : 0 ≤ k) (h : k < 2 ^ 63) : atoiTrim (utoa (toU64 k)) = .ok k := by
  have h1 := toU64_nonneg h0 h
  have := NmdcNumbers.int_roundtrip (k := k) (by omega) h
  rwa [show itoa k = utoa (toU64 k) from ?_] at this
  unfold itoa
  split
  · rename_i n
    congr 1
    have := h1.1
    exact (Int.ofNat.inj this).symm
  · rename_i n
    have := Int.negSucc_lt_zero n
    omega

theorem digit_head (n : Nat) (s : Bytes) : NoSpaceHead (utoa n ++ s) := by
  obtain ⟨b, t, e⟩ := List.exists_cons_of_ne_nil (utoa_ne_nil n)
  have hb : IsDigit b := utoa_digit (by rw [e]; simp)
  have hall : ∀ b : Byte, IsDigit b → b.toNat < 0x80 ∧ isSpaceRune b.toNat = false := by apply forall_byte; decide +kernel
  rw [e]
  exact noSpaceHead_ascii (hall b hb).1 (hall b hb).2

theorem digit_last (n : Nat) (s : Bytes) : NoSpaceLast (s ++ utoa n) := by
  rcases List.eq_nil_or_concat (utoa n) with h | ⟨a, x, h⟩
  · exact absurd h (utoa_ne_nil n)
  · have hb : IsDigit x := utoa_digit (n := n) (by rw [h]; simp)
    have hall : ∀ b : Byte, IsDigit b → b.toNat < 0x80 ∧ isSpaceRune b.toNat = false := by apply forall_byte; decide +kernel
    rw [h, List.concat_eq_append, ← List.append_assoc]
    exact noSpaceLast_ascii (hall x hb).1 (hall x hb).2

theorem join_cons2 (w v : Bytes) (ws : List Bytes) (sep : Byte) :
    join (w :: v :: ws) sep = w ++ sep :: join (v :: ws) sep := rfl

theorem join_getLast? {ws : List Bytes} {sep : Byte} (hne : ∀ w ∈ ws, w ≠ []) :
    (join ws sep).getLast? = ws.getLast?.bind (·.getLast?) := by
  induction ws with
  | nil => rfl
  | cons w ws ih =>
    cases ws with
    | nil => simp [join]
    | cons v ws =>
      rw [join_cons2]
      have hj : join (v :: ws) sep ≠ [] := by
        cases ws with
        | nil => simpa [join] using hne v (by simp)
        | cons _ _ => simp [join]
      have ih' := ih (fun x hx => hne x (by simp [hx]))
      rw [List.getLast?_cons_cons, ← ih', List.getLast?_append, List.getLast?_cons]
      cases hg : (join (v :: ws) sep).getLast? with
      | none => rw [List.getLast?_eq_none_iff] at hg; exact absurd hg hj
      | some x => simp

end Verif.Nmdc
