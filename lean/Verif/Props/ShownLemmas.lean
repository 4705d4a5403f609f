import Verif.Nmdc.Shown
import Verif.Adc.Shown
import Verif.Spec.Shown

/-!
# Lemmas for flags of users and messages as text
-/

namespace Verif.Props.Shown

open Verif.Go Verif.Spec.Shown

/-- A text up to a mark that is not in it. -/
theorem split_mark {c : Byte} {x y u v : Bytes} (hx : c ∉ x) (hy : c ∉ y) (h : x ++ c :: u = y ++ c :: v) : x = y ∧ u = v := by
  induction x generalizing y with
  | nil =>
    cases y with
    | nil => exact ⟨rfl, by simpa using h⟩
    | cons d y => simp at h; exact absurd (by simp [← h.1]) hy
  | cons d x ih =>
    cases y with
    | nil => simp at h; exact absurd (by simp [h.1]) hx
    | cons e y =>
      simp only [List.cons_append, List.cons.injEq] at h
      obtain ⟨e1, e2⟩ := ih (fun h => hx (by simp [h])) (fun h => hy (by simp [h])) h.2
      exact ⟨by rw [h.1, e1], e2⟩

theorem testBit_ofInt (t : Int) {i : Nat} (h : i < 64) : (BitVec.ofInt 64 t).getLsbD i = true ↔ Has t i := by
  unfold Has BitVec.getLsbD
  rw [BitVec.toNat_ofInt, Nat.testBit_eq_decide_div_mod_eq, decide_eq_true_iff]
  have hp : (0 : Int) < 2 ^ 64 := by decide
  have hm := Int.emod_nonneg t (Int.ne_of_gt hp)
  have e1 : t / 2 ^ i = (t % 2 ^ 64) / 2 ^ i + 2 * (2 ^ (63 - i) * (t / 2 ^ 64)) := by
    conv => lhs; rw [← Int.emod_add_mul_ediv t (2 ^ 64)]
    have : (2 : Int) ^ 64 * (t / 2 ^ 64) = 2 ^ i * (2 * (2 ^ (63 - i) * (t / 2 ^ 64))) := by
      rw [← Int.mul_assoc 2, ← Int.pow_succ', ← Int.mul_assoc, ← Int.pow_add]
      congr 2
      omega
    rw [this, Int.add_mul_ediv_left _ _ (Int.ne_of_gt (Int.pow_pos (by decide)))]
  rw [e1]
  have e2 : ((t % 2 ^ 64).toNat / 2 ^ i % 2 : Nat) = (t % 2 ^ 64) / 2 ^ i % 2 := by
    rw [Int.natCast_emod, Int.natCast_ediv, Int.toNat_of_nonneg hm]
    simp
  have : ((2 ^ 64 : Nat) : Int) = 2 ^ 64 := rfl
  rw [this]
  omega

theorem itoa_inj {a b : Int} (h : itoa a = itoa b) : a = b := by
  have hm : ∀ n : Nat, ∀ x, utoa n ≠ c!"-" :: x := by
    intro n x h
    have := utoa_digit (n := n) (b := c!"-") (by rw [h]; simp)
    unfold Verif.Spec.IsDigit at this
    revert this
    decide
  cases a <;> cases b <;> simp only [itoa] at h
  · rename_i m n
    have := congrArg Verif.Spec.value h
    simp at this
    rw [this]
  · exact absurd h (hm _ _)
  · exact absurd h.symm (hm _ _)
  · rename_i m n
    have := congrArg Verif.Spec.value (List.cons.inj h).2
    simp at this
    rw [this]

open Verif.Nmdc in
theorem esc_length (s : Bytes) : (escWith escapeCharString s).length ≤ (escWith escapeCharName s).length ∧
    ((∃ b ∈ s, b = c!"<" ∨ b = c!">") → (escWith escapeCharString s).length < (escWith escapeCharName s).length) := by
  have h1 : ∀ b : Byte, ((escapeCharString b).getD [b]).length ≤ ((escapeCharName b).getD [b]).length ∧
      (b = c!"<" ∨ b = c!">" → ((escapeCharString b).getD [b]).length < ((escapeCharName b).getD [b]).length) := by
    apply forall_byte
    decide +kernel
  induction s with
  | nil => simp [escWith]
  | cons b s ih =>
    have := h1 b
    simp only [escWith, List.flatMap_cons, List.length_append] at ih ⊢
    refine ⟨by omega, ?_⟩
    rintro ⟨x, hx, hb⟩
    rcases List.mem_cons.mp hx with rfl | hx
    · have := this.2 hb; omega
    · have := ih.2 ⟨x, hx, hb⟩; omega

open Verif.Nmdc in
theorem esc_same {s : Bytes} (h : ∀ b ∈ s, b ≠ c!"<" ∧ b ≠ c!">") : escWith escapeCharName s = escWith escapeCharString s := by
  unfold escWith
  induction s with
  | nil => rfl
  | cons b s ih =>
    rw [List.flatMap_cons, List.flatMap_cons, ih (fun x hx => h x (by simp [hx]))]
    congr 2
    have := h b (by simp)
    simp [escapeCharName, escapeCharString, this.1, this.2]

end Verif.Props.Shown
