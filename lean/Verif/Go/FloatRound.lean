import Verif.Go.Float
import Verif.Spec.Float

/-! # Rounding to the nearest number -/

namespace Verif.Go.Float

open Verif.Spec.Float

theorem off_def (n d X : Nat) : off n d X = (n - X * d) + (X * d - n) := by
  unfold off; omega

/-- The nearest integer. -/
theorem roundEven_near (n d k : Nat) (hd : 0 < d) (hk : k ≠ roundEven n d) :
    off n d (roundEven n d) < off n d k ∨ (off n d (roundEven n d) = off n d k ∧ roundEven n d % 2 = 0 ∧ k % 2 = 1) := by
  unfold roundEven at *
  have h1 := Nat.div_add_mod n d
  have h2 := Nat.mod_lt n hd
  rw [off_def, off_def]
  generalize hq : n / d = q at *
  generalize hr : n % d = r at *
  have e0 : q * d = d * q := Nat.mul_comm ..
  have e1 : (q + 1) * d = d * q + d := by rw [Nat.add_mul]; omega
  have key : k < q ∧ k * d + d ≤ d * q ∨ k = q ∧ k * d = d * q ∨ k = q + 1 ∧ k * d = d * q + d ∨ q + 1 < k ∧ d * q + 2 * d ≤ k * d := by
    rcases Nat.lt_trichotomy k q with h | h | h
    · left
      refine ⟨h, ?_⟩
      have := Nat.mul_le_mul_right d (show k + 1 ≤ q by omega)
      rw [Nat.add_mul] at this; omega
    · right; left; subst h; exact ⟨rfl, e0⟩
    · by_cases h' : k = q + 1
      · right; right; left; subst h'; exact ⟨rfl, e1⟩
      · right; right; right
        refine ⟨by omega, ?_⟩
        have := Nat.mul_le_mul_right d (show q + 2 ≤ k by omega)
        rw [Nat.add_mul] at this; omega
  split
  · rename_i h
    rw [if_pos h] at hk
    rw [e0]; omega
  · rename_i h
    rw [if_neg h] at hk
    split
    · rename_i h'
      rw [if_pos h'] at hk
      rw [e1]; omega
    · rename_i h'
      rw [if_neg h'] at hk
      split
      · rename_i h3
        rw [if_pos h3] at hk
        rw [e0]; omega
      · rename_i h3
        rw [if_neg h3] at hk
        rw [e1]; omega

theorem off_scale (n d k e : Nat) : off n d (k * 2 ^ e) = off n (d * 2 ^ e) k := by
  have : k * 2 ^ e * d = k * (d * 2 ^ e) := by rw [Nat.mul_assoc, Nat.mul_comm (2 ^ e) d]
  unfold off; rw [this]

theorem roundEven_le (n d : Nat) : roundEven n d ≤ n / d + 1 := by
  unfold roundEven; split
  · omega
  · split
    · omega
    · split <;> omega

/-- Rounding gives the nearest number. -/
theorem round_nearest (bits n d : Nat) (hb : 0 < bits) (hd : 0 < d) : Nearest bits n d (round bits n d) := by
  have hr : round bits n d = roundEven n (d * 2 ^ (Nat.log2 (n / d) - (bits - 1))) * 2 ^ (Nat.log2 (n / d) - (bits - 1)) := rfl
  rw [hr]
  generalize he : Nat.log2 (n / d) - (bits - 1) = e at *
  have hD : 0 < d * 2 ^ e := Nat.mul_pos hd (Nat.two_pow_pos e)
  have hR := roundEven_near n (d * 2 ^ e)
  have hlt : n / d < 2 ^ (bits + e) := by
    by_cases h0 : n / d = 0
    · rw [h0]; exact Nat.two_pow_pos _
    · exact Nat.lt_of_lt_of_le (Nat.lt_log2_self) (Nat.pow_le_pow_right (by decide) (by omega))
  have hn : n < 2 ^ bits * (d * 2 ^ e) := by
    have := (Nat.div_lt_iff_lt_mul hd).1 hlt
    rw [Nat.pow_add, Nat.mul_assoc, Nat.mul_comm (2 ^ e) d] at this
    exact this
  have hq : n / (d * 2 ^ e) < 2 ^ bits := (Nat.div_lt_iff_lt_mul hD).2 hn
  have hRle : roundEven n (d * 2 ^ e) ≤ 2 ^ bits := Nat.le_trans (roundEven_le _ _) hq
  refine ⟨?_, ?_⟩
  · by_cases h : roundEven n (d * 2 ^ e) = 2 ^ bits
    · refine ⟨1, bits + e, ?_, by rw [h, Nat.pow_add, Nat.one_mul]⟩
      exact Nat.one_lt_two_pow (by omega)
    · exact ⟨_, e, by omega, rfl⟩
  · intro Y ⟨m, f, hm, hY⟩ hne
    by_cases hfe : e ≤ f
    · have hYk : Y = (m * 2 ^ (f - e)) * 2 ^ e := by
        rw [hY, Nat.mul_assoc, ← Nat.pow_add, Nat.sub_add_cancel hfe]
      generalize hk : m * 2 ^ (f - e) = k at hYk
      subst hYk
      rw [off_scale, off_scale]
      have hkR : k ≠ roundEven n (d * 2 ^ e) := by
        intro h; exact hne (by rw [h])
      rcases hR k hD hkR with h | ⟨h1, h2, h3⟩
      · exact Or.inl h
      · refine Or.inr ⟨h1, e + 1, ?_, ?_⟩
        · rw [Nat.pow_succ, Nat.mul_comm]
          exact Nat.mul_dvd_mul (Nat.dvd_of_mod_eq_zero h2) (Nat.dvd_refl _)
        · rw [Nat.pow_succ, Nat.mul_comm k]
          intro hd2
          have := Nat.dvd_of_mul_dvd_mul_left (Nat.two_pow_pos e) hd2
          omega
    · left
      have h0 : n / d ≠ 0 := by
        intro h; rw [h] at he; simp at he; omega
      have hlog : Nat.log2 (n / d) = e + (bits - 1) := by omega
      have hZ : 2 ^ (bits - 1) * 2 ^ e ≤ n / d := by
        rw [← Nat.pow_add, Nat.add_comm, ← hlog]; exact Nat.log2_self_le h0
      have hZn : 2 ^ (bits - 1) * 2 ^ e * d ≤ n := (Nat.le_div_iff_mul_le hd).1 hZ
      have hYZ : Y < 2 ^ (bits - 1) * 2 ^ e := by
        have h1 : Y < 2 ^ bits * 2 ^ f := by rw [hY]; exact Nat.mul_lt_mul_of_pos_right hm (Nat.two_pow_pos f)
        refine Nat.lt_of_lt_of_le h1 ?_
        rw [← Nat.pow_add, ← Nat.pow_add]
        exact Nat.pow_le_pow_right (by decide) (by omega)
      have hYd : Y * d < 2 ^ (bits - 1) * 2 ^ e * d := Nat.mul_lt_mul_of_pos_right hYZ hd
      have hXZ : off n d (roundEven n (d * 2 ^ e) * 2 ^ e) ≤ off n d (2 ^ (bits - 1) * 2 ^ e) := by
        rw [off_scale, off_scale]
        by_cases hk : 2 ^ (bits - 1) = roundEven n (d * 2 ^ e)
        · rw [hk]; exact Nat.le_refl _
        · rcases hR _ hD hk with h | h
          · exact Nat.le_of_lt h
          · exact Nat.le_of_eq h.1
      refine Nat.lt_of_le_of_lt hXZ ?_
      rw [off_def, off_def]; omega

/-- There is only one nearest number. -/
theorem nearest_unique {bits n d X Y : Nat} (hX : Nearest bits n d X) (hY : Nearest bits n d Y) : X = Y := by
  by_cases h : X = Y
  · exact h
  · exfalso
    rcases hX.2 Y hY.1 (Ne.symm h) with h1 | ⟨h1, e, he1, he2⟩
    · rcases hY.2 X hX.1 h with h2 | ⟨h2, _⟩ <;> omega
    · rcases hY.2 X hX.1 h with h2 | ⟨h2, f, hf1, hf2⟩
      · omega
      · rcases Nat.le_total e f with hle | hle
        · exact he2 (Nat.dvd_trans (Nat.pow_dvd_pow 2 hle) hf1)
        · exact hf2 (Nat.dvd_trans (Nat.pow_dvd_pow 2 hle) he1)

/-- A number of the format is the nearest to itself. -/
theorem nearest_self {bits X d : Nat} (hd : 0 < d) (hX : Has bits X) : Nearest bits (X * d) d X := by
  refine ⟨hX, fun Y _ hne => Or.inl ?_⟩
  rw [off_def, off_def]
  have : Y * d ≠ X * d := fun h => hne (Nat.eq_of_mul_eq_mul_right hd h)
  omega

end Verif.Go.Float
