import Verif.Go.HuffmanLemmas

/-!
# The fixed codes and the tables of lengths and distances
-/

namespace Verif.Go.Deflate

open Verif.Go.Inflate

theorem fixedLit_mk : mkBook fixedLens = some fixedLit := by decide +kernel

theorem fixedDist_mk : mkBook (List.replicate 32 5) = some fixedDist := by decide +kernel

theorem fixedLit_any : ∀ v < 288, fixedLit.any (fun e => e.2 == v) = true := by decide +kernel

theorem fixedDist_any : ∀ v < 32, fixedDist.any (fun e => e.2 == v) = true := by decide +kernel

theorem hasWord_of_any {b : Book} {v : Nat} (h : b.any (fun e => e.2 == v) = true) : HasWord b v := by
  obtain ⟨⟨k, x⟩, h1, h2⟩ := List.any_eq_true.mp h
  simp at h2
  subst h2
  exact ⟨k, h1⟩

theorem lenSym_spec : ∀ len < 259, 3 ≤ len → 257 ≤ lenSym len ∧ lenSym len < 286 ∧ (lenBase (lenSym len)).1 ≤ len ∧
    len - (lenBase (lenSym len)).1 < 2 ^ (lenBase (lenSym len)).2 := by decide +kernel

/-- Each base follows the numbers of the symbol before, up to `x`. -/
def chain (base : Nat → Nat × Nat) (x : Nat) : Nat → List Nat → Prop
  | a, [] => x < (base a).1 + 2 ^ (base a).2
  | a, v :: vs => (base v).1 = (base a).1 + 2 ^ (base a).2 ∧ chain base x v vs

theorem symFor_stay (base : Nat → Nat × Nat) (x best : Nat) : ∀ (vs : List Nat) (a : Nat), chain base x a vs → x < (base a).1 →
    symFor base x vs best = best := by
  intro vs
  induction vs with
  | nil => intros; rfl
  | cons v vs ih =>
    intro a h hx
    obtain ⟨h1, h2⟩ := h
    have := Nat.two_pow_pos (base a).2
    rw [symFor, if_neg (by omega)]
    exact ih v h2 (by omega)

theorem symFor_spec (base : Nat → Nat × Nat) (x : Nat) : ∀ (vs : List Nat) (a : Nat), chain base x a vs → (base a).1 ≤ x →
    symFor base x vs a ∈ a :: vs ∧ (base (symFor base x vs a)).1 ≤ x ∧
      x - (base (symFor base x vs a)).1 < 2 ^ (base (symFor base x vs a)).2 := by
  intro vs
  induction vs with
  | nil =>
    intro a h hx
    rw [chain] at h
    refine ⟨by simp [symFor], hx, ?_⟩
    show x - (base a).1 < 2 ^ (base a).2
    omega
  | cons v vs ih =>
    intro a h hx
    obtain ⟨h1, h2⟩ := h
    rw [symFor]
    split
    · rename_i hv
      obtain ⟨h3, h4⟩ := ih v h2 hv
      exact ⟨List.mem_cons_of_mem _ h3, h4⟩
    · rename_i hv
      rw [symFor_stay base x a vs v h2 (by omega)]
      exact ⟨by simp, hx, by omega⟩

theorem distSym_spec (d : Nat) (h1 : 1 ≤ d) (h2 : d ≤ 32768) : distSym d < 30 ∧ (distBase (distSym d)).1 ≤ d ∧
    d - (distBase (distSym d)).1 < 2 ^ (distBase (distSym d)).2 := by
  have hr : List.range 30 = 0 :: (List.range 29).map (· + 1) := by decide
  have e : distSym d = symFor distBase d ((List.range 29).map (· + 1)) 0 := by
    unfold distSym
    rw [hr, symFor]
    simp
  have hc : chain distBase d 0 ((List.range 29).map (· + 1)) := by
    simp only [show (List.range 29).map (· + 1) = [1, 2, 3, 4, 5, 6, 7, 8, 9, 10, 11, 12, 13, 14, 15, 16, 17, 18, 19, 20, 21, 22,
      23, 24, 25, 26, 27, 28, 29] from by decide, chain]
    repeat' (refine And.intro (by decide) ?_)
    show d < 24577 + 8192
    omega
  obtain ⟨h3, h4⟩ := symFor_spec distBase d _ 0 hc h1
  rw [e]
  refine ⟨?_, h4⟩
  rw [← hr, List.mem_range] at h3
  exact h3

end Verif.Go.Deflate
