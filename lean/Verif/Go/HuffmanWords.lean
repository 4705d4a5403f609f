import Verif.Go.HuffmanLemmas

/-!
# Huffman codes: the words have the lengths they should have, and are in order
-/

namespace Verif.Go.Deflate

open Verif.Go.Inflate

theorem mem_symsOf {l s : Nat} {lens : List Nat} : s ∈ symsOf l lens ↔ lens[s]? = some l := by
  unfold symsOf
  rw [List.mem_filterMap]
  constructor
  · rintro ⟨⟨a, i⟩, hm, h⟩
    have hi := List.mem_zipIdx_iff_getElem?.mp hm
    dsimp only at h hi
    split at h
    · rename_i e
      cases h
      rw [hi, e]
    · cases h
  · intro h
    exact ⟨(l, s), List.mem_zipIdx_iff_getElem?.mpr h, by simp⟩

theorem symsOf_sorted (l : Nat) (lens : List Nat) : (symsOf l lens).Pairwise (· < ·) := by
  unfold symsOf
  rw [List.pairwise_filterMap]
  refine (zipIdx_pairwise lens 0).imp ?_
  intro a b hlt x hx y hy
  dsimp only at hx hy
  split at hx
  · split at hy
    · cases hx; cases hy; exact hlt
    · cases hy
  · cases hx

theorem symsOf_length (l : Nat) (lens : List Nat) : (symsOf l lens).length = lens.count l := by
  unfold symsOf
  have : ∀ (lens : List Nat) k, ((lens.zipIdx k).filterMap fun (x : Nat × Nat) => if x.1 = l then some x.2 else none).length = lens.count l := by
    intro lens
    induction lens with
    | nil => intro k; simp
    | cons a lens ih =>
      intro k
      rw [List.zipIdx_cons, List.filterMap_cons]
      by_cases h : a = l
      · subst h; simp [ih]
      · simp [h, ih]
  exact this lens 0

theorem log2_word {l c : Nat} (h : c < 2 ^ l) : (2 ^ l + c).log2 = l := by
  have := Nat.two_pow_pos l
  rw [Nat.log2_eq_iff (by omega), Nat.pow_succ]
  omega

/-- The words of `bookFrom`, with their symbols. -/
theorem bookFrom_sym (lens : List Nat) (n : Nat) : ∀ len code e, lastCode lens n len code ≤ 2 ^ (len + n) →
    e ∈ bookFrom lens n len code → len < e.1.log2 ∧ lens[e.2]? = some e.1.log2 := by
  induction n with
  | zero => intro len code e _ he; simp [bookFrom] at he
  | succ n ih =>
    intro len code e hb he
    rw [bookFrom, List.mem_append] at he
    have hb' : lastCode lens n (len + 1) (2 * code + (symsOf (len + 1) lens).length) ≤ 2 ^ (len + 1 + n) := by
      rw [show len + 1 + n = len + (n + 1) by omega]; exact hb
    have hc : 2 * code + (symsOf (len + 1) lens).length ≤ 2 ^ (len + 1) := by
      have h1 := Nat.le_trans (lastCode_ge lens n (len + 1) _) hb'
      rw [Nat.pow_add 2 (len + 1) n, Nat.mul_comm (2 ^ (len + 1))] at h1
      exact Nat.le_of_mul_le_mul_left h1 (Nat.two_pow_pos n)
    rcases he with he | he
    · rw [List.mem_map] at he
      obtain ⟨⟨v, i⟩, hi, rfl⟩ := he
      have h1 := List.snd_lt_of_mem_zipIdx hi
      dsimp only at h1 ⊢
      rw [log2_word (by omega)]
      exact ⟨by omega, mem_symsOf.mp (List.fst_mem_of_mem_zipIdx hi)⟩
    · obtain ⟨h1, h2⟩ := ih _ _ e hb' he
      exact ⟨by omega, h2⟩

theorem bookFrom_has (lens : List Nat) (n : Nat) : ∀ len code s l, len < l → l ≤ len + n → lens[s]? = some l →
    ∃ key, (key, s) ∈ bookFrom lens n len code := by
  induction n with
  | zero => intro len code s l h1 h2; omega
  | succ n ih =>
    intro len code s l h1 h2 h3
    by_cases h : l = len + 1
    · subst h
      have := mem_symsOf.mpr h3
      obtain ⟨i, hi, hs⟩ := List.getElem_of_mem this
      refine ⟨2 ^ (len + 1) + (2 * code + i), ?_⟩
      rw [bookFrom, List.mem_append]
      left
      rw [List.mem_map]
      refine ⟨(s, i), ?_, rfl⟩
      rw [List.mem_zipIdx_iff_getElem?]
      simp [List.getElem?_eq_getElem hi, hs]
    · obtain ⟨key, hk⟩ := ih (len + 1) (2 * code + (symsOf (len + 1) lens).length) s l (by omega) (by omega) h3
      exact ⟨key, by rw [bookFrom, List.mem_append]; exact .inr hk⟩

/-- The first word comes before the second one. -/
def Before (a b : Nat × Nat) : Prop :=
  (a.1.log2 < b.1.log2 ∧ (a.1 + 1) * 2 ^ (b.1.log2 - a.1.log2) ≤ b.1) ∨ (a.1.log2 = b.1.log2 ∧ a.1 < b.1 ∧ a.2 < b.2)

theorem bookFrom_before (lens : List Nat) (n : Nat) : ∀ len code, lastCode lens n len code ≤ 2 ^ (len + n) →
    (bookFrom lens n len code).Pairwise Before := by
  induction n with
  | zero => intro len code _; simp [bookFrom]
  | succ n ih =>
    intro len code hb
    have hb' : lastCode lens n (len + 1) (2 * code + (symsOf (len + 1) lens).length) ≤ 2 ^ (len + 1 + n) := by
      rw [show len + 1 + n = len + (n + 1) by omega]; exact hb
    have hc : 2 * code + (symsOf (len + 1) lens).length ≤ 2 ^ (len + 1) := by
      have h1 := Nat.le_trans (lastCode_ge lens n (len + 1) _) hb'
      rw [Nat.pow_add 2 (len + 1) n, Nat.mul_comm (2 ^ (len + 1))] at h1
      exact Nat.le_of_mul_le_mul_left h1 (Nat.two_pow_pos n)
    rw [bookFrom, List.pairwise_append]
    refine ⟨?_, ih _ _ hb', ?_⟩
    · rw [List.pairwise_map]
      have hmem : ∀ p ∈ (symsOf (len + 1) lens).zipIdx, p.2 < (symsOf (len + 1) lens).length :=
        fun p hp => List.snd_lt_of_mem_zipIdx hp
      refine List.Pairwise.imp_of_mem ?_ (zipIdx_pairwise (symsOf (len + 1) lens) 0)
      intro a b ha hb hlt
      have h1 := hmem a ha
      have h2 := hmem b hb
      right
      dsimp only
      rw [log2_word (by omega), log2_word (by omega)]
      refine ⟨rfl, by omega, ?_⟩
      have e1 := List.mem_zipIdx_iff_getElem?.mp ha
      have e2 := List.mem_zipIdx_iff_getElem?.mp hb
      rw [List.getElem?_eq_some_iff] at e1 e2
      obtain ⟨p1, e1⟩ := e1
      obtain ⟨p2, e2⟩ := e2
      have := List.pairwise_iff_getElem.mp (symsOf_sorted (len + 1) lens) a.2 b.2 p1 p2 hlt
      rw [e1, e2] at this
      exact this
    · intro a ha b hb2
      left
      rw [List.mem_map] at ha
      obtain ⟨⟨v, i⟩, hi, rfl⟩ := ha
      have hi' := List.snd_lt_of_mem_zipIdx hi
      obtain ⟨l, c, h1, h2, h3, h4⟩ := bookFrom_mem lens n _ _ b hb' hb2
      dsimp only at *
      rw [h1, log2_word h3, log2_word (by omega)]
      refine ⟨h2, ?_⟩
      have hl : 2 ^ l = 2 ^ (l - (len + 1)) * 2 ^ (len + 1) := by
        rw [← Nat.pow_add]; congr 1; omega
      have h5 : 2 ^ (l - (len + 1)) * (2 * code + i + 1) ≤ 2 ^ (l - (len + 1)) * (2 * code + (symsOf (len + 1) lens).length) :=
        Nat.mul_le_mul_left _ (by omega)
      rw [Nat.mul_comm, show 2 ^ (len + 1) + (2 * code + i) + 1 = 2 ^ (len + 1) + (2 * code + i + 1) by omega, Nat.mul_add, ← hl]
      omega

theorem le_maxLen {lens : List Nat} {l : Nat} (h : l ∈ lens) : l ≤ maxLen lens := by
  unfold maxLen
  have : ∀ (lens : List Nat) a, a ≤ lens.foldl max a ∧ ∀ l ∈ lens, l ≤ lens.foldl max a := by
    intro lens
    induction lens with
    | nil => intro a; simp
    | cons x lens ih =>
      intro a
      rw [List.foldl_cons]
      have h := ih (max a x)
      refine ⟨by omega, ?_⟩
      intro l hl
      rcases List.mem_cons.mp hl with rfl | hl
      · omega
      · exact h.2 l hl
  exact (this lens 0).2 l h

theorem maxLen_mem {lens : List Nat} (h : maxLen lens ≠ 0) : maxLen lens ∈ lens := by
  unfold maxLen at *
  have : ∀ (lens : List Nat) a, lens.foldl max a = a ∨ lens.foldl max a ∈ lens := by
    intro lens
    induction lens with
    | nil => intro a; simp
    | cons x lens ih =>
      intro a
      rw [List.foldl_cons]
      rcases ih (max a x) with h | h
      · rw [h]
        by_cases hx : a ≤ x
        · right; rw [Nat.max_eq_right hx]; simp
        · left; omega
      · exact .inr (List.mem_cons_of_mem _ h)
  rcases this lens 0 with h' | h'
  · exact absurd h' h
  · exact h'

theorem lastCode_sum (lens : List Nat) (n : Nat) : ∀ len code, lastCode lens n len code =
    2 ^ n * code + (lens.map fun l => if len < l ∧ l ≤ len + n then 2 ^ (len + n - l) else 0).sum := by
  induction n with
  | zero =>
    intro len code
    have : (lens.map fun l => if len < l ∧ l ≤ len + 0 then 2 ^ (len + 0 - l) else 0).sum = 0 := by
      induction lens with
      | nil => rfl
      | cons a lens ih => rw [List.map_cons, List.sum_cons, ih, if_neg (by omega)]
    rw [this]
    simp [lastCode]
  | succ n ih =>
    intro len code
    rw [lastCode, ih, symsOf_length]
    have hs : (lens.map fun l => if len < l ∧ l ≤ len + (n + 1) then 2 ^ (len + (n + 1) - l) else 0).sum =
        2 ^ n * lens.count (len + 1) + (lens.map fun l => if len + 1 < l ∧ l ≤ len + 1 + n then 2 ^ (len + 1 + n - l) else 0).sum := by
      clear ih
      induction lens with
      | nil => simp
      | cons a lens ih =>
        rw [List.map_cons, List.sum_cons, List.map_cons, List.sum_cons, ih, List.count_cons]
        by_cases h1 : a = len + 1
        · subst h1
          have e1 : (if len < len + 1 ∧ len + 1 ≤ len + (n + 1) then 2 ^ (len + (n + 1) - (len + 1)) else 0) = 2 ^ n := by
            rw [if_pos (by omega), show len + (n + 1) - (len + 1) = n by omega]
          have e2 : (if len + 1 < len + 1 ∧ len + 1 ≤ len + 1 + n then 2 ^ (len + 1 + n - (len + 1)) else 0) = 0 := if_neg (by omega)
          rw [e1, e2]
          simp only [BEq.rfl, if_true, Nat.mul_add, Nat.mul_one]
          omega
        · have h2 : (a == len + 1) = false := by simpa using h1
          rw [h2]
          simp only [Bool.false_eq_true, if_false, Nat.add_zero]
          by_cases h3 : len < a ∧ a ≤ len + (n + 1)
          · rw [if_pos h3, if_pos (by omega), show len + (n + 1) - a = len + 1 + n - a by omega]
            omega
          · rw [if_neg h3, if_neg (by omega)]
            omega
    rw [hs, Nat.mul_add, Nat.pow_succ, Nat.mul_assoc]
    omega

end Verif.Go.Deflate
