import Verif.Go.Deflate

/-!
# Huffman codes: no word is the beginning of another one
-/

namespace Verif.Go.Deflate

open Verif.Go.Inflate

/-- Neither word is the beginning of the other one. -/
def Apart (a b : Nat × Nat) : Prop := ∀ j, b.1 / 2 ^ j ≠ a.1 ∧ a.1 / 2 ^ j ≠ b.1

theorem lastCode_ge (lens : List Nat) (n : Nat) : ∀ len code, 2 ^ n * code ≤ lastCode lens n len code := by
  induction n with
  | zero => intro len code; simp [lastCode]
  | succ n ih =>
    intro len code
    refine Nat.le_trans ?_ (ih (len + 1) _)
    rw [Nat.pow_succ, Nat.mul_assoc]
    exact Nat.mul_le_mul_left _ (by omega)

/-- The words of `bookFrom`. -/
theorem bookFrom_mem (lens : List Nat) (n : Nat) : ∀ len code e, lastCode lens n len code ≤ 2 ^ (len + n) →
    e ∈ bookFrom lens n len code → ∃ l c, e.1 = 2 ^ l + c ∧ len < l ∧ c < 2 ^ l ∧ 2 ^ (l - len) * code ≤ c := by
  induction n with
  | zero => intro len code e _ he; simp [bookFrom] at he
  | succ n ih =>
    intro len code e hb he
    rw [bookFrom, List.mem_append] at he
    have hb' : lastCode lens n (len + 1) (2 * code + (symsOf (len + 1) lens).length) ≤ 2 ^ (len + 1 + n) := by
      rw [show len + 1 + n = len + (n + 1) by omega]; exact hb
    have hc : 2 * code + (symsOf (len + 1) lens).length ≤ 2 ^ (len + 1) := by
      have h1 := Nat.le_trans (lastCode_ge lens n (len + 1) _) hb'
      rw [Nat.pow_add 2 (len + 1) n, Nat.mul_comm (2 ^ (len + 1))] at h1
      exact Nat.le_of_mul_le_mul_left h1 (Nat.two_pow_pos n)
    rcases he with he | he
    · rw [List.mem_map] at he
      obtain ⟨⟨v, i⟩, hi, rfl⟩ := he
      have := List.snd_lt_of_mem_zipIdx hi
      refine ⟨len + 1, 2 * code + i, rfl, by omega, by omega, ?_⟩
      rw [show len + 1 - len = 1 by omega]
      omega
    · obtain ⟨l, c, h1, h2, h3, h4⟩ := ih _ _ e hb' he
      refine ⟨l, c, h1, by omega, h3, Nat.le_trans ?_ h4⟩
      rw [show l - len = (l - (len + 1)) + 1 by omega, Nat.pow_succ, Nat.mul_assoc]
      exact Nat.mul_le_mul_left _ (by omega)

theorem zipIdx_pairwise {α : Type} (xs : List α) : ∀ k, (xs.zipIdx k).Pairwise fun a b => a.2 < b.2 := by
  induction xs with
  | nil => intro k; simp
  | cons x xs ih =>
    intro k
    rw [List.zipIdx_cons, List.pairwise_cons]
    exact ⟨fun p hp => List.le_snd_of_mem_zipIdx hp, ih (k + 1)⟩

theorem div_pow_le {x : Nat} {a b : Nat} (h : a ≤ b) : x / 2 ^ b ≤ x / 2 ^ a := by
  obtain ⟨c, rfl⟩ := Nat.exists_eq_add_of_le h
  rw [Nat.pow_add, ← Nat.div_div_eq_div_mul]
  exact Nat.div_le_self _ _

/-- The words of a code. -/
theorem bookFrom_apart (lens : List Nat) (n : Nat) : ∀ len code, lastCode lens n len code ≤ 2 ^ (len + n) →
    (bookFrom lens n len code).Pairwise Apart := by
  induction n with
  | zero => intro len code _; simp [bookFrom]
  | succ n ih =>
    intro len code hb
    have hb' : lastCode lens n (len + 1) (2 * code + (symsOf (len + 1) lens).length) ≤ 2 ^ (len + 1 + n) := by
      rw [show len + 1 + n = len + (n + 1) by omega]; exact hb
    have hc : 2 * code + (symsOf (len + 1) lens).length ≤ 2 ^ (len + 1) := by
      have h1 := Nat.le_trans (lastCode_ge lens n (len + 1) _) hb'
      rw [Nat.pow_add 2 (len + 1) n, Nat.mul_comm (2 ^ (len + 1))] at h1
      exact Nat.le_of_mul_le_mul_left h1 (Nat.two_pow_pos n)
    rw [bookFrom, List.pairwise_append]
    refine ⟨?_, ih _ _ hb', ?_⟩
    · rw [List.pairwise_map]
      have hmem : ∀ p ∈ (symsOf (len + 1) lens).zipIdx, p.2 < (symsOf (len + 1) lens).length :=
        fun p hp => List.snd_lt_of_mem_zipIdx hp
      refine List.Pairwise.imp_of_mem ?_ (zipIdx_pairwise (symsOf (len + 1) lens) 0)
      intro a b ha hb hlt j
      have h1 := hmem a ha
      have h2 := hmem b hb
      cases j with
      | zero => simp; omega
      | succ j =>
        have small : ∀ x, x < 2 * 2 ^ (len + 1) → x / 2 ^ (j + 1) < 2 ^ (len + 1) := by
          intro x hx
          refine Nat.lt_of_le_of_lt (div_pow_le (a := 1) (by omega)) ?_
          omega
        have h3 := small (2 ^ (len + 1) + (2 * code + b.2)) (by omega)
        have h4 := small (2 ^ (len + 1) + (2 * code + a.2)) (by omega)
        constructor <;> (dsimp only; omega)
    · intro a ha b hb2 j
      rw [List.mem_map] at ha
      obtain ⟨⟨v, i⟩, hi, rfl⟩ := ha
      have hi' := List.snd_lt_of_mem_zipIdx hi
      obtain ⟨l, c, h1, h2, h3, h4⟩ := bookFrom_mem lens n _ _ b hb' hb2
      have hl : 2 ^ l = 2 ^ (l - (len + 1)) * 2 ^ (len + 1) := by
        rw [← Nat.pow_add]; congr 1; omega
      dsimp only at *
      constructor
      · by_cases hj : j ≤ l - (len + 1)
        · have h5 : 2 ^ (len + 1) + (2 * code + (symsOf (len + 1) lens).length) ≤ b.1 / 2 ^ (l - (len + 1)) := by
            rw [Nat.le_div_iff_mul_le (Nat.two_pow_pos _), Nat.mul_comm, Nat.mul_add, ← hl, h1]
            omega
          have h6 := div_pow_le (x := b.1) hj
          omega
        · have h5 : b.1 / 2 ^ (l - (len + 1) + 1) < 2 ^ (len + 1) := by
            rw [Nat.div_lt_iff_lt_mul (Nat.two_pow_pos _), ← Nat.pow_add, show len + 1 + (l - (len + 1) + 1) = l + 1 by omega,
              Nat.pow_succ]
            omega
          have h6 := div_pow_le (x := b.1) (a := l - (len + 1) + 1) (b := j) (by omega)
          omega
      · have h5 : 2 * 2 ^ (len + 1) ≤ 2 ^ l := by
          rw [← Nat.pow_succ']
          exact Nat.pow_le_pow_right (by omega) (by omega)
        have h6 : (2 ^ (len + 1) + (2 * code + i)) / 2 ^ j ≤ 2 ^ (len + 1) + (2 * code + i) := Nat.div_le_self _ _
        omega

/-- A code from which each word can be read. -/
structure Book.Good (b : Book) : Prop where
  two : ∀ e ∈ b, 2 ≤ e.1
  apart : b.Pairwise Apart

theorem mkBook_good {lens : List Nat} {b : Book} (h : mkBook lens = some b) : Book.Good b := by
  unfold mkBook at h
  split at h
  · cases h; exact ⟨by simp, .nil⟩
  · split at h
    · rename_i hl
      cases h
      have hb : lastCode lens (maxLen lens) 0 0 ≤ 2 ^ (0 + maxLen lens) := by
        rcases hl with hl | ⟨h1, h2⟩
        · simp [hl]
        · rw [h1, h2]; decide
      refine ⟨?_, bookFrom_apart _ _ _ _ hb⟩
      intro e he
      obtain ⟨l, c, h1, h2, h3, h4⟩ := bookFrom_mem _ _ _ _ e hb he
      have : 2 ^ 1 ≤ 2 ^ l := Nat.pow_le_pow_right (by omega) (by omega)
      omega
    · cases h

theorem lookup_mem : ∀ (b : Book) {key v : Nat}, List.lookup key b = some v → (key, v) ∈ b := by
  intro b
  induction b with
  | nil => intro key v h; simp at h
  | cons e b ih =>
    intro key v h
    obtain ⟨k, x⟩ := e
    rw [List.lookup_cons] at h
    split at h
    · rename_i hk
      simp at hk h
      simp [hk, h]
    · exact List.mem_cons_of_mem _ (ih h)

theorem lookup_some : ∀ (b : Book) {key v : Nat}, (key, v) ∈ b → ∃ v', List.lookup key b = some v' := by
  intro b
  induction b with
  | nil => intro key v h; simp at h
  | cons e b ih =>
    intro key v h
    obtain ⟨k, x⟩ := e
    rw [List.lookup_cons]
    split
    · exact ⟨_, rfl⟩
    · rename_i hk
      rcases List.mem_cons.mp h with h | h
      · cases h; simp at hk
      · exact ih h

theorem apart_all {b : Book} (h : b.Pairwise Apart) : ∀ e ∈ b, ∀ e' ∈ b, e = e' ∨ Apart e e' := by
  induction h with
  | nil => intro e he; simp at he
  | cons hx _ ih =>
    rename_i a l _
    intro e he e' he'
    rcases List.mem_cons.mp he with h1 | h1
    · rcases List.mem_cons.mp he' with h2 | h2
      · exact .inl (h1.trans h2.symm)
      · subst h1; exact .inr (hx _ h2)
    · rcases List.mem_cons.mp he' with h2 | h2
      · subst h2; exact .inr fun j => ⟨(hx _ h1 j).2, (hx _ h1 j).1⟩
      · exact ih _ h1 _ h2

theorem Book.Good.find {b : Book} (h : Book.Good b) {e : Nat × Nat} (he : e ∈ b) : b.find e.1 = some e.2 := by
  obtain ⟨v, hv⟩ := lookup_some b (key := e.1) (v := e.2) he
  rcases apart_all h.apart e he _ (lookup_mem b hv) with h1 | h1
  · unfold Book.find; rw [hv, h1]
  · have := (h1 0).1
    simp at this

theorem Book.Good.find_none {b : Book} (h : Book.Good b) {e : Nat × Nat} (he : e ∈ b) (j : Nat) : b.find (e.1 / 2 ^ (j + 1)) = none := by
  cases hv : b.find (e.1 / 2 ^ (j + 1)) with
  | none => rfl
  | some v =>
    have h2 := h.two e he
    rcases apart_all h.apart e he _ (lookup_mem b hv) with h1 | h1
    · have h3 : e.1 = e.1 / 2 ^ (j + 1) := congrArg Prod.fst h1
      have h4 : e.1 / 2 ^ (j + 1) < e.1 := Nat.div_lt_self (by omega) (by have := Nat.pow_le_pow_right (n := 2) (by omega) (show 1 ≤ j + 1 by omega); omega)
      omega
    · exact absurd rfl (h1 (j + 1)).2

theorem not_stuck {b : Book} {e : Nat × Nat} (he : e ∈ b) (j : Nat) : b.stuck (e.1 / 2 ^ (j + 1)) = false := by
  unfold Book.stuck
  rw [List.all_eq_false]
  refine ⟨e, he, ?_⟩
  have : 2 * (e.1 / 2 ^ (j + 1)) ≤ e.1 := by
    have h1 : e.1 / 2 ^ (j + 1) ≤ e.1 / 2 ^ 1 := div_pow_le (by omega)
    omega
  simpa using this

/-- The symbol that the bits lead to. -/
def walk (b : Book) : Nat → List Bool → Option Nat
  | _, [] => none
  | key, c :: cs =>
    match b.find (2 * key + if c then 1 else 0) with
    | some v => if cs.isEmpty then some v else none
    | none => if b.stuck (2 * key + if c then 1 else 0) = true then none else walk b (2 * key + if c then 1 else 0) cs

theorem div_step (x j : Nat) : 2 * (x / 2 ^ (j + 1)) + (if (x / 2 ^ j % 2 == 1) = true then 1 else 0) = x / 2 ^ j := by
  rw [Nat.pow_succ, ← Nat.div_div_eq_div_mul]
  have : x / 2 ^ j % 2 = 0 ∨ x / 2 ^ j % 2 = 1 := by omega
  rcases this with h | h <;> simp [h] <;> omega

theorem walk_last {b : Book} (h : Book.Good b) {e : Nat × Nat} (he : e ∈ b) : ∀ m,
    walk b (e.1 / 2 ^ (m + 1)) (lastBits (m + 1) e.1) = some e.2 := by
  intro m
  induction m with
  | zero =>
    have h1 := div_step e.1 0
    rw [lastBits, walk, h1, Nat.pow_zero, Nat.div_one, h.find he]
    rfl
  | succ m ih =>
    rw [lastBits, walk, div_step, h.find_none he m]
    dsimp only
    rw [not_stuck he m, if_neg (by simp)]
    exact ih

theorem walk_word {b : Book} (h : Book.Good b) {e : Nat × Nat} (he : e ∈ b) : walk b 1 (wordBits e.1) = some e.2 := by
  have h2 := h.two e he
  unfold wordBits
  have h3 : e.1.log2 ≠ 0 := by
    intro h0
    have := (Nat.log2_eq_iff (by omega)).mp h0
    omega
  obtain ⟨m, hm⟩ := Nat.exists_eq_succ_of_ne_zero h3
  have h4 := (Nat.log2_eq_iff (n := e.1) (k := m + 1) (by omega)).mp hm
  have h5 : e.1 / 2 ^ (m + 1) = 1 := by
    apply Nat.div_eq_of_lt_le <;> omega
  rw [hm, ← h5]
  exact walk_last h he m

/-- Each symbol that has a word is found again. -/
theorem walk_key {b : Book} (h : Book.Good b) {v : Nat} (hv : ∃ key, (key, v) ∈ b) : walk b 1 (wordBits (Book.key b v)) = some v := by
  obtain ⟨key, hk⟩ := hv
  unfold Book.key
  cases hf : b.find? (fun e => e.2 == v) with
  | none =>
    have := List.find?_eq_none.mp hf _ hk
    simp at this
  | some e =>
    have h1 := List.find?_some hf
    have h2 := walk_word h (List.mem_of_find?_eq_some hf)
    simp at h1
    dsimp only
    rw [h2, h1]

end Verif.Go.Deflate
