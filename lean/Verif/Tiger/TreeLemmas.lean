import Verif.Tiger.Tree
import Verif.Spec.Thex

/-!
# Lemmas about the tree hash
-/

namespace Verif.Tiger

open Verif.Go Verif.Lineproto Verif.Spec

variable (H : Bytes → Hash)

/-- One level as a new list. -/
def pairUp (f : Hash → Hash → Hash) : List Hash → List Hash
  | [] => []
  | [a] => [a]
  | a :: b :: l => f a b :: pairUp f l

theorem pairUp_length (f : Hash → Hash → Hash) (l : List Hash) : (pairUp f l).length = (l.length + 1) / 2 := by
  induction l using pairUp.induct with
  | case1 => rfl
  | case2 => simp [pairUp]
  | case3 a b l ih => simp [pairUp, ih]; omega

theorem pairUp_append (f : Hash → Hash → Hash) (l r : List Hash) (h : l.length % 2 = 0) : pairUp f (l ++ r) = pairUp f l ++ pairUp f r := by
  induction l using pairUp.induct with
  | case1 => simp [pairUp]
  | case2 a => simp at h
  | case3 a b l ih =>
    simp only [List.cons_append, pairUp]
    rw [ih (by simp at h; omega)]

theorem pairLoop_take (i : Nat) (lvl : List Hash) (hi : i % 2 = 0) (hle : i ≤ lvl.length + 1) :
    (pairLoop H i lvl).take ((lvl.length + 1) / 2) = lvl.take (i / 2) ++ pairUp (nodeHash H) (lvl.drop i) := by
  induction i, lvl using pairLoop.induct H with
  | case1 i lvl h h1 ih =>
    rw [pairLoop, dif_pos h, dif_pos h1]
    have := ih (by omega) (by simp; omega)
    simp only [List.length_set] at this
    rw [this]
    rw [show (i + 2) / 2 = i / 2 + 1 by omega, List.take_add_one, List.drop_set_of_lt (by omega)]
    have hlt : i / 2 < lvl.length := by omega
    simp only [List.take_set_of_le (Nat.le_refl _), List.getElem?_set_self hlt, Option.toList_some, List.append_assoc, List.singleton_append]
    rw [List.drop_eq_getElem_cons h, List.drop_eq_getElem_cons h1, pairUp]
  | case2 i lvl h h1 ih =>
    rw [pairLoop, dif_pos h, dif_neg h1]
    have := ih (by omega) (by simp; omega)
    simp only [List.length_set] at this
    rw [this]
    rw [show (i + 2) / 2 = i / 2 + 1 by omega, List.take_add_one, List.drop_set_of_lt (by omega)]
    have hlt : i / 2 < lvl.length := by omega
    simp only [List.take_set_of_le (Nat.le_refl _), List.getElem?_set_self hlt, Option.toList_some, List.append_assoc, List.singleton_append]
    rw [List.drop_eq_getElem_cons h, List.drop_eq_nil_of_le (by omega : lvl.length ≤ i + 1), List.drop_eq_nil_of_le (by omega : lvl.length ≤ i + 2)]
    simp [pairUp]
  | case3 i lvl h =>
    rw [pairLoop, dif_neg h, List.drop_eq_nil_of_le (by omega)]
    simp [pairUp]
    have : (lvl.length + 1) / 2 = i / 2 := by omega
    rw [this]

theorem half (n : Nat) : (if n % 2 ≠ 0 then n / 2 + 1 else n / 2) = (n + 1) / 2 := by
  split <;> omega

theorem levels_step (l : List Hash) (h : 1 < l.length) : levels H l = levels H (pairUp (nodeHash H) l) := by
  conv => lhs; rw [levels]
  rw [dif_pos h, half, pairLoop_take H 0 l rfl (by omega)]
  simp

theorem levels_one (a : Hash) : levels H [a] = .ok a := by
  rw [levels]; simp

theorem treePairs_eq (i : Nat) (lvl : List Hash) : treePairs H i lvl = pairLoop H i lvl := by
  induction i, lvl using treePairs.induct H with
  | case1 i lvl h h1 ih =>
    rw [treePairs, dif_pos h, dif_pos h1, ih]
    conv => rhs; rw [pairLoop, dif_pos h, dif_pos h1]
    rfl
  | case2 i lvl h h1 ih => rw [treePairs, dif_pos h, dif_neg h1, ih]; conv => rhs; rw [pairLoop, dif_pos h, dif_neg h1]
  | case3 i lvl h => rw [treePairs, dif_neg h, pairLoop, dif_neg h]

theorem treeLevels_eq (lvl : List Hash) : treeLevels H lvl = levels H lvl := by
  generalize hn : lvl.length = n
  induction n using Nat.strongRecOn generalizing lvl with
  | _ n ih =>
    by_cases h : 1 < lvl.length
    · conv => lhs; rw [treeLevels, dif_pos h]
      conv => rhs; rw [levels, dif_pos h]
      rw [treePairs_eq]
      refine ih _ ?_ _ rfl
      rw [List.length_take, pairLoop_length, half]; omega
    · conv => lhs; rw [treeLevels, dif_neg h]
      conv => rhs; rw [levels, dif_neg h]

theorem leavesLoop_read (lvl : List Hash) (s s' : Src) (d : Bytes) (e : Option Err) (h : s.read tthBlock = ((d, e), s')) :
    leavesLoop H lvl s = match e with
      | some e => if e ≠ .eof then (lvl, some e) else if d = [] ∧ lvl ≠ [] then (lvl, none) else (lvl ++ [H (0 :: d)], none)
      | none => if d = [] ∧ lvl ≠ [] then (lvl, none) else leavesLoop H (lvl ++ [H (0 :: d)]) s' := by
  rw [leavesLoop]
  split <;> rename_i h' <;> rw [h] at h' <;> cases h' <;> rfl

theorem treeLoop_read (lvl : List Hash) (s s' : Src) (d : Bytes) (e : Option Err) (h : s.read tthBlock = ((d, e), s')) :
    treeLoop H lvl s = match e with
      | some e => if e ≠ .eof then (lvl, some e) else if d = [] ∧ lvl ≠ [] then (lvl, none) else (lvl ++ [H (0 :: d)], none)
      | none => if d = [] ∧ lvl ≠ [] then (lvl, none) else treeLoop H (lvl ++ [H (0 :: d)]) s' := by
  rw [treeLoop]
  split <;> rename_i h' <;> rw [h] at h' <;> cases h' <;> rfl

theorem treeLoop_eq (lvl : List Hash) (s : Src) : treeLoop H lvl s = leavesLoop H lvl s := by
  generalize hn : srcSize s = n
  induction n using Nat.strongRecOn generalizing lvl s with
  | _ n ih =>
    obtain ⟨d, e, s', hr⟩ : ∃ d e s', s.read tthBlock = ((d, e), s') := ⟨_, _, _, rfl⟩
    rw [treeLoop_read H lvl s s' d e hr, leavesLoop_read H lvl s s' d e hr]
    cases e with
    | some e => rfl
    | none =>
      simp only
      split
      · rfl
      · exact ih _ (by rw [← hn]; exact srcSize_read (by decide) hr (by simp)) _ _ rfl

/-- The value of a tree of digests. -/
def value (f : Hash → Hash → Hash) : Tree Hash → Hash
  | .leaf a => a
  | .node l r => f (value f l) (value f r)

theorem leaves_pos {α : Type} (t : Tree α) : 0 < t.leaves.length := by
  induction t with
  | leaf => simp [Tree.leaves]
  | node l r ih1 ih2 => simp [Tree.leaves]; omega

/-- Hashing a level gives a tree of the same kind with the same value. -/
theorem squash (f : Hash → Hash → Hash) (t : Tree Hash) (ht : Thex t) :
    ∃ t', Thex t' ∧ t'.leaves = pairUp f t.leaves ∧ value f t' = value f t := by
  induction ht with
  | leaf a => exact ⟨.leaf a, .leaf a, rfl, rfl⟩
  | node l r hl hr h ihl ihr =>
    obtain ⟨⟨e, he⟩, h1, h2⟩ := h
    simp only [List.length_append] at h1 h2
    cases e with
    | zero =>
      have hl1 : l.leaves.length = 1 := he
      have hr1 : r.leaves.length = 1 := by omega
      cases hl with
      | leaf a =>
        cases hr with
        | leaf b => exact ⟨.leaf (f a b), .leaf _, rfl, rfl⟩
        | node r1 r2 =>
          have := leaves_pos r1; have := leaves_pos r2
          simp [Tree.leaves] at hr1; omega
      | node l1 l2 =>
        have := leaves_pos l1; have := leaves_pos l2
        simp [Tree.leaves] at hl1; omega
    | succ e =>
      obtain ⟨l', tl, ll, vl⟩ := ihl
      obtain ⟨r', tr, lr, vr⟩ := ihr
      have h2e : 2 ^ (e + 1) = 2 * 2 ^ e := by rw [Nat.pow_succ]; omega
      refine ⟨.node l' r', .node _ _ tl tr ?_, ?_, ?_⟩
      · have e1 : l'.leaves.length = 2 ^ e := by rw [ll, pairUp_length]; omega
        have e2 : r'.leaves.length = (r.leaves.length + 1) / 2 := by rw [lr, pairUp_length]
        refine ⟨⟨e, e1⟩, ?_, ?_⟩ <;> simp only [List.length_append, e1, e2] <;> omega
      · simp only [Tree.leaves, ll, lr]
        rw [pairUp_append _ _ _ (by omega)]
      · simp only [value, vl, vr]

/-- **The algorithm computes the value of the tree.** -/
theorem levels_value (t : Tree Hash) (ht : Thex t) : levels H t.leaves = .ok (value (nodeHash H) t) := by
  generalize hn : t.leaves.length = n
  induction n using Nat.strongRecOn generalizing t with
  | _ n ih =>
    by_cases h1 : 1 < n
    · obtain ⟨t', tt, ll, vv⟩ := squash (nodeHash H) t ht
      rw [levels_step H _ (by omega), ← ll, ih _ _ t' tt rfl, vv]
      rw [ll, pairUp_length]; omega
    · have := leaves_pos t
      cases ht with
      | leaf a => exact levels_one H a
      | node l r =>
        have := leaves_pos l; have := leaves_pos r
        simp [Tree.leaves] at hn; omega

end Verif.Tiger
