import Verif.Nmdc.Extensions

/-!
# Extension sets behave as sets (C37)

Sets are compared by membership, so that the order in which Go visits a map does not matter.
-/

namespace Verif.Props.NmdcExtensions

open Verif.Nmdc

theorem mem_insertKey (l : List Bytes) (x y : Bytes) : y ∈ insertKey l x ↔ y ∈ l ∨ y = x := by
  unfold insertKey; split
  · constructor
    · exact .inl
    · rintro (h | rfl) <;> assumption
  · simp

theorem nodup_insertKey {l : List Bytes} (h : l.Nodup) (x : Bytes) : (insertKey l x).Nodup := by
  unfold insertKey; split
  · exact h
  · rename_i hx
    rw [List.nodup_append]
    refine ⟨h, by simp, ?_⟩
    intro a ha b hb
    simp at hb; subst hb
    rintro rfl; exact hx ha

theorem mem_foldl_insert (o acc : List Bytes) (y : Bytes) : y ∈ o.foldl insertKey acc ↔ y ∈ acc ∨ y ∈ o := by
  induction o generalizing acc with
  | nil => simp
  | cons x o ih => rw [List.foldl_cons, ih, mem_insertKey, List.mem_cons, or_assoc]

theorem nodup_foldl_insert (o acc : List Bytes) (h : acc.Nodup) : (o.foldl insertKey acc).Nodup := by
  induction o generalizing acc with
  | nil => exact h
  | cons x o ih => exact ih _ (nodup_insertKey h x)

theorem filterLoop_spec (f : Extensions) (o acc : List Bytes) (h : acc.Nodup) :
    (f.filterLoop acc o).Nodup ∧ ∀ y, y ∈ f.filterLoop acc o ↔ y ∈ acc ∨ (y ∈ f.keys ∧ y ∈ o) := by
  induction o generalizing acc with
  | nil => simp [Extensions.filterLoop, h]
  | cons x o ih =>
    unfold Extensions.filterLoop
    by_cases hx : f.has x = true
    · rw [if_pos hx]
      refine ⟨(ih _ (nodup_insertKey h x)).1, fun y => ?_⟩
      rw [(ih _ (nodup_insertKey h x)).2, mem_insertKey]
      simp only [Extensions.has, List.contains_iff_mem] at hx
      constructor
      · rintro ((h | rfl) | h)
        · exact .inl h
        · exact .inr ⟨hx, by simp⟩
        · exact .inr ⟨h.1, by simp [h.2]⟩
      · rintro (h | ⟨h1, h2⟩)
        · exact .inl (.inl h)
        · rcases List.mem_cons.mp h2 with rfl | h2
          · exact .inl (.inr rfl)
          · exact .inr ⟨h1, h2⟩
    · rw [if_neg hx]
      refine ⟨(ih _ h).1, fun y => ?_⟩
      rw [(ih _ h).2]
      simp only [Extensions.has, List.contains_iff_mem] at hx
      constructor
      · rintro (h | h)
        · exact .inl h
        · exact .inr ⟨h.1, by simp [h.2]⟩
      · rintro (h | ⟨h1, h2⟩)
        · exact .inl h
        · rcases List.mem_cons.mp h2 with rfl | h2
          · exact absurd h1 hx
          · exact .inr ⟨h1, h2⟩

theorem strLe_total (a b : Bytes) : (strLe a b || strLe b a) = true := by
  induction a generalizing b with
  | nil => simp [strLe]
  | cons x a ih =>
    cases b with
    | nil => simp [strLe]
    | cons y b =>
      unfold strLe
      by_cases h : x = y
      · subst h; simpa using ih b
      · rw [if_neg h, if_neg (Ne.symm h)]
        rcases UInt8.lt_or_lt_of_ne h with h' | h' <;> simp [h']

theorem strLe_trans (a b c : Bytes) (h1 : strLe a b = true) (h2 : strLe b c = true) : strLe a c = true := by
  induction a generalizing b c with
  | nil => simp [strLe]
  | cons x a ih =>
    cases b with
    | nil => simp [strLe] at h1
    | cons y b =>
      cases c with
      | nil => simp [strLe] at h2
      | cons z c =>
        rw [strLe] at h1 h2 ⊢
        by_cases hxy : x = y
        · subst hxy
          rw [if_pos rfl] at h1
          by_cases hxz : x = z
          · subst hxz; rw [if_pos rfl] at h2 ⊢; exact ih _ _ h1 h2
          · rw [if_neg hxz] at h2 ⊢; exact h2
        · rw [if_neg hxy] at h1
          by_cases hyz : y = z
          · subst hyz; rw [if_neg hxy]; exact h1
          · rw [if_neg hyz] at h2
            have h := UInt8.lt_trans (of_decide_eq_true h1) (of_decide_eq_true h2)
            rw [if_neg (by rintro rfl; exact UInt8.lt_irrefl _ h)]
            exact decide_eq_true h

theorem strLe_antisymm (a b : Bytes) (h1 : strLe a b = true) (h2 : strLe b a = true) : a = b := by
  induction a generalizing b with
  | nil => cases b <;> simp [strLe] at h2 ⊢
  | cons x a ih =>
    cases b with
    | nil => simp [strLe] at h1
    | cons y b =>
      rw [strLe] at h1 h2
      by_cases h : x = y
      · subst h; rw [if_pos rfl] at h1 h2; rw [ih _ h1 h2]
      · rw [if_neg h] at h1; rw [if_neg (Ne.symm h)] at h2
        exact absurd (UInt8.lt_trans (of_decide_eq_true h1) (of_decide_eq_true h2)) (UInt8.lt_irrefl _)

/-- `a` comes before `b` in the order of Go strings: at the first place where they differ `a` has the
smaller byte, or `a` is a proper prefix of `b`. -/
def Before (a b : Bytes) : Prop :=
  (∃ p x y s t, a = p ++ x :: s ∧ b = p ++ y :: t ∧ x < y) ∨ ∃ y t, b = a ++ y :: t

theorem before_of_strLe (a b : Bytes) (h : strLe a b = true) (hne : a ≠ b) : Before a b := by
  induction a generalizing b with
  | nil =>
    cases b with
    | nil => exact absurd rfl hne
    | cons y b => exact .inr ⟨y, b, rfl⟩
  | cons x a ih =>
    cases b with
    | nil => simp [strLe] at h
    | cons y b =>
      unfold strLe at h
      by_cases hxy : x = y
      · subst hxy
        rw [if_pos rfl] at h
        rcases ih b h (fun e => hne (by rw [e])) with ⟨p, u, v, s, t, rfl, rfl, hl⟩ | ⟨y, t, rfl⟩
        · exact .inl ⟨x :: p, u, v, s, t, rfl, rfl, hl⟩
        · exact .inr ⟨y, t, rfl⟩
      · rw [if_neg hxy] at h
        exact .inl ⟨[], x, y, a, b, rfl, rfl, of_decide_eq_true h⟩

/-- **C37.** The operations on `Extensions`, for every map (nil or not), every visiting order of the
maps involved and every name. -/
theorem extensions_are_sets (f f2 : Extensions) (hf : f.keys.Nodup) (o o2 : List Bytes) (ho : f.Order o)
    (ho2 : f2.Order o2) (names : List Bytes) (x : Bytes) :
    -- membership
    (f.has x = true ↔ x ∈ f.keys) ∧
    -- copy
    ((Extensions.clone o).keys.Nodup ∧ ((Extensions.clone o).has x = f.has x)) ∧
    -- intersection
    ((f.intersect o2).keys.Nodup ∧ (f.intersect o2).has x = (f.has x && f2.has x)) ∧
    ((f.intersectList names).keys.Nodup ∧ ((f.intersectList names).has x = true ↔ f.has x = true ∧ x ∈ names)) ∧
    -- listing: same members, each once, in ascending order
    ((Extensions.list o).Perm f.keys ∧ (Extensions.list o).Pairwise Before) := by
  have key : ∀ g : Extensions, g.has x = true ↔ x ∈ g.keys := by
    intro g; simp [Extensions.has]
  have hb : ∀ a b : Bool, (a = true ↔ b = true) → a = b := by decide
  refine ⟨key f, ⟨?_, ?_⟩, ⟨?_, ?_⟩, ⟨?_, ?_⟩, ?_, ?_⟩
  · exact nodup_foldl_insert _ _ (by simp)
  · apply hb
    rw [key, key]
    simp only [Extensions.clone, Extensions.keys, Option.getD_some, mem_foldl_insert, List.not_mem_nil, false_or]
    exact ho.mem_iff
  · exact (filterLoop_spec f o2 [] (by simp)).1
  · apply hb
    rw [Bool.and_eq_true, key, key, key]
    refine ((filterLoop_spec f o2 [] (by simp)).2 x).trans ?_
    simp only [List.not_mem_nil, false_or]
    rw [ho2.mem_iff]
  · exact (filterLoop_spec f names [] (by simp)).1
  · rw [key, key]
    refine ((filterLoop_spec f names [] (by simp)).2 x).trans ?_
    simp
  · exact (List.mergeSort_perm o strLe).trans ho
  · have hs := List.pairwise_mergeSort (le := strLe) strLe_trans strLe_total o
    have hn : (o.mergeSort strLe).Nodup := ((List.mergeSort_perm o strLe).trans ho).nodup_iff.mpr hf
    exact (hs.and hn).imp fun h => before_of_strLe _ _ h.1 h.2

/-- `Set` inserts: everything that was a member still is, the name is, nothing else changes, and it is
stored once; on a nil map it panics. -/
theorem set_inserts (f : Extensions) (hf : f.keys.Nodup) (name : Bytes) :
    (f = none ↔ f.set name = .panic) ∧
    ∀ f', f.set name = .ok f' → f'.keys.Nodup ∧ ∀ x, f'.has x = true ↔ f.has x = true ∨ x = name := by
  cases f with
  | none => simp [Extensions.set]
  | some l =>
    refine ⟨by simp [Extensions.set], fun f' h => ?_⟩
    cases h
    refine ⟨nodup_insertKey hf name, fun x => ?_⟩
    simp only [Extensions.has, Extensions.keys, Option.getD_some, List.contains_iff_mem]
    exact mem_insertKey l name x

/-- A list sorted by any algorithm is the one `List` returns: two duplicate-free ascending lists with the
same members are equal, so the order of the map does not show. -/
theorem sorted_unique {a b : List Bytes} (ha : a.Pairwise fun x y => strLe x y = true)
    (hb : b.Pairwise fun x y => strLe x y = true) (hp : a.Perm b) : a = b :=
  List.Perm.eq_of_pairwise (fun x y _ _ h1 h2 => strLe_antisymm x y h1 h2) ha hb hp

/-- `List` does not depend on the order in which Go visits the map. -/
theorem list_order_independent (f : Extensions) (o o' : List Bytes) (ho : f.Order o) (ho' : f.Order o') :
    Extensions.list o = Extensions.list o' :=
  sorted_unique (List.pairwise_mergeSort strLe_trans strLe_total o) (List.pairwise_mergeSort strLe_trans strLe_total o')
    ((List.mergeSort_perm o strLe).trans (ho.trans (ho'.symm.trans (List.mergeSort_perm o' strLe).symm)))

/-- **C37 (Supports).** `Supports.Intersect` returns the extensions of the second list that are in the
first, in the order and with the repetitions of the second. -/
theorem supports_intersect (m m2 : List Bytes) :
    supportsIntersect m m2 = m2.filter (fun e => decide (e ∈ m)) := by
  unfold supportsIntersect
  have hs : ∀ e, (m.foldl insertKey []).contains e = decide (e ∈ m) := by
    intro e
    have := mem_foldl_insert m [] e
    simp only [List.not_mem_nil, false_or] at this
    by_cases h : e ∈ m <;> simp [this, h]
  have : ∀ acc, m2.foldl (fun r e => if (m.foldl insertKey []).contains e then r ++ [e] else r) acc
      = acc ++ m2.filter (fun e => decide (e ∈ m)) := by
    induction m2 with
    | nil => simp
    | cons x m2 ih =>
      intro acc
      rw [List.foldl_cons, ih, hs]
      by_cases h : x ∈ m <;> simp [h]
  simpa using this []

/-- The members of the result are exactly the common extensions. -/
theorem supports_intersect_mem (m m2 : List Bytes) (e : Bytes) :
    e ∈ supportsIntersect m m2 ↔ e ∈ m ∧ e ∈ m2 := by
  rw [supports_intersect, List.mem_filter]; simp [and_comm]

/-- Repetitions are kept: the result of `Supports.Intersect` is a list, not a set. -/
theorem supports_intersect_repeats : ∃ m m2 : List Bytes, m2 = [b!"TLS", b!"TLS"] ∧ supportsIntersect m m2 = [b!"TLS", b!"TLS"] :=
  ⟨[b!"TLS"], _, rfl, by decide⟩

/-- The hypotheses of `extensions_are_sets` can be met, also with a visiting order that differs. -/
example : Extensions.keys (some [b!"b", b!"a", b!"c"]) |>.Nodup := by decide

example : Extensions.Order (some [b!"b", b!"a", b!"c"]) [b!"c", b!"a", b!"b"] := by
  show List.Perm [b!"c", b!"a", b!"b"] [b!"b", b!"a", b!"c"]
  decide

example : Extensions.list [b!"c", b!"a", b!"b"] = [b!"a", b!"b", b!"c"] := by
  simp [Extensions.list, List.mergeSort, List.MergeSort.Internal.splitInTwo, strLe]

end Verif.Props.NmdcExtensions
