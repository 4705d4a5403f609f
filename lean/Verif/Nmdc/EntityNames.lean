import Verif.Nmdc.NarrowLemmas

/-! # Lemmas: the names in the tables of package `html` -/

namespace Verif.Go

open Verif.Spec

theorem names_end : ∀ e ∈ entityTable, e.1.getLast? = some c!";" → (∀ c ∈ e.1.dropLast, isAlnum c = true) ∧ e.1.dropLast ≠ [] := by
  decide +kernel

theorem pairs_form : ∀ e ∈ entityPairs, e.1.getLast? = some c!";" ∧ (∀ c ∈ e.1.dropLast, isAlnum c = true) ∧ e.1.dropLast ≠ [] := by
  decide +kernel

theorem pairs_end (e : Bytes × Nat × Nat) (he : e ∈ entityPairs) :
    e.1.getLast? = some c!";" ∧ (∀ c ∈ e.1.dropLast, isAlnum c = true) ∧ e.1.dropLast ≠ [] ∧ entityTable.lookup e.1 = none := by
  obtain ⟨h1, h2, h3⟩ := pairs_form e he
  refine ⟨h1, h2, h3, ?_⟩
  cases hl : entityTable.lookup e.1 with
  | none => rfl
  | some r =>
    exact absurd (List.mem_map.2 ⟨e, he, rfl⟩)
      (disjoint_sound _ _ _ entityTable_sorted entityPairs_sorted tables_disjoint _ (List.mem_map.2 ⟨_, lookup_mem hl, rfl⟩))

theorem old_names : ∀ e ∈ entityTable, e.1.getLast? ≠ some c!";" → (∀ c ∈ e.1, isAlnum c = true) ∧ e.1 ≠ [] := by
  decide +kernel

/-- Each entry without a semicolon is followed by the one with it. -/
def semicolonNext : List (Bytes × Nat) → Bool
  | a :: b :: l => (a.1.getLast? == some c!";" || b == (a.1 ++ b!";", a.2)) && semicolonNext (b :: l)
  | [a] => a.1.getLast? == some c!";"
  | [] => true

theorem semicolonNext_mem {l : List (Bytes × Nat)} (h : semicolonNext l = true) {e : Bytes × Nat} (he : e ∈ l) (hs : e.1.getLast? ≠ some c!";") :
    (e.1 ++ b!";", e.2) ∈ l := by
  induction l with
  | nil => simp at he
  | cons a l ih =>
    cases l with
    | nil => simp_all [semicolonNext]
    | cons b l =>
      simp only [semicolonNext, Bool.and_eq_true, Bool.or_eq_true, beq_iff_eq] at h
      rcases List.mem_cons.1 he with rfl | he
      · rcases h.1 with h1 | h1
        · exact absurd h1 hs
        · simp [h1]
      · exact List.mem_cons_of_mem _ (ih h.2 he)

theorem entityTable_next : semicolonNext entityTable = true := by decide +kernel

theorem entity_mem {e : Bytes × Nat} (he : e ∈ entityTable) : html5Entities.entity e.1 = some (utf8 e.2) := by
  change (entityTable.lookup e.1).map utf8 = _
  rw [lookup_of_mem entityTable_sorted he]; rfl

/-! ## Names that are not in the tables -/

section
variable [HtmlEntities]

theorem prefixEntity_some {w p v : Bytes} {j : Nat} (hp : p <+: w) (h2 : 2 ≤ p.length) (hj : p.length ≤ j) (he : entity p = some v)
    (hm : ∀ k, p.length < k → k ≤ j → entity (w.take k) = none) : prefixEntity w j = some (v, p.length + 1) := by
  induction j with
  | zero => omega
  | succ j ih =>
    rw [prefixEntity, if_neg (by omega)]
    by_cases hj' : p.length = j + 1
    · rw [← hj', ← List.prefix_iff_eq_take.1 hp, he, hj']
    · rw [hm (j + 1) (by omega) (by omega)]
      exact ih (by omega) fun k h1 h2 => hm k h1 (by omega)

theorem prefixEntity_none {w : Bytes} {j : Nat} (hm : ∀ k, 2 ≤ k → k ≤ j → entity (w.take k) = none) : prefixEntity w j = none := by
  induction j with
  | zero => rfl
  | succ j ih =>
    rw [prefixEntity]
    split
    · rfl
    · rw [hm (j + 1) (by omega) (by omega)]
      exact ih fun k h1 h2 => hm k h1 (by omega)

theorem unescapeEntity_unknown {w rest : Bytes} (hl : nameLoop (w ++ rest) 1 = w.length + 1) (hne : w ≠ []) (hh : w.head? ≠ some c!"#")
    (h1 : entity w = none) (h2 : entity2 w = none) :
    unescapeEntity (c!"&" :: w ++ rest) = match prefixEntity w (min (w.length - 1) 6) with
      | some r => r
      | none => (c!"&" :: w, w.length + 1) := by
  cases w with
  | nil => simp at hne
  | cons c w =>
    have hc : c ≠ c!"#" := by simpa using hh
    have ht : List.take ((c :: w).length + 1) (c!"&" :: c :: w ++ rest) = c!"&" :: c :: w := by
      rw [List.take_left' (by simp)]
    simp only [List.cons_append] at hl ht ⊢
    simp only [unescapeEntity, hc, if_false, hl, ht, List.drop_succ_cons, List.drop_zero, reduceCtorEq, h1, h2]
    cases prefixEntity (c :: w) (min ((c :: w).length - 1) 6) <;> rfl

theorem htmlUnescape_inside {w p q v rest : Bytes} (hl : nameLoop (w ++ rest) 1 = w.length + 1) (hh : w.head? ≠ some c!"#")
    (h1 : entity w = none) (h2 : entity2 w = none) (hw : w = p ++ q) (hq : q ≠ []) (hp : 2 ≤ p.length ∧ p.length ≤ 6) (he : entity p = some v)
    (hm : ∀ k, p.length < k → k ≤ 6 → k < w.length → entity (w.take k) = none) :
    htmlUnescape (c!"&" :: w ++ rest) = v ++ htmlUnescape (q ++ rest) := by
  have hql : 0 < q.length := List.length_pos_iff.mpr hq
  have hlen : w.length = p.length + q.length := by rw [hw, List.length_append]
  have hu := unescapeEntity_unknown hl (by rw [← List.length_pos_iff]; omega) hh h1 h2
  rw [prefixEntity_some (p := p) (v := v) ⟨q, hw.symm⟩ hp.1 (by omega) he (fun k a b => hm k a (by omega) (by omega))] at hu
  have := htmlUnescape_entity (e := p) (v := v) (s := q ++ rest) (by rw [hw] at hu; simpa using hu)
  rw [hw]
  simpa using this

theorem htmlUnescape_kept {w rest : Bytes} (hl : nameLoop (w ++ rest) 1 = w.length + 1) (hne : w ≠ []) (hh : w.head? ≠ some c!"#")
    (h1 : entity w = none) (h2 : entity2 w = none) (hm : ∀ k, 2 ≤ k → k ≤ 6 → k < w.length → entity (w.take k) = none) :
    htmlUnescape (c!"&" :: w ++ rest) = c!"&" :: w ++ htmlUnescape rest := by
  have hu := unescapeEntity_unknown hl hne hh h1 h2
  have : 0 < w.length := List.length_pos_iff.mpr hne
  rw [prefixEntity_none (fun k a b => hm k a (by omega) (by omega))] at hu
  exact htmlUnescape_entity hu

end

end Verif.Go
