import Verif.Go.Base32Lemmas
import Verif.Spec.Salt

/-!
# Base32 texts of any length
-/

namespace Verif.Go.Base32

open Verif.Spec.Base32

/-- What a quantum reads, exactly. -/
theorem quantum_exact {acc : List Nat} {s : Bytes} {ds : List Nat} {r : Bytes} {e : Bool} (ha : acc.length ≤ 8) (h : quantum acc s = .ok (ds, r, e)) :
    ∃ es tail, ds = acc ++ es ∧ (∀ d ∈ es, d < 32) ∧ s = es.map encChar ++ tail ∧
      (e = false → ds.length = 8 ∧ tail = r) ∧ (e = true → ds.length < 8 ∧ Rest ds.length tail) := by
  induction s generalizing acc with
  | nil =>
    unfold quantum at h
    split at h
    · cases h; exact ⟨[], [], by simp, by simp, by simp, fun _ => ⟨by omega, rfl⟩, by simp⟩
    · cases h; exact ⟨[], [], by simp, by simp, by simp, by simp, fun _ => ⟨by omega, .inl rfl⟩⟩
  | cons c s ih =>
    unfold quantum at h
    split at h
    · cases h; exact ⟨[], c :: s, by simp, by simp, by simp, fun _ => ⟨by omega, rfl⟩, by simp⟩
    · rename_i h8
      split at h
      · rename_i hc
        split at h
        · cases h
        · rename_i hl
          split at h
          · cases h
          · rename_i hall
            split at h
            · cases h
            · rename_i h36
              cases h
              refine ⟨[], c :: r, by simp, by simp, by simp, by simp, fun _ => ⟨by omega, .inr ⟨?_, r.drop (7 - ds.length), ?_, ?_⟩⟩⟩
              · unfold lastBytes
                rw [if_pos (by omega)]
                omega
              · rw [hc.1]
                congr 1
                conv => lhs; rw [← List.take_append_drop (7 - ds.length) r]
                congr 1
                rw [List.eq_replicate_iff]
                refine ⟨by simp; omega, fun b hb => ?_⟩
                have := Classical.not_not.mp hall
                simpa using List.all_eq_true.mp this b hb
              · simp
                omega
      · split at h
        · cases h
        · rename_i d hd
          obtain ⟨es, tail, h1, h2, h3, h4, h5⟩ := ih (by simp; omega) h
          refine ⟨d :: es, tail, by simp [h1], ?_, by simp [h3, ← encChar_decChar hd], h4, h5⟩
          intro x hx
          rcases List.mem_cons.mp hx with rfl | hx
          · exact decChar_lt hd
          · exact h2 x hx

theorem quantum_rest {ds : List Nat} {tail : Bytes} (h : ds.length < 8) (ht : Rest ds.length tail) : ∃ r, quantum ds tail = .ok (ds, r, true) := by
  rcases ht with rfl | ⟨hl, junk, rfl, hj⟩
  · exact ⟨[], by simp [quantum]; omega⟩
  · refine ⟨List.replicate (7 - ds.length) 0xFF ++ junk, ?_⟩
    have hk : ds.length = 2 ∨ ds.length = 4 ∨ ds.length = 5 ∨ ds.length = 7 := by
      unfold lastBytes at hl
      split at hl
      · assumption
      · exact absurd rfl hl
    unfold quantum
    rw [if_neg (by omega), if_pos ⟨rfl, by omega, by simpa using hj⟩, if_neg (by simp; omega), if_neg, if_neg (by omega)]
    simp [List.take_append]

theorem pack_last {ds : List Nat} (h : ds.length < 8) (hd : ∀ d ∈ ds, d < 32) : Carries ds (pack ds) := by
  have e1 : ds.length / 8 = 0 := by omega
  have e2 : ds.length % 8 = ds.length := by omega
  unfold Carries
  rw [e1, e2]
  match ds, h with
  | [], _ => exact ⟨rfl, rfl⟩
  | [_], _ => exact ⟨rfl, rfl⟩
  | [d0, d1], _ =>
    simp only [List.mem_cons, List.not_mem_nil, or_false, forall_eq_or_imp, forall_eq] at hd
    refine ⟨by simp [pack, lastBytes], ?_⟩
    simp only [pack, List.map_cons, List.map_nil, number, List.foldl_cons, List.foldl_nil, List.length_cons, List.length_nil, lastBytes]
    rw [toNat_ofNat_lt (by omega)]
    simp
    omega
  | [_, _, _], _ => exact ⟨rfl, rfl⟩
  | [d0, d1, d2, d3], _ =>
    simp only [List.mem_cons, List.not_mem_nil, or_false, forall_eq_or_imp, forall_eq] at hd
    refine ⟨by simp [pack, lastBytes], ?_⟩
    simp only [pack, List.map_cons, List.map_nil, number, List.foldl_cons, List.foldl_nil, List.length_cons, List.length_nil, lastBytes]
    rw [toNat_ofNat_lt (by omega), toNat_ofNat_lt (by omega)]
    simp
    omega
  | [d0, d1, d2, d3, d4], _ =>
    simp only [List.mem_cons, List.not_mem_nil, or_false, forall_eq_or_imp, forall_eq] at hd
    refine ⟨by simp [pack, lastBytes], ?_⟩
    simp only [pack, List.map_cons, List.map_nil, number, List.foldl_cons, List.foldl_nil, List.length_cons, List.length_nil, lastBytes]
    rw [toNat_ofNat_lt (by omega), toNat_ofNat_lt (by omega), toNat_ofNat_lt (by omega)]
    simp
    omega
  | [_, _, _, _, _, _], _ => exact ⟨rfl, rfl⟩
  | [d0, d1, d2, d3, d4, d5, d6], _ =>
    refine ⟨by simp [pack, lastBytes], ?_⟩
    have := (number_pack_seven rfl hd).2
    simpa [lastBytes] using this

theorem pow_groups (n r b k : Nat) (h : 5 * r = 8 * b + k) : 32 ^ (8 * n + r) = 256 ^ (5 * n + b) * 2 ^ k := by
  have : (32 : Nat) = 2 ^ 5 := rfl
  rw [this, show (256 : Nat) = 2 ^ 8 from rfl, ← Nat.pow_mul, ← Nat.pow_mul, ← Nat.pow_add]
  congr 1; omega

/-- A group before what is carried. -/
theorem carries_group {g ds : List Nat} {out : Bytes} (hg : g.length = 8) (hd : ∀ d ∈ g, d < 32) (h : Carries ds out) :
    Carries (g ++ ds) (pack g ++ out) := by
  obtain ⟨p1, p2⟩ := number_pack_eight hg hd
  obtain ⟨h1, h2⟩ := h
  have e1 : (g ++ ds).length / 8 = ds.length / 8 + 1 := by simp; omega
  have e2 : (g ++ ds).length % 8 = ds.length % 8 := by simp; omega
  have e3 : 5 * (g ++ ds).length % 8 = 5 * ds.length % 8 := by simp; omega
  unfold Carries
  rw [e1, e2, e3]
  refine ⟨by simp; omega, ?_⟩
  rw [List.map_append, number_append, p2, List.length_map, h1, h2]
  split
  · rename_i h0
    have ht : (g ++ ds).take (8 * (ds.length / 8 + 1)) = g ++ ds.take (8 * (ds.length / 8)) := by
      rw [List.take_append, List.take_of_length_le (by rw [hg]; omega), hg, show 8 * (ds.length / 8 + 1) - 8 = 8 * (ds.length / 8) by omega]
    rw [h0, ht, number_append]
    congr 2
    rw [List.length_take, Nat.min_eq_left (by omega)]
    have := pow_groups (ds.length / 8) 0 0 0 rfl
    simpa using this.symm
  · rename_i h0
    have hk : ds.length % 8 = 2 ∨ ds.length % 8 = 4 ∨ ds.length % 8 = 5 ∨ ds.length % 8 = 7 := by
      unfold lastBytes at h0
      split at h0
      · assumption
      · exact absurd rfl h0
    have hb : 5 * (ds.length % 8) = 8 * lastBytes (ds.length % 8) + 5 * ds.length % 8 := by
      unfold lastBytes
      rw [if_pos hk]
      omega
    have hp := pow_groups (ds.length / 8) (ds.length % 8) _ _ hb
    rw [show 8 * (ds.length / 8) + ds.length % 8 = ds.length by omega] at hp
    rw [number_append, hp, ← Nat.mul_assoc, Nat.add_comm (_ * 2 ^ _), Nat.add_mul_div_right _ _ (Nat.pow_pos (by omega)), Nat.add_comm]

theorem carries_length {ds : List Nat} {out : Bytes} (h : Carries ds out) : 8 * out.length ≤ 5 * ds.length := by
  have := h.1
  unfold lastBytes at this
  split at this <;> omega

theorem carries_unique {ds : List Nat} {a b : Bytes} (ha : Carries ds a) (hb : Carries ds b) : a = b :=
  number_injective (ha.1.trans hb.1.symm) (ha.2.trans hb.2.symm)

theorem carries_exists (ds : List Nat) (h : ∀ d ∈ ds, d < 32) : ∃ out, Carries ds out := by
  induction hn : ds.length using Nat.strongRecOn generalizing ds with
  | _ n ih =>
    subst hn
    by_cases h8 : ds.length < 8
    · exact ⟨_, pack_last h8 h⟩
    · obtain ⟨out, ho⟩ := ih (ds.drop 8).length (by simp; omega) (ds.drop 8) (fun d hd => h d (List.mem_of_mem_drop hd)) rfl
      refine ⟨pack (ds.take 8) ++ out, ?_⟩
      have := carries_group (g := ds.take 8) (by simp; omega) (fun d hd => h d (List.mem_of_mem_take hd)) ho
      rwa [List.take_append_drop] at this

/-- A large enough buffer: exactly the texts of the specification are decoded. -/
theorem decodeLoop_exact (src : Bytes) : ∀ (room : Nat) (out : Bytes), 5 * src.length ≤ 8 * room + 7 →
    (decodeLoop room src = .ok out ↔
      ∃ ds tail, (∀ d ∈ ds, d < 32) ∧ src = ds.map encChar ++ tail ∧ Rest (ds.length % 8) tail ∧ Carries ds out) := by
  induction hn : src.length using Nat.strongRecOn generalizing src with
  | _ n ih =>
    subst hn
    intro room out hroom
    constructor
    · intro h
      by_cases hs : src = []
      · subst hs
        simp [decodeLoop] at h
        subst h
        exact ⟨[], [], by simp, rfl, .inl rfl, rfl, rfl⟩
      cases hq : quantum [] src with
      | err e => rw [decodeLoop_err hs hq] at h; cases h
      | panic => exact absurd hq (quantum_ne_panic _ _)
      | ok q =>
        obtain ⟨ds, r, e⟩ := q
        obtain ⟨es, tail, h1, h2, h3, h4, h5⟩ := quantum_exact (by simp) hq
        simp only [List.nil_append] at h1
        subst h1
        rw [decodeLoop_step hs hq] at h
        split at h
        · cases h
        · cases e with
          | true =>
            obtain ⟨h6, h7⟩ := h5 rfl
            cases h
            exact ⟨ds, tail, h2, h3, by rwa [Nat.mod_eq_of_lt h6], pack_last h6 h2⟩
          | false =>
            obtain ⟨h6, rfl⟩ := h4 rfl
            obtain ⟨t, ht, h⟩ := Res.bind_eq_ok.mp h
            cases h
            have hl : src.length = 8 + tail.length := by rw [h3]; simp [h6]
            obtain ⟨ds', tail', g1, g2, g3, g4⟩ := (ih tail.length (by omega) tail rfl (room - 5) t (by omega)).mp ht
            refine ⟨ds ++ ds', tail', ?_, ?_, ?_, carries_group h6 h2 g4⟩
            · intro d hd
              rcases List.mem_append.mp hd with hd | hd
              · exact h2 d hd
              · exact g1 d hd
            · rw [h3, g2]; simp
            · rw [show (ds ++ ds').length % 8 = ds'.length % 8 by simp; omega]
              exact g3
    · rintro ⟨ds, tail, h1, h2, h3, h4⟩
      by_cases h8 : ds.length < 8
      · rw [Nat.mod_eq_of_lt h8] at h3
        by_cases hs : src = []
        · rw [hs] at h2
          have : ds = [] ∧ tail = [] := by simpa using h2.symm
          obtain ⟨rfl, rfl⟩ := this
          rw [hs, carries_unique h4 (show Carries [] [] from ⟨rfl, rfl⟩)]
          simp [decodeLoop]
        · obtain ⟨r, hr⟩ := quantum_rest h8 h3
          have hq : quantum [] src = .ok (ds, r, true) := by
            rw [h2, quantum_digits h1 (by simp; omega)]
            simpa using hr
          have hp := pack_last h8 h1
          rw [decodeLoop_step hs hq, if_neg, if_pos rfl, carries_unique h4 hp]
          have := carries_length hp
          have : ds.length ≤ src.length := by rw [h2]; simp
          omega
      · have hsplit : ds = ds.take 8 ++ ds.drop 8 := (List.take_append_drop 8 ds).symm
        have l8 : (ds.take 8).length = 8 := by simp; omega
        have ht2 : ∀ d ∈ ds.take 8, d < 32 := fun d hd => h1 d (List.mem_of_mem_take hd)
        have hd2 : ∀ d ∈ ds.drop 8, d < 32 := fun d hd => h1 d (List.mem_of_mem_drop hd)
        have hsrc : src = (ds.take 8).map encChar ++ ((ds.drop 8).map encChar ++ tail) := by
          rw [h2, ← List.append_assoc, ← List.map_append, List.take_append_drop]
        have hl : src.length = 8 + ((ds.drop 8).map encChar ++ tail).length := by rw [hsrc, List.length_append, List.length_map, l8]
        have hs : src ≠ [] := by rintro rfl; simp at hl; omega
        have hq : quantum [] src = .ok (ds.take 8, (ds.drop 8).map encChar ++ tail, false) := by
          rw [hsrc, quantum_digits ht2 (by simp; omega), List.nil_append]
          cases hc : (ds.drop 8).map encChar ++ tail with
          | nil => rw [quantum, if_pos (by omega)]
          | cons c s => rw [quantum, if_pos (by omega)]
        obtain ⟨p1, p2⟩ := number_pack_eight l8 ht2
        have hex : ∃ out', Carries (ds.drop 8) out' ∧ decodeLoop (room - 5) ((ds.drop 8).map encChar ++ tail) = .ok out' := by
          obtain ⟨out', k⟩ := carries_exists _ hd2
          refine ⟨out', k, (ih _ (by omega) _ rfl (room - 5) out' (by omega)).mpr ⟨ds.drop 8, tail, hd2, rfl, ?_, k⟩⟩
          rw [show (ds.drop 8).length % 8 = ds.length % 8 by simp; omega]
          exact h3
        obtain ⟨out', k1, k2⟩ := hex
        rw [decodeLoop_step hs hq, if_neg (by omega), if_neg (by simp), k2]
        have := carries_unique h4 (by have := carries_group l8 ht2 k1; rwa [List.take_append_drop] at this)
        rw [this]
        rfl

end Verif.Go.Base32
