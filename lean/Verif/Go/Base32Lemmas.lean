import Verif.Go.Base32
import Verif.Spec.Base32

/-!
# Exactly what base32 decoding accepts
-/

namespace Verif.Go.Base32

open Verif.Spec.Base32 (number digits)

theorem number_snoc (b : Nat) (ds : List Nat) (d : Nat) : number b (ds ++ [d]) = number b ds * b + d := by
  simp [number, List.foldl_append]

theorem number_append (b : Nat) (xs ys : List Nat) : number b (xs ++ ys) = number b xs * b ^ ys.length + number b ys := by
  generalize hn : ys.length = n
  induction n generalizing ys with
  | zero => rw [List.length_eq_zero_iff] at hn; subst hn; simp [number]
  | succ n ih =>
    have hne : ys ≠ [] := by rintro rfl; simp at hn
    have e := List.dropLast_concat_getLast hne
    rw [← e, ← List.append_assoc, number_snoc, ih ys.dropLast (by simp; omega), number_snoc, Nat.pow_succ, Nat.add_mul,
      Nat.mul_assoc]
    omega

theorem digits_number {b : Nat} (hb : 0 < b) (ds : List Nat) (h : ∀ d ∈ ds, d < b) : digits b ds.length (number b ds) = ds := by
  generalize hn : ds.length = n
  induction n generalizing ds with
  | zero => rw [List.length_eq_zero_iff] at hn; subst hn; rfl
  | succ n ih =>
    have hne : ds ≠ [] := by rintro rfl; simp at hn
    have e := List.dropLast_concat_getLast hne
    have hl := h _ (List.getLast_mem hne)
    have := ih ds.dropLast (fun d hd => h d (List.dropLast_subset _ hd)) (by simp; omega)
    have h1 : (number b ds.dropLast * b + ds.getLast hne) / b = number b ds.dropLast := by
      rw [Nat.add_comm, Nat.add_mul_div_right _ _ hb, Nat.div_eq_of_lt hl, Nat.zero_add]
    have h2 : (number b ds.dropLast * b + ds.getLast hne) % b = ds.getLast hne := by
      rw [Nat.add_comm, Nat.add_mul_mod_self_right, Nat.mod_eq_of_lt hl]
    rw [← e, number_snoc, digits, h1, h2, this]

/-- Byte strings of the same length with the same number are equal. -/
theorem number_injective {s t : Bytes} (hl : s.length = t.length)
    (h : number 256 (s.map UInt8.toNat) = number 256 (t.map UInt8.toNat)) : s = t := by
  have lt : ∀ u : Bytes, ∀ d ∈ u.map UInt8.toNat, d < 256 := by
    intro u d hd
    obtain ⟨c, _, rfl⟩ := List.mem_map.mp hd
    exact c.toNat_lt
  have h1 := digits_number (b := 256) (by omega) (s.map UInt8.toNat) (lt s)
  have h2 := digits_number (b := 256) (by omega) (t.map UInt8.toNat) (lt t)
  rw [h, List.length_map, hl] at h1
  rw [List.length_map] at h2
  have : s.map UInt8.toNat = t.map UInt8.toNat := h1.symm.trans h2
  exact (List.map_inj_right (fun a b h => UInt8.toNat_inj.mp h)).mp this

theorem encChar_decChar {c : Byte} {d : Nat} (h : decChar c = some d) : c = encChar d := by
  have : ∀ c, (decChar c).all (fun d => c = encChar d) = true := by apply forall_byte; decide +kernel
  simpa [h] using this c

/-- What a quantum reads. -/
theorem quantum_inv {acc : List Nat} {s : Bytes} {ds : List Nat} {r : Bytes} {e : Bool} (h : quantum acc s = .ok (ds, r, e)) :
    ∃ es tail, ds = acc ++ es ∧ (∀ d ∈ es, d < 32) ∧ s = es.map encChar ++ tail ∧
      (e = false → tail = r) ∧ (e = true → tail = [] ∨ (tail = 0xFF :: r ∧ r.length < 8)) := by
  induction s generalizing acc with
  | nil =>
    unfold quantum at h
    split at h <;> cases h <;> exact ⟨[], [], by simp⟩
  | cons c s ih =>
    unfold quantum at h
    split at h
    · cases h; exact ⟨[], c :: s, by simp⟩
    · split at h
      · rename_i hc
        split at h
        · cases h
        · split at h
          · cases h
          · split at h
            · cases h
            · cases h
              exact ⟨[], c :: r, by simp, by simp, by simp, by simp, fun _ => .inr ⟨by rw [hc.1], hc.2.2⟩⟩
      · split at h
        · cases h
        · rename_i d hd
          obtain ⟨es, tail, h1, h2, h3, h4, h5⟩ := ih h
          refine ⟨d :: es, tail, by simp [h1], ?_, by simp [h3, ← encChar_decChar hd], h4, h5⟩
          intro x hx
          rcases List.mem_cons.mp hx with rfl | hx
          · exact decChar_lt hd
          · exact h2 x hx

theorem pack_seven {ds : List Nat} (h : ds.length ≤ 8) (hp : (pack ds).length = 4) : ds.length = 7 := by
  match ds, h with
  | [], _ => simp [pack] at hp
  | [_], _ => simp [pack] at hp
  | [_, _], _ => simp [pack] at hp
  | [_, _, _], _ => simp [pack] at hp
  | [_, _, _, _], _ => simp [pack] at hp
  | [_, _, _, _, _], _ => simp [pack] at hp
  | [_, _, _, _, _, _], _ => simp [pack] at hp
  | [_, _, _, _, _, _, _], _ => rfl
  | [_, _, _, _, _, _, _, _], _ => simp [pack] at hp

theorem toNat_ofNat_lt {n : Nat} (h : n < 256) : (UInt8.ofNat n).toNat = n := by
  rw [UInt8.toNat_ofNat']; omega

theorem number_pack_seven {ds : List Nat} (h : ds.length = 7) (hd : ∀ d ∈ ds, d < 32) :
    (pack ds).length = 4 ∧ number 256 ((pack ds).map UInt8.toNat) = number 32 ds / 8 := by
  match ds, h with
  | [d0, d1, d2, d3, d4, d5, d6], _ =>
    simp only [List.mem_cons, List.not_mem_nil, or_false, forall_eq_or_imp, forall_eq] at hd
    obtain ⟨h0, h1, h2, h3, h4, h5, h6⟩ := hd
    refine ⟨rfl, ?_⟩
    simp only [pack, List.map_cons, List.map_nil, number, List.foldl_cons, List.foldl_nil]
    rw [toNat_ofNat_lt (by omega), toNat_ofNat_lt (by omega), toNat_ofNat_lt (by omega), toNat_ofNat_lt (by omega)]
    omega

theorem number_pack_eight {ds : List Nat} (h : ds.length = 8) (hd : ∀ d ∈ ds, d < 32) :
    (pack ds).length = 5 ∧ number 256 ((pack ds).map UInt8.toNat) = number 32 ds := by
  match ds, h with
  | [d0, d1, d2, d3, d4, d5, d6, d7], _ =>
    simp only [List.mem_cons, List.not_mem_nil, or_false, forall_eq_or_imp, forall_eq] at hd
    obtain ⟨h0, h1, h2, h3, h4, h5, h6, h7⟩ := hd
    refine ⟨rfl, ?_⟩
    simp only [pack, List.map_cons, List.map_nil, number, List.foldl_cons, List.foldl_nil]
    rw [toNat_ofNat_lt (by omega), toNat_ofNat_lt (by omega), toNat_ofNat_lt (by omega), toNat_ofNat_lt (by omega),
      toNat_ofNat_lt (by omega)]
    omega

/-- The end of a text: nothing, or the padding byte and up to seven bytes more. -/
def End (tail : Bytes) : Prop := tail = [] ∨ ∃ junk, tail = 0xFF :: junk ∧ junk.length < 8

theorem quantum_seven {ds : List Nat} {tail : Bytes} (h : ds.length = 7) (ht : End tail) :
    ∃ r, quantum ds tail = .ok (ds, r, true) := by
  rcases ht with rfl | ⟨junk, rfl, hj⟩
  · exact ⟨[], by simp [quantum, h]⟩
  · refine ⟨junk, ?_⟩
    simp [quantum, h, hj]

theorem pow_eq (n : Nat) : 32 ^ (8 * n + 7) = 256 ^ (5 * n + 4) * 8 := by
  have : (32 : Nat) = 2 ^ 5 := rfl
  rw [this, show (256 : Nat) = 2 ^ 8 from rfl, show (8 : Nat) = 2 ^ 3 from rfl, ← Nat.pow_mul, ← Nat.pow_mul, ← Nat.pow_add]
  congr 1; omega

/-- A text of `8n + 7` characters is decoded. -/
theorem decodeLoop_ok (n : Nat) : ∀ (room : Nat) (ds : List Nat) (tail : Bytes), 5 * n + 4 ≤ room → ds.length = 8 * n + 7 →
    (∀ d ∈ ds, d < 32) → End tail → ∃ out, decodeLoop room (ds.map encChar ++ tail) = .ok out ∧ out.length = 5 * n + 4 ∧
      number 256 (out.map UInt8.toNat) = number 32 ds / 8 := by
  induction n with
  | zero =>
    intro room ds tail hr h1 h2 h4
    obtain ⟨r, hq⟩ := quantum_seven (by omega) h4
    have hq' : quantum [] (ds.map encChar ++ tail) = .ok (ds, r, true) := by
      rw [quantum_digits h2 (by simp; omega)]; simpa using hq
    have hs : ds.map encChar ++ tail ≠ [] := by
      intro h
      have := congrArg List.length h
      rw [List.length_append, List.length_map, List.length_nil] at this; omega
    obtain ⟨p1, p2⟩ := number_pack_seven (by omega) h2
    refine ⟨pack ds, ?_, p1, p2⟩
    rw [decodeLoop_step hs hq', if_neg (by omega), if_pos rfl]
  | succ n ih =>
    intro room ds tail hr h1 h2 h4
    have hsplit : ds = ds.take 8 ++ ds.drop 8 := (List.take_append_drop 8 ds).symm
    have l8 : (ds.take 8).length = 8 := by simp; omega
    have ld : (ds.drop 8).length = 8 * n + 7 := by simp; omega
    have ht2 : ∀ d ∈ ds.take 8, d < 32 := fun d hd => h2 d (List.mem_of_mem_take hd)
    have hd2 : ∀ d ∈ ds.drop 8, d < 32 := fun d hd => h2 d (List.mem_of_mem_drop hd)
    have hsrc : ds.map encChar ++ tail = (ds.take 8).map encChar ++ ((ds.drop 8).map encChar ++ tail) := by
      rw [← List.append_assoc, ← List.map_append, ← hsplit]
    have hq : quantum [] (ds.map encChar ++ tail) = .ok (ds.take 8, (ds.drop 8).map encChar ++ tail, false) := by
      rw [hsrc, quantum_digits ht2 (by simp; omega), List.nil_append]
      have hne : (ds.drop 8).map encChar ++ tail ≠ [] := by
        intro h
        have := congrArg List.length h
        rw [List.length_append, List.length_map, List.length_nil] at this; omega
      cases hc : (ds.drop 8).map encChar ++ tail with
      | nil => exact absurd hc hne
      | cons c s => rw [quantum, if_pos (by omega)]
    have hs : ds.map encChar ++ tail ≠ [] := by
      intro h
      have := congrArg List.length h
      rw [List.length_append, List.length_map, List.length_nil] at this; omega
    obtain ⟨p1, p2⟩ := number_pack_eight l8 ht2
    obtain ⟨out, k1, k2, k3⟩ := ih (room - 5) (ds.drop 8) tail (by omega) ld hd2 h4
    refine ⟨pack (ds.take 8) ++ out, ?_, by simp; omega, ?_⟩
    · rw [decodeLoop_step hs hq, if_neg (by omega), if_neg (by simp), k1]; rfl
    · conv => rhs; rw [hsplit]
      rw [List.map_append, number_append, number_append, p2, List.length_map, k2, k3, ld, pow_eq, ← Nat.mul_assoc, Nat.add_comm,
        Nat.add_comm (_ * 8), Nat.add_mul_div_right _ _ (by omega)]

/-- Decoding to `5n + 4` bytes: exactly the texts of `8n + 7` characters, in the sense of `End`. -/
theorem decodeLoop_ok_iff (n : Nat) : ∀ (room : Nat) (src out : Bytes),
    (decodeLoop room src = .ok out ∧ out.length = 5 * n + 4) ↔
      5 * n + 4 ≤ room ∧ ∃ ds tail, ds.length = 8 * n + 7 ∧ (∀ d ∈ ds, d < 32) ∧ src = ds.map encChar ++ tail ∧ End tail ∧
        out.length = 5 * n + 4 ∧ number 256 (out.map UInt8.toNat) = number 32 ds / 8 := by
  induction n with
  | zero =>
    intro room src out
    constructor
    · rintro ⟨h, hl⟩
      have hs : src ≠ [] := by rintro rfl; simp [decodeLoop] at h; subst h; simp at hl
      cases hq : quantum [] src with
      | err e => rw [decodeLoop_err hs hq] at h; cases h
      | panic => exact absurd hq (quantum_ne_panic _ _)
      | ok q =>
        obtain ⟨ds, r, e⟩ := q
        obtain ⟨es, tail, h1, h2, h3, h4, h5⟩ := quantum_inv hq
        obtain ⟨g1, -, -, g4⟩ := quantum_ds (by simp) hq
        rw [decodeLoop_step hs hq] at h
        simp only [List.nil_append] at h1
        subst h1
        split at h
        · cases h
        · rename_i hr
          split at h
          · rename_i he
            cases h
            have h7 := pack_seven g1 (by simpa using hl)
            refine ⟨by omega, ds, tail, by omega, h2, h3, ?_, hl, (number_pack_seven h7 h2).2⟩
            rcases h5 he with h5 | h5
            · exact .inl h5
            · exact .inr ⟨r, h5⟩
          · rename_i he
            obtain ⟨t, ht, h⟩ := Res.bind_eq_ok.mp h
            cases h
            have := (g4 (by simpa using he)).1
            have := pack_eight this
            simp at hl; omega
    · rintro ⟨hr, ds, tail, h1, h2, rfl, h4, h5, h6⟩
      obtain ⟨out', k1, k2, k3⟩ := decodeLoop_ok _ room ds tail hr h1 h2 h4
      rw [number_injective (by omega) (h6.trans k3.symm)]
      exact ⟨k1, k2⟩
  | succ n ih =>
    intro room src out
    constructor
    · rintro ⟨h, hl⟩
      have hs : src ≠ [] := by rintro rfl; simp [decodeLoop] at h; subst h; simp at hl
      cases hq : quantum [] src with
      | err e => rw [decodeLoop_err hs hq] at h; cases h
      | panic => exact absurd hq (quantum_ne_panic _ _)
      | ok q =>
        obtain ⟨ds, r, e⟩ := q
        obtain ⟨es, tail, h1, h2, h3, h4, h5⟩ := quantum_inv hq
        obtain ⟨g1, -, -, g4⟩ := quantum_ds (by simp) hq
        rw [decodeLoop_step hs hq] at h
        simp only [List.nil_append] at h1
        subst h1
        split at h
        · cases h
        · rename_i hr
          split at h
          · cases h
            have := (pack_length ds g1).2
            omega
          · rename_i he
            have he : e = false := by simpa using he
            obtain ⟨t, ht, h⟩ := Res.bind_eq_ok.mp h
            cases h
            have h8 := (g4 he).1
            obtain ⟨p1, p2⟩ := number_pack_eight h8 h2
            simp only [List.length_append] at hl
            have htl : t.length = 5 * n + 4 := by omega
            obtain ⟨k1, ds', tail', k2, k3, k4, k5, k6, k7⟩ := (ih _ _ _).mp ⟨ht, htl⟩
            refine ⟨by omega, ds ++ ds', tail', by simp; omega, ?_, ?_, k5, by simp; omega, ?_⟩
            · intro d hd
              rcases List.mem_append.mp hd with hd | hd
              · exact h2 d hd
              · exact k3 d hd
            · rw [h3, h4 he, k4]; simp
            · rw [List.map_append, number_append, number_append, p2, List.length_map, htl, k7, k2]
              rw [pow_eq, ← Nat.mul_assoc, Nat.add_comm, Nat.add_comm (_ * 8), Nat.add_mul_div_right _ _ (by omega)]
    · rintro ⟨hr, ds, tail, h1, h2, rfl, h4, h5, h6⟩
      obtain ⟨out', k1, k2, k3⟩ := decodeLoop_ok _ room ds tail hr h1 h2 h4
      rw [number_injective (by omega) (h6.trans k3.symm)]
      exact ⟨k1, k2⟩

end Verif.Go.Base32
