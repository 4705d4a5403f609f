import Verif.Go.HuffmanWords

/-!
# The codes, tables and the checksum of zlib streams are those of RFC 1950 and RFC 1951 (C120)

The decompressor and the format share these definitions, so that what is written is read would also be true of others.
-/

namespace Verif.Props.ZlibTables

open Verif.Go.Inflate Verif.Go.Deflate

/-! ### Codes -/

/-- The lengths of words that are given (not 0) use up the space of words exactly: each word of length `l` takes the `2 ^ l`th part. -/
def Full (lens : List Nat) (m : Nat) : Prop := ((lens.filter (0 < ·)).map fun l => 2 ^ (m - l)).sum = 2 ^ m

theorem sum_filter (lens : List Nat) (m : Nat) (h : ∀ l ∈ lens, l ≤ m) :
    (lens.map fun l => if 0 < l ∧ l ≤ 0 + m then 2 ^ (0 + m - l) else 0).sum = ((lens.filter (0 < ·)).map fun l => 2 ^ (m - l)).sum := by
  induction lens with
  | nil => rfl
  | cons a lens ih =>
    have h1 := h a List.mem_cons_self
    rw [List.map_cons, List.sum_cons, ih fun l hl => h l (List.mem_cons_of_mem _ hl), List.filter_cons]
    by_cases ha : 0 < a
    · rw [if_pos (by omega), if_pos (by simpa using ha), List.map_cons, List.sum_cons, Nat.zero_add]
    · rw [if_neg (by omega), if_neg (by simpa using ha), Nat.zero_add]

theorem one_word (lens : List Nat) (h : ∀ l ∈ lens, l ≤ 1) (hs : ((lens.filter (0 < ·)).map fun l => 2 ^ (1 - l)).sum = 1) :
    lens.filter (0 < ·) = [1] := by
  have hall : ∀ l ∈ lens.filter (0 < ·), l = 1 := by
    intro l hl
    have h1 := List.mem_filter.mp hl
    have h2 := h l h1.1
    have h3 : 0 < l := by simpa using h1.2
    omega
  generalize lens.filter (0 < ·) = xs at hs hall
  cases xs with
  | nil => simp at hs
  | cons x xs =>
    have := hall x List.mem_cons_self
    subst this
    cases xs with
    | nil => rfl
    | cons y xs =>
      have := hall y (by simp)
      subst this
      simp at hs

/-- **C120.** Lengths of words give a code if and only if they use up the space of words exactly, with two exceptions: no words, and
one word of length 1. -/
theorem code_exists (lens : List Nat) (m : Nat) (hm : ∀ l ∈ lens, l ≤ m) (hm' : m = 0 ∨ m ∈ lens) :
    (mkBook lens).isSome ↔ (∀ l ∈ lens, l = 0) ∨ Full lens m ∨ lens.filter (0 < ·) = [1] := by
  have hmax : maxLen lens = m := by
    by_cases h0 : maxLen lens = 0
    · rcases hm' with h | h
      · omega
      · have := le_maxLen h; omega
    · have h1 := hm _ (maxLen_mem h0)
      rcases hm' with h | h
      · omega
      · have := le_maxLen h; omega
  have hsum : lastCode lens m 0 0 = ((lens.filter (0 < ·)).map fun l => 2 ^ (m - l)).sum := by
    rw [lastCode_sum, Nat.mul_zero, Nat.zero_add, sum_filter lens m hm]
  unfold mkBook Full
  rw [hmax, hsum]
  by_cases h0 : m = 0
  · rw [if_pos h0]
    refine ⟨fun _ => .inl fun l hl => ?_, fun _ => rfl⟩
    have := hm l hl
    omega
  · rw [if_neg h0]
    have hmem : m ∈ lens := hm'.resolve_left h0
    by_cases h1 : ((lens.filter (0 < ·)).map fun l => 2 ^ (m - l)).sum = 2 ^ m
    · rw [if_pos (.inl h1)]
      exact ⟨fun _ => .inr (.inl h1), fun _ => rfl⟩
    · by_cases h2 : ((lens.filter (0 < ·)).map fun l => 2 ^ (m - l)).sum = 1 ∧ m = 1
      · rw [if_pos (.inr h2)]
        refine ⟨fun _ => .inr (.inr ?_), fun _ => rfl⟩
        obtain ⟨h2, rfl⟩ := h2
        exact one_word lens hm h2
      · rw [if_neg (by rintro (h | h); exact h1 h; exact h2 h)]
        refine ⟨(by simp), ?_⟩
        rintro (h | h | h)
        · exact absurd (h m hmem) h0
        · exact absurd h h1
        · exfalso
          have h3 : m ∈ lens.filter (0 < ·) := List.mem_filter.mpr ⟨hmem, by simp; omega⟩
          rw [h] at h3
          have h4 : m = 1 := by simpa using h3
          rw [h, h4] at h2
          exact h2 ⟨rfl, rfl⟩

example : Full [2, 1, 0, 3, 3] 3 ∧ ¬ Full [2, 2, 0, 3] 3 ∧ ¬ Full [1, 1, 2] 2 := by unfold Full; decide

/-- **C120.** The code: a symbol has a word if its length is not 0, and that is the length of the word (which is written as a number, with
the digit 1 before it).  A longer word is greater than all continuations of a shorter one; among words of one length those of greater symbols
are greater. -/
theorem code_words {lens : List Nat} {b : Book} (h : mkBook lens = some b) :
    (∀ s l, (∃ key, (key, s) ∈ b ∧ key.log2 = l) ↔ lens[s]? = some l ∧ 0 < l) ∧
    (∀ e ∈ b, ∀ f ∈ b, e.1.log2 < f.1.log2 → (e.1 + 1) * 2 ^ (f.1.log2 - e.1.log2) ≤ f.1) ∧
    (∀ e ∈ b, ∀ f ∈ b, e.1.log2 = f.1.log2 → e.2 < f.2 → e.1 < f.1) := by
  unfold mkBook at h
  split at h
  · rename_i h0
    cases h
    refine ⟨?_, by simp, by simp⟩
    intro s l
    refine ⟨by simp, ?_⟩
    rintro ⟨h1, h2⟩
    have := le_maxLen (List.mem_of_getElem? h1)
    omega
  · split at h
    · rename_i h0 hl
      cases h
      have hb : lastCode lens (maxLen lens) 0 0 ≤ 2 ^ (0 + maxLen lens) := by
        rcases hl with hl | ⟨h1, h2⟩
        · simp [hl]
        · rw [h1, h2]; decide
      have hord : ∀ e ∈ bookFrom lens (maxLen lens) 0 0, ∀ f ∈ bookFrom lens (maxLen lens) 0 0, e = f ∨ Before e f ∨ Before f e := by
        have hp := bookFrom_before lens _ _ _ hb
        generalize bookFrom lens (maxLen lens) 0 0 = b at hp
        intro e he f hf
        obtain ⟨i, hi, rfl⟩ := List.getElem_of_mem he
        obtain ⟨j, hj, rfl⟩ := List.getElem_of_mem hf
        rcases Nat.lt_trichotomy i j with h | h | h
        · exact .inr (.inl (List.pairwise_iff_getElem.mp hp i j hi hj h))
        · subst h; exact .inl rfl
        · exact .inr (.inr (List.pairwise_iff_getElem.mp hp j i hj hi h))
      refine ⟨?_, ?_, ?_⟩
      · intro s l
        constructor
        · rintro ⟨key, hk, rfl⟩
          obtain ⟨h1, h2⟩ := bookFrom_sym _ _ _ _ _ hb hk
          exact ⟨h2, h1⟩
        · rintro ⟨h1, h2⟩
          obtain ⟨key, hk⟩ := bookFrom_has lens (maxLen lens) 0 0 s l h2 (by have := le_maxLen (List.mem_of_getElem? h1); omega) h1
          refine ⟨key, hk, ?_⟩
          have h3 := (bookFrom_sym _ _ _ _ _ hb hk).2
          rw [h1] at h3
          exact (Option.some.inj h3).symm
      · intro e he f hf hlt
        rcases hord e he f hf with rfl | (h | h) | (h | h)
        · omega
        · exact h.2
        · omega
        · omega
        · omega
      · intro e he f hf heq hlt
        rcases hord e he f hf with rfl | (h | h) | (h | h)
        · omega
        · omega
        · exact h.2.1
        · omega
        · omega
    · cases h

/-- RFC 1951, 3.2.2: the example there. -/
example : mkBook [3, 3, 3, 3, 3, 2, 4, 4] = some [(4 + 0, 5), (8 + 2, 0), (8 + 3, 1), (8 + 4, 2), (8 + 5, 3), (8 + 6, 4), (16 + 14, 6), (16 + 15, 7)] := by
  decide

/-- **C120.** RFC 1951, 3.2.7: the lengths of the code of lengths come in this order: first the three repetitions and the length 0, then the
lengths from the middle outwards.  Those that are left out at the end are 0. -/
theorem length_order : codeOrder = [16, 17, 18, 0, 8] ++ (List.range 7).flatMap (fun k => [7 - k, 9 + k]) ∧
    ∀ cl : List Nat, cl.length ≤ 19 → ∀ i < 19, ∀ s, codeOrder[i]? = some s → (clens cl)[s]? = some (cl.getD i 0) := by
  refine ⟨by decide, ?_⟩
  intro cl hcl i hi s hs
  have hz : ∀ (os : List Nat) (cl : List Nat) (i s : Nat), os.Nodup → os[i]? = some s → ((os.zip cl).lookup s).getD 0 = cl.getD i 0 := by
    intro os
    induction os with
    | nil => intro cl i s _ h; simp at h
    | cons o os ih =>
      intro cl i s hn h
      cases cl with
      | nil => simp
      | cons c cl =>
        rw [List.zip_cons_cons, List.lookup_cons]
        cases i with
        | zero =>
          simp at h
          subst h
          simp
        | succ i =>
          have hm : s ∈ os := List.mem_of_getElem? (by simpa using h)
          have hne : (s == o) = false := by
            rw [beq_eq_false_iff_ne]
            intro h0
            subst h0
            exact (List.nodup_cons.mp hn).1 hm
          rw [hne]
          simpa using ih cl i s (List.nodup_cons.mp hn).2 (by simpa using h)
  have hs19 : s < 19 := by
    have : ∀ x ∈ codeOrder, x < 19 := by decide
    exact this s (List.mem_of_getElem? hs)
  unfold clens
  rw [List.getElem?_map, List.getElem?_range hs19, Option.map_some, hz codeOrder cl i s (by decide) hs]

/-- RFC 1951, 3.2.6: the fixed codes. -/
theorem fixed_codes : (∀ v < 144, (256 + 0x30 + v, v) ∈ fixedLit) ∧ (∀ v < 112, (512 + 0x190 + v, 144 + v) ∈ fixedLit) ∧
    (∀ v < 24, (128 + v, 256 + v) ∈ fixedLit) ∧ (∀ v < 8, (256 + 0xc0 + v, 280 + v) ∈ fixedLit) ∧ fixedLit.length = 288 ∧
    (∀ v < 32, (32 + v, v) ∈ fixedDist) ∧ fixedDist.length = 32 := by
  decide +kernel

/-! ### Lengths and distances -/

/-- RFC 1951, 3.2.5: lengths, from symbol 257: the first one and the number of extra bits. -/
theorem length_table : (List.range 29).map (fun i => lenBase (257 + i)) =
    [(3, 0), (4, 0), (5, 0), (6, 0), (7, 0), (8, 0), (9, 0), (10, 0), (11, 1), (13, 1), (15, 1), (17, 1), (19, 2), (23, 2), (27, 2), (31, 2),
     (35, 3), (43, 3), (51, 3), (59, 3), (67, 4), (83, 4), (99, 4), (115, 4), (131, 5), (163, 5), (195, 5), (227, 5), (258, 0)] := by decide

/-- RFC 1951, 3.2.5: distances. -/
theorem distance_table : (List.range 30).map distBase =
    [(1, 0), (2, 0), (3, 0), (4, 0), (5, 1), (7, 1), (9, 2), (13, 2), (17, 3), (25, 3), (33, 4), (49, 4), (65, 5), (97, 5), (129, 6), (193, 6),
     (257, 7), (385, 7), (513, 8), (769, 8), (1025, 9), (1537, 9), (2049, 10), (3073, 10), (4097, 11), (6145, 11), (8193, 12), (12289, 12),
     (16385, 13), (24577, 13)] := by decide

/-! ### The checksum -/

/-- Each byte times its distance from the end (the last byte has distance 1). -/
def weighted : Bytes → Nat
  | [] => 0
  | c :: p => (p.length + 1) * c.toNat + weighted p

/-- **C120.** RFC 1950, 9: the low half of the checksum is one more than the sum of the bytes; the high half is the sum of the values of the low half
after each byte; both modulo 65521. -/
theorem checksum (p : Bytes) : adler32 p = (p.length + weighted p) % 65521 * 65536 + (1 + (p.map UInt8.toNat).sum) % 65521 := by
  have h : ∀ (p : Bytes) (s : Nat × Nat), s.1 < 65521 → s.2 < 65521 → p.foldl adlerStep s =
      ((s.1 + (p.map UInt8.toNat).sum) % 65521, (s.2 + p.length * s.1 + weighted p) % 65521) := by
    intro p
    induction p with
    | nil =>
      intro s h1 h2
      simp [weighted, Nat.mod_eq_of_lt h1, Nat.mod_eq_of_lt h2]
    | cons c p ih =>
      intro s h1 h2
      rw [List.foldl_cons, ih _ (Nat.mod_lt _ (by omega)) (Nat.mod_lt _ (by omega))]
      simp only [adlerStep, List.map_cons, List.sum_cons, List.length_cons, weighted]
      refine Prod.ext (by dsimp only; omega) ?_
      dsimp only
      have h3 := Nat.div_add_mod (s.1 + c.toNat) 65521
      generalize (s.1 + c.toNat) % 65521 = r at *
      generalize (s.1 + c.toNat) / 65521 = q at *
      rw [Nat.add_assoc ((s.2 + r) % 65521), Nat.mod_add_mod]
      have h4 : s.2 + (p.length + 1) * s.1 + ((p.length + 1) * c.toNat + weighted p) =
          s.2 + r + (p.length * r + weighted p) + 65521 * ((p.length + 1) * q) := by
        have h5 : (p.length + 1) * s.1 + (p.length + 1) * c.toNat = 65521 * ((p.length + 1) * q) + (p.length + 1) * r := by
          rw [← Nat.mul_add, ← h3, Nat.mul_add, Nat.mul_left_comm]
        have h6 : (p.length + 1) * r = p.length * r + r := Nat.succ_mul _ _
        omega
      rw [h4, Nat.add_mul_mod_self_left]
  unfold adler32
  rw [h p (1, 0) (by decide) (by decide)]
  simp

example : adler32 b!"Wikipedia" = 0x11e60398 := by decide +kernel

end Verif.Props.ZlibTables
