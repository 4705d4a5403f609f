import Verif.Go.HtmlPlace
import Verif.Go.HtmlTable
import Verif.Nmdc.Types

/-! # Lemmas: references are not shorter than what they stand for -/

namespace Verif.Go

open Verif.Spec

/-- No name takes fewer bytes, with the `&` before it, than what it stands for. -/
def HtmlEntities.Narrow (T : HtmlEntities) : Prop :=
  (∀ n v, T.entity n = some v → v.length ≤ n.length + 1) ∧ ∀ n v, T.entity2 n = some v → v.length ≤ n.length + 1

theorem lookup_mem {α : Type} {l : List (Bytes × α)} {n : Bytes} {v : α} (h : l.lookup n = some v) : (n, v) ∈ l := by
  induction l with
  | nil => simp at h
  | cons e l ih =>
    obtain ⟨k, w⟩ := e
    rw [List.lookup_cons] at h
    split at h
    · next hk => simp only [beq_iff_eq] at hk; simp_all
    · exact List.mem_cons_of_mem _ (ih h)

theorem html5_narrow : html5Entities.Narrow := by
  constructor
  · intro n v h
    replace h : (entityTable.lookup n).map utf8 = some v := h
    simp only [Option.map_eq_some_iff] at h
    obtain ⟨r, hr, rfl⟩ := h
    exact entityTable_narrow _ (lookup_mem hr)
  · intro n v h
    replace h : (entityPairs.lookup n).map (fun x => utf8 x.1 ++ utf8 x.2) = some v := h
    simp only [Option.map_eq_some_iff] at h
    obtain ⟨r, hr, rfl⟩ := h
    exact entityPairs_narrow _ (lookup_mem hr)

theorem utf8_le (r : Nat) : (utf8 r).length ≤ 4 := by
  unfold utf8
  repeat' split
  all_goals simp

theorem encodeRune_le (r : Int) : (encodeRune r).length ≤ 4 := by
  unfold encodeRune
  repeat' split
  all_goals first | exact utf8_le _ | simp

theorem refRune_le (x : Int) : (refRune x).length ≤ 4 := by
  unfold refRune
  repeat' split
  all_goals exact encodeRune_le _

theorem refLoop_le (hex : Bool) (s : Bytes) (x : Int) (i : Nat) : (refLoop hex s x i).2 ≤ i + s.length := by
  induction s generalizing x i with
  | nil => simp [refLoop]
  | cons c s ih =>
    simp only [refLoop]
    split
    · refine Nat.le_trans (ih _ _) ?_
      simp; omega
    · simp only [List.length_cons]; split <;> omega

theorem nameLoop_le (s : Bytes) (i : Nat) : i ≤ nameLoop s i ∧ nameLoop s i ≤ i + s.length := by
  induction s generalizing i with
  | nil => simp [nameLoop]
  | cons c s ih =>
    simp only [nameLoop, List.length_cons]
    have := ih (i + 1)
    split
    · omega
    · split <;> omega

theorem prefixEntity_le [T : HtmlEntities] (hT : T.Narrow) {name v : Bytes} {j k : Nat} (h : prefixEntity name j = some (v, k)) :
    v.length ≤ k ∧ k ≤ j + 1 ∧ 1 ≤ k := by
  induction j with
  | zero => simp [prefixEntity] at h
  | succ j ih =>
    simp only [prefixEntity] at h
    split at h
    · simp at h
    · split at h
      · next v' hv =>
        simp only [Option.some.injEq, Prod.mk.injEq] at h
        obtain ⟨rfl, rfl⟩ := h
        have := hT.1 _ _ hv
        simp only [List.length_take] at this
        omega
      · have := ih h
        omega

/-- What one reference reads and writes. -/
theorem unescapeEntity_le [T : HtmlEntities] (hT : T.Narrow) {s : Bytes} (hs : s ≠ []) :
    (unescapeEntity s).1.length ≤ (unescapeEntity s).2 ∧ 1 ≤ (unescapeEntity s).2 ∧ (unescapeEntity s).2 ≤ s.length := by
  match s, hs with
  | [b], _ => simp [unescapeEntity]
  | b :: c1 :: rest, _ =>
    simp only [unescapeEntity]
    split
    · split
      · simp
      · next hl =>
        simp only [List.length_cons] at hl
        generalize hh : decide (rest.head? = some c!"x" ∨ rest.head? = some c!"X") = hex
        generalize hr : refLoop _ _ _ _ = r
        have hle : r.2 ≤ (b :: c1 :: rest).length := by
          rw [← hr]
          refine Nat.le_trans (refLoop_le _ _ _ _) ?_
          split
          · simp only [List.length_drop, List.length_cons]; omega
          · simp only [List.length_cons]; omega
        split
        · simp
        · have := refRune_le r.1
          exact ⟨by simp only; omega, by simp only; omega, hle⟩
    · generalize hi : nameLoop (c1 :: rest) 1 = i
      have hn := nameLoop_le (c1 :: rest) 1
      rw [hi] at hn
      have hlen : ((List.take i (b :: c1 :: rest)).drop 1).length = i - 1 := by
        simp only [List.length_drop, List.length_take, List.length_cons] at hn ⊢; omega
      have htk : (List.take i (b :: c1 :: rest)).length = i := by
        simp only [List.length_take, List.length_cons] at hn ⊢; omega
      have hb : i ≤ (b :: c1 :: rest).length := by simp only [List.length_cons] at hn ⊢; omega
      split
      · exact ⟨by rw [htk]; exact Nat.le_refl _, hn.1, hb⟩
      · split
        · next v hv => have := hT.1 _ _ hv; rw [hlen] at this; exact ⟨by simp only; omega, hn.1, hb⟩
        · split
          · next v hv => have := hT.2 _ _ hv; rw [hlen] at this; exact ⟨by simp only; omega, hn.1, hb⟩
          · split
            · next v k hv =>
              have := prefixEntity_le hT hv
              rw [hlen] at this
              exact ⟨this.1, this.2.2, by simp only; omega⟩
            · exact ⟨by rw [htk]; exact Nat.le_refl _, hn.1, hb⟩

theorem htmlUnescape_at [T : HtmlEntities] (hT : T.Narrow) (s : Bytes) :
    htmlUnescape (c!"&" :: s) = (unescapeEntity (c!"&" :: s)).1 ++ htmlUnescape ((c!"&" :: s).drop (unescapeEntity (c!"&" :: s)).2) := by
  obtain ⟨_, h, _⟩ := unescapeEntity_le hT (s := c!"&" :: s) (by simp)
  rw [htmlUnescape, unescapeFrom, if_pos rfl, unescapeFrom_drop]
  congr 1
  generalize (unescapeEntity (c!"&" :: s)).2 = k at h
  obtain ⟨k, rfl⟩ : ∃ j, k = j + 1 := ⟨k - 1, by omega⟩
  simp [htmlUnescape]

theorem htmlUnescape_plain [HtmlEntities] {p : Bytes} (h : c!"&" ∉ p) (t : Bytes) : htmlUnescape (p ++ t) = p ++ htmlUnescape t := by
  induction p with
  | nil => rfl
  | cons b p ih =>
    simp only [List.mem_cons, not_or] at h
    rw [List.cons_append, htmlUnescape_cons (Ne.symm h.1), ih h.2, List.cons_append]

theorem htmlUnescape_le [T : HtmlEntities] (hT : T.Narrow) (s : Bytes) : (htmlUnescape s).length ≤ s.length := by
  induction hn : s.length using Nat.strongRecOn generalizing s with
  | ind n ih =>
    cases s with
    | nil => simp
    | cons b s =>
      by_cases hb : b = c!"&"
      · subst hb
        obtain ⟨h1, h2, h3⟩ := unescapeEntity_le hT (s := c!"&" :: s) (by simp)
        rw [htmlUnescape_at hT]
        have := ih _ (by rw [← hn, List.length_drop]; omega) ((c!"&" :: s).drop (unescapeEntity (c!"&" :: s)).2) rfl
        rw [List.length_drop] at this
        rw [List.length_append]; omega
      · rw [htmlUnescape_cons hb]
        have := ih s.length (by simp at hn; omega) s rfl
        simp at hn ⊢; omega

theorem htmlUnescape_first [T : HtmlEntities] (hT : T.Narrow) {t : Bytes} {i : Nat} (h : indexByte t c!"&" = some i) :
    htmlUnescape t = t.take i ++ ((unescapeEntity (t.drop i)).1 ++ htmlUnescape ((t.drop i).drop (unescapeEntity (t.drop i)).2)) := by
  obtain ⟨a, r, rfl, ha, rfl⟩ := indexByte_some h
  rw [htmlUnescape_plain ha, htmlUnescape_at hT, List.take_left' rfl, List.drop_left' rfl]

/-! ## Names -/

theorem htmlUnescape_known [HtmlEntities] {w v rest : Bytes} (hl : nameLoop (w ++ rest) 1 = w.length + 1) (hne : w ≠ [])
    (hh : w.head? ≠ some c!"#") (h : entity w = some v ∨ (entity w = none ∧ entity2 w = some v)) :
    htmlUnescape (c!"&" :: w ++ rest) = v ++ htmlUnescape rest := by
  refine htmlUnescape_entity ?_
  cases w with
  | nil => simp at hne
  | cons c w =>
    have hc : c ≠ c!"#" := by simpa using hh
    have ht : (List.take ((c :: w).length + 1) (c!"&" :: c :: w ++ rest)).drop 1 = c :: w := by
      rw [List.take_left' (by simp)]; rfl
    simp only [List.cons_append] at hl ht ⊢
    simp only [unescapeEntity, hc, if_false, hl, ht, reduceCtorEq]
    rcases h with h | ⟨h1, h2⟩
    · simp [h]
    · simp [h1, h2]

theorem nameLoop_alnum {n : Bytes} (hn : ∀ c ∈ n, isAlnum c = true) (t : Bytes) (i : Nat) : nameLoop (n ++ t) i = nameLoop t (i + n.length) := by
  induction n generalizing i with
  | nil => rfl
  | cons c n ih =>
    rw [List.cons_append, nameLoop, if_pos (hn c (by simp)), ih (fun x hx => hn x (by simp [hx])), List.length_cons]
    congr 1; omega

theorem alnum_head {n : Bytes} (hn : ∀ c ∈ n, isAlnum c = true) : n.head? ≠ some c!"#" := by
  cases n with
  | nil => simp
  | cons c n =>
    intro h
    simp only [List.head?_cons, Option.some.injEq] at h
    subst h
    exact absurd (hn c!"#" (by simp)) (by decide)

theorem last_split {w : Bytes} {c : Byte} (h : w.getLast? = some c) : w = w.dropLast ++ [c] := by
  obtain ⟨l, rfl⟩ := List.getLast?_eq_some_iff.1 h
  simp

/-! ## The buffer -/

theorem putAt_fits {b v : Bytes} {dst : Nat} (h : dst + v.length ≤ b.length) :
    ∃ b', putAt b dst v = some b' ∧ b'.length = b.length ∧ b'.take (dst + v.length) = b.take dst ++ v ∧
      ∀ k, dst + v.length ≤ k → b'.drop k = b.drop k := by
  refine ⟨_, if_pos h, ?_, ?_, ?_⟩
  · simp; omega
  · rw [List.take_left']
    simp; omega
  · intro k hk
    have hl : (b.take dst ++ v).length = dst + v.length := by simp; omega
    rw [List.drop_append, List.drop_eq_nil_of_le (by omega), hl, List.nil_append, List.drop_drop]
    congr 1; omega

theorem copyAt_fits {b v : Bytes} {dst : Nat} (h : dst + v.length ≤ b.length) :
    ∃ b', copyAt b dst v = some (b', v.length) ∧ b'.length = b.length ∧ b'.take (dst + v.length) = b.take dst ++ v ∧
      ∀ k, dst + v.length ≤ k → b'.drop k = b.drop k := by
  obtain ⟨b', h1, h2, h3, h4⟩ := putAt_fits h
  refine ⟨b', ?_, h2, h3, h4⟩
  rw [putAt, if_pos h, Option.some.injEq] at h1
  rw [copyAt, if_pos (by omega), List.take_of_length_le (by omega)]
  simp only [h1]

/-- One reference in the buffer: what is before it is the output, what is after it is untouched. -/
theorem unescapeAt_fits [T : HtmlEntities] (hT : T.Narrow) {s b : Bytes} {dst src : Nat} (hl : b.length = s.length) (hd : dst ≤ src)
    (hs : b.drop src = s.drop src) (hlt : src < s.length) :
    ∃ b' dst' src', unescapeAt b dst src = some (b', dst', src') ∧ b'.length = s.length ∧ dst' ≤ src' ∧ src < src' ∧ src' ≤ s.length ∧
      b'.drop src' = s.drop src' ∧ b'.take dst' = b.take dst ++ (unescapeEntity (s.drop src)).1 ∧
      src' = src + (unescapeEntity (s.drop src)).2 := by
  have hne : s.drop src ≠ [] := by rw [Ne, List.drop_eq_nil_iff]; omega
  obtain ⟨h1, h2, h3⟩ := unescapeEntity_le hT hne
  rw [List.length_drop] at h3
  obtain ⟨b', g1, g2, g3, g4⟩ := putAt_fits (b := b) (dst := dst) (v := (unescapeEntity (s.drop src)).1) (by omega)
  refine ⟨b', dst + (unescapeEntity (s.drop src)).1.length, src + (unescapeEntity (s.drop src)).2, ?_, by omega, by omega, by omega, by omega,
    ?_, g3, rfl⟩
  · simp only [unescapeAt, hs, g1, Option.map_some]
  · rw [g4 _ (by omega), ← List.drop_drop, ← List.drop_drop, hs]

theorem placeLoop_eq [T : HtmlEntities] (hT : T.Narrow) (s : Bytes) (fuel : Nat) (b : Bytes) (dst src : Nat) (hl : b.length = s.length)
    (hd : dst ≤ src) (hsl : src ≤ s.length) (hs : b.drop src = s.drop src) (hf : s.length - src < fuel) :
    placeLoop s fuel b dst src = some (b.take dst ++ htmlUnescape (s.drop src)) := by
  induction fuel generalizing b dst src with
  | zero => omega
  | succ fuel ih =>
    rw [placeLoop, if_neg (by omega)]
    split
    · next h0 => rw [List.eq_nil_of_length_eq_zero h0]; simp
    · next h0 =>
      rw [List.length_drop] at h0
      split
      · next hi =>
        obtain ⟨b', g1, g2, g3, g4⟩ := copyAt_fits (b := b) (dst := dst) (v := s.drop src) (by rw [List.length_drop]; omega)
        rw [g1, Option.map_some, g3, htmlUnescape_id (indexByte_none.1 hi)]
      · next i hi =>
        have hilt := indexByte_lt hi
        rw [List.length_drop] at hilt
        have htl : ((s.drop src).take i).length = i := by simp; omega
        obtain ⟨b1, g1, g2, g3, g4⟩ := copyAt_fits (b := b) (dst := dst) (v := (s.drop src).take i) (by omega)
        rw [htl] at g3 g4
        have hs1 : b1.drop (src + i) = s.drop (src + i) := by rw [g4 _ (by omega), ← List.drop_drop, ← List.drop_drop, hs]
        obtain ⟨b2, dst', src', k1, k2, k3, k4, k5, k6, k7, k8⟩ :=
          unescapeAt_fits hT (s := s) (b := b1) (dst := dst + i) (src := src + i) (by omega) (by omega) hs1 (by omega)
        rw [g1, Option.bind_some, k1, Option.bind_some, ih b2 dst' src' k2 k3 k5 k6 (by omega), k7, g3, htmlUnescape_first hT hi, k8,
          List.drop_drop, List.drop_drop]
        simp only [List.append_assoc, Nat.add_assoc]

theorem unescapeString_eq [T : HtmlEntities] (hT : T.Narrow) (s : Bytes) : unescapeString s = some (htmlUnescape s) := by
  unfold unescapeString
  split
  · next hi => rw [htmlUnescape_id (indexByte_none.1 hi)]
  · next i hi =>
    obtain ⟨b, dst, src, k1, k2, k3, k4, k5, k6, k7, k8⟩ :=
      unescapeAt_fits hT (s := s) (b := s) (dst := i) (src := i) rfl (Nat.le_refl _) rfl (indexByte_lt hi)
    rw [k1, Option.bind_some, placeLoop_eq hT s _ b dst src k2 k3 k5 k6 (by omega), k7, htmlUnescape_first hT hi, k8, List.drop_drop,
      List.append_assoc]

end Verif.Go

namespace Verif.Nmdc

open Verif.Go

theorem legacyFrom_le (k : Nat) (s : Bytes) : (legacyFrom k s).length ≤ s.length := by
  induction s generalizing k with
  | nil => simp [legacyFrom]
  | cons b s ih =>
    cases k with
    | succ k => simp only [legacyFrom, List.length_cons]; have := ih k; omega
    | zero =>
      simp only [legacyFrom]
      split
      · simp only [List.length_cons]; have := ih 9; omega
      · simp only [List.length_cons]; have := ih 0; omega

theorem unescapeBytes_le [T : HtmlEntities] (hT : T.Narrow) (b : Bytes) : (unescapeBytes b).length ≤ b.length := by
  have h1 := legacyFrom_le 0 b
  have h2 := htmlUnescape_le hT b
  have h3 := htmlUnescape_le hT (legacyReplace b)
  unfold unescapeBytes
  simp only [legacyReplace] at *
  repeat' split
  all_goals omega

end Verif.Nmdc
