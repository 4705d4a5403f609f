import Verif.Adc.ListMemory

/-! # What appending to a list does to the arrays -/

namespace Verif.Adc

open Verif.Go

variable {α : Type}

/-- An array after `xs` has been written at `pos`. -/
def written (l : List α) (pos : Nat) (xs : List α) : List α := l.take pos ++ xs ++ l.drop (pos + xs.length)

/-- `append` of all elements, one after the other. -/
def pushAll (zero : α) (extra : Nat → Nat) (h : Arrays α) (s : Slc) : List α → Arrays α × Slc
  | [] => (h, s)
  | x :: xs => pushAll zero extra (push zero extra x h s).1 (push zero extra x h s).2 xs

theorem written_nil (l : List α) (pos : Nat) : written l pos [] = l := by simp [written]

theorem written_set (l : List α) (pos : Nat) (x : α) (xs : List α) (hp : pos < l.length) :
    written (l.set pos x) (pos + 1) xs = written l pos (x :: xs) := by
  apply List.ext_getElem?
  intro i
  simp only [written, List.getElem?_append, List.length_append, List.length_take, List.length_set, List.length_cons, List.getElem?_take,
    List.getElem?_drop, List.getElem?_set]
  have e1 : min (pos + 1) l.length = pos + 1 := by omega
  have e2 : min pos l.length = pos := by omega
  rw [e1, e2]
  by_cases h1 : i < pos
  · have : pos ≠ i := by omega
    have h2 : i < pos + 1 + xs.length := by omega
    have h3 : i < pos + (xs.length + 1) := by omega
    have h4 : i < pos + 1 := by omega
    simp [*]
  · by_cases h2 : i = pos
    · subst h2
      have h3 : i < i + 1 + xs.length := by omega
      have h4 : i < i + (xs.length + 1) := by omega
      simp [*]
    · have h4 : ¬ i < pos + 1 := by omega
      by_cases h3 : i < pos + 1 + xs.length
      · have h5 : i < pos + (xs.length + 1) := by omega
        have h6 : i - pos = (i - (pos + 1)) + 1 := by omega
        simp [*]
      · have h5 : ¬ i < pos + (xs.length + 1) := by omega
        have h6 : pos ≠ pos + 1 + xs.length + (i - (pos + 1 + xs.length)) := by omega
        have h7 : pos + (xs.length + 1) + (i - (pos + (xs.length + 1))) = pos + 1 + xs.length + (i - (pos + 1 + xs.length)) := by omega
        simp [*]

theorem getD_set_self (h : Arrays α) (a : Nat) (l : List α) (ha : a < h.length) : (h.set a l).getD a [] = l := by
  simp [List.getD, ha]

theorem set_getD_self (h : Arrays α) (a : Nat) : h.set a (h.getD a []) = h := by
  apply List.ext_getElem?
  intro i
  rw [List.getElem?_set]
  by_cases e : a = i
  · subst e
    by_cases hl : a < h.length
    · simp [List.getD, hl]
    · simp [hl]
  · simp [e]

theorem read_push {s : Slc} {h : Arrays α} (hw : s.Within h) (zero : α) (extra : Nat → Nat) (x : α) :
    (push zero extra x h s).2.read (push zero extra x h s).1 = s.read h ++ [x] ∧
      (push zero extra x h s).2.Within (push zero extra x h s).1 := by
  obtain ⟨h1, h2⟩ := hw
  unfold push
  by_cases hc : s.len < s.cap
  · have hr : s.arr < h.length ∧ s.off + s.cap ≤ (h.getD s.arr []).length := by
      rcases h2 with h2 | h2
      · omega
      · exact h2
    simp only [if_pos hc, Slc.read, Slc.Within]
    rw [getD_set_self _ _ _ hr.1]
    refine ⟨?_, by omega, Or.inr ⟨by simpa using hr.1, by simpa using hr.2⟩⟩
    generalize h.getD s.arr [] = l at hr
    apply List.ext_getElem?
    intro i
    have e : min s.len (l.length - s.off) = s.len := by omega
    simp only [List.getElem?_append, List.length_take, List.length_drop, List.getElem?_take, List.getElem?_drop, List.getElem?_set, e]
    by_cases hi : i < s.len
    · have h3 : i < s.len + 1 := by omega
      have h4 : s.len ≠ i := by omega
      simp [*]
    · by_cases hi2 : i = s.len
      · subst hi2
        have h3 : s.off + s.len < l.length := by omega
        simp [*]
      · have h3 : ¬ i < s.len + 1 := by omega
        have h4 : ¬ i - s.len = 0 := by omega
        simp [*]
  · have hl : (s.read h).length = s.len := by
      rcases h2 with h2 | h2
      · have : s.len = 0 := by omega
        simp [Slc.read, this]
      · simp only [Slc.read, List.length_take, List.length_drop]
        omega
    simp only [if_neg hc]
    refine ⟨?_, by simp, Or.inr ?_⟩
    · have e : s.read h ++ x :: List.replicate (extra s.len) zero = (s.read h ++ [x]) ++ List.replicate (extra s.len) zero := by simp
      rw [e]
      clear e
      generalize s.read h = rd at hl
      unfold Slc.read
      simp only [List.getD, List.getElem?_concat_length, Option.getD_some, List.drop_zero]
      rw [List.take_append_of_le_length (by simp [hl]), List.take_of_length_le (by simp [hl])]
    · simp [List.getD, hl]
      omega

theorem pushAll_read (zero : α) (extra : Nat → Nat) : ∀ (xs : List α) (h : Arrays α) (s : Slc), s.Within h →
    (pushAll zero extra h s xs).2.read (pushAll zero extra h s xs).1 = s.read h ++ xs ∧
      (pushAll zero extra h s xs).2.Within (pushAll zero extra h s xs).1
  | [], h, s, hw => by simpa [pushAll] using hw
  | x :: xs, h, s, hw => by
    have a := read_push hw zero extra x
    have b := pushAll_read zero extra xs _ _ a.2
    simp only [pushAll]
    rw [b.1, a.1]
    exact ⟨by simp, b.2⟩

theorem pushAll_heap (zero : α) (extra : Nat → Nat) : ∀ (xs : List α) (h : Arrays α) (s : Slc), s.Within h →
    ∃ fresh, (pushAll zero extra h s xs).1 =
      h.set s.arr (written (h.getD s.arr []) (s.off + s.len) (xs.take (s.cap - s.len))) ++ fresh
  | [], h, s, _ => ⟨[], by simp only [pushAll, List.take_nil, written_nil, set_getD_self, List.append_nil]⟩
  | x :: xs, h, s, hw => by
    have a := read_push hw zero extra x
    obtain ⟨fresh, hf⟩ := pushAll_heap zero extra xs _ _ a.2
    by_cases hc : s.len < s.cap
    · have hr : s.arr < h.length ∧ s.off + s.cap ≤ (h.getD s.arr []).length := by
        obtain ⟨_, h2⟩ := hw
        rcases h2 with h2 | h2
        · omega
        · exact h2
      refine ⟨fresh, ?_⟩
      simp only [pushAll]
      rw [hf]
      simp only [push, if_pos hc]
      rw [getD_set_self _ _ _ hr.1, List.set_set]
      have e : s.cap - s.len = (s.cap - (s.len + 1)) + 1 := by omega
      rw [e, List.take_succ_cons, ← Nat.add_assoc, written_set _ _ _ _ (by omega)]
    · have e : s.cap - s.len = 0 := by omega
      simp only [pushAll]
      rw [hf]
      simp only [push, if_neg hc, e, List.take_zero, written_nil, set_getD_self]
      rw [List.set_append_right _ _ (Nat.le_refl _)]
      exact ⟨_, List.append_assoc _ _ _⟩

theorem written_disjoint (l : List α) (pos : Nat) (xs : List α) (off len : Nat) (hp : pos + xs.length ≤ l.length)
    (hd : off + len ≤ pos ∨ pos + xs.length ≤ off) : ((written l pos xs).drop off).take len = (l.drop off).take len := by
  apply List.ext_getElem?
  intro i
  simp only [written, List.getElem?_append, List.length_append, List.length_take, List.getElem?_take, List.getElem?_drop]
  have e : min pos l.length = pos := by omega
  rw [e]
  by_cases hi : i < len
  · rcases hd with hd | hd
    · have h1 : off + i < pos := by omega
      have h2 : off + i < pos + xs.length := by omega
      simp [*]
    · have h2 : ¬ off + i < pos + xs.length := by omega
      have h3 : pos + xs.length + (off + i - (pos + xs.length)) = off + i := by omega
      simp [*]
  · simp [hi]

theorem written_same (l : List α) (off len : Nat) (xs : List α) (hp : off + xs.length ≤ l.length) :
    ((written l off xs).drop off).take len = xs.take len ++ ((l.drop off).take len).drop xs.length := by
  apply List.ext_getElem?
  intro i
  simp only [written, List.getElem?_append, List.length_append, List.length_take, List.getElem?_take, List.getElem?_drop]
  have e : min off l.length = off := by omega
  rw [e]
  have h0 : ¬ off + i < off := by omega
  by_cases hi : i < len
  · by_cases h1 : i < xs.length
    · have h2 : off + i < off + xs.length := by omega
      have h3 : i < min len xs.length := by omega
      have h4 : off + i - off = i := by omega
      simp [*]
    · have h2 : ¬ off + i < off + xs.length := by omega
      have h3 : ¬ i < min len xs.length := by omega
      have h5 : off + xs.length + (off + i - (off + xs.length)) = off + i := by omega
      have h6 : min len xs.length = xs.length := by omega
      have h7 : xs.length + (i - xs.length) = i := by omega
      simp [*]
  · have h3 : ¬ i < min len xs.length := by omega
    have h4 : ¬ xs.length + (i - min len xs.length) < len := by omega
    simp [*]

/-- A slice that has no element in the room of `s` reads the same after appending to `s`. -/
theorem pushAll_others (zero : α) (extra : Nat → Nat) (xs : List α) {h : Arrays α} {s t : Slc} (hs : s.Within h) (ht : t.Within h)
    (hd : t.arr ≠ s.arr ∨ t.off + t.len ≤ s.off + s.len ∨ s.off + s.cap ≤ t.off) :
    t.read (pushAll zero extra h s xs).1 = t.read h := by
  obtain ⟨fresh, hf⟩ := pushAll_heap zero extra xs h s hs
  rw [hf]
  by_cases h0 : t.len = 0
  · simp [Slc.read, h0]
  have hta : t.arr < h.length := by
    obtain ⟨h1, h2⟩ := ht
    rcases h2 with h2 | h2
    · omega
    · exact h2.1
  unfold Slc.read
  have e : ∀ l : List α, (h.set s.arr l ++ fresh).getD t.arr [] = (h.set s.arr l).getD t.arr [] := by
    intro l
    simp only [List.getD]
    rw [List.getElem?_append_left (by simpa using hta)]
  rw [e]
  by_cases ha : t.arr = s.arr
  · rw [ha, getD_set_self _ _ _ (by omega)]
    by_cases hc : s.cap - s.len = 0
    · rw [hc, List.take_zero, written_nil]
    · obtain ⟨h1, h2⟩ := hs
      have hr : s.off + s.cap ≤ (h.getD s.arr []).length := by
        rcases h2 with h2 | h2
        · omega
        · exact h2.2
      have hl : (xs.take (s.cap - s.len)).length ≤ s.cap - s.len := by simp; omega
      apply written_disjoint
      · omega
      · rcases hd with hd | hd | hd
        · exact absurd ha hd
        · exact Or.inl hd
        · exact Or.inr (by omega)
  · congr 2
    simp only [List.getD]
    rw [List.getElem?_set_ne (fun e => ha e.symm)]

/-- What the old value of a list reads after its array has been filled again from the start. -/
theorem pushAll_copy (zero : α) (extra : Nat → Nat) (xs : List α) {h : Arrays α} {s : Slc} (hs : s.Within h) :
    s.read (pushAll zero extra h { s with len := 0 } xs).1 = xs.take s.len ++ (s.read h).drop xs.length := by
  obtain ⟨fresh, hf⟩ := pushAll_heap zero extra xs h { s with len := 0 } ⟨Nat.zero_le _, hs.2⟩
  rw [hf]
  obtain ⟨h1, h2⟩ := hs
  by_cases h0 : s.len = 0
  · simp [Slc.read, h0]
  have hr : s.arr < h.length ∧ s.off + s.cap ≤ (h.getD s.arr []).length := by
    rcases h2 with h2 | h2
    · omega
    · exact h2
  unfold Slc.read
  simp only [Nat.add_zero, Nat.sub_zero]
  have e : ∀ l : List α, (h.set s.arr l ++ fresh).getD s.arr [] = l := by
    intro l
    rw [← getD_set_self h s.arr l hr.1]
    simp only [List.getD]
    rw [List.getElem?_append_left (by simpa using hr.1), List.getElem?_set_self hr.1]
    simp [List.getElem?_set_self hr.1]
  have hl : (xs.take s.cap).length ≤ s.cap := by rw [List.length_take]; omega
  rw [e, written_same _ _ _ _ (by omega), List.take_take, Nat.min_eq_left h1]
  by_cases hx : xs.length ≤ s.cap
  · rw [List.take_of_length_le hx]
  · congr 1
    rw [List.drop_of_length_le (by simp; omega), List.drop_of_length_le (by simp; omega)]

/-- Appending what there is room for. -/
theorem pushAll_fits (zero : α) (extra : Nat → Nat) : ∀ (xs : List α) (h : Arrays α) (s : Slc), s.Within h → s.len + xs.length ≤ s.cap →
    (pushAll zero extra h s xs).2 = { s with len := s.len + xs.length }
  | [], _, _, _, _ => rfl
  | x :: xs, h, s, hw, hl => by
    have a := read_push hw zero extra x
    have hc : s.len < s.cap := by simp only [List.length_cons] at hl; omega
    have e : (push zero extra x h s).2 = { s with len := s.len + 1 } := by simp [push, hc]
    simp only [pushAll]
    rw [pushAll_fits zero extra xs _ _ a.2 (by rw [e]; simp only [List.length_cons] at hl; simp only; omega), e]
    simp only [List.length_cons, Slc.mk.injEq, true_and, and_true]
    omega

/-- Two copies of a list are appended to, one after the other. -/
theorem pushAll_twice (zero : α) (extra : Nat → Nat) (xs ys : List α) {h : Arrays α} {s : Slc} (hs : s.Within h)
    (hl : s.len + xs.length ≤ s.cap) :
    (pushAll zero extra h s xs).2.read (pushAll zero extra (pushAll zero extra h s xs).1 s ys).1 =
      s.read h ++ (ys.take xs.length ++ xs.drop ys.length) := by
  by_cases hc : s.cap = 0
  · have h1 : xs = [] := List.eq_nil_of_length_eq_zero (by omega)
    subst h1
    have h2 : s.len = 0 := by simp at hl; omega
    simp [pushAll, Slc.read, h2]
  have hr : s.arr < h.length ∧ s.off + s.cap ≤ (h.getD s.arr []).length := by
    rcases hs.2 with h2 | h2
    · exact absurd h2 hc
    · exact h2
  have hq := pushAll_fits zero extra xs h s hs hl
  obtain ⟨f1, e1⟩ := pushAll_heap zero extra xs h s hs
  rw [List.take_of_length_le (by omega)] at e1
  have g : ∀ (l : List α) (f : Arrays α), (h.set s.arr l ++ f).getD s.arr [] = l := by
    intro l f
    have := getD_set_self h s.arr l hr.1
    simp only [List.getD] at this ⊢
    rw [List.getElem?_append_left (by simpa using hr.1)]
    exact this
  have hwl : (written (h.getD s.arr []) (s.off + s.len) xs).length = (h.getD s.arr []).length := by
    simp only [written, List.length_append, List.length_take, List.length_drop]
    omega
  have hs1 : s.Within (pushAll zero extra h s xs).1 := by
    rw [e1]
    refine ⟨hs.1, Or.inr ⟨by simp; omega, ?_⟩⟩
    rw [g, hwl]
    exact hr.2
  obtain ⟨f2, e2⟩ := pushAll_heap zero extra ys _ s hs1
  rw [hq, e2, e1, g]
  unfold Slc.read
  simp only
  rw [List.set_append_left _ _ (by simpa using hr.1), List.set_set, List.append_assoc, g]
  have hy : (ys.take (s.cap - s.len)).length ≤ s.cap - s.len := by rw [List.length_take]; omega
  rw [List.take_add, written_disjoint _ _ _ _ _ (by omega) (Or.inl (Nat.le_refl _)),
    written_disjoint _ _ _ _ _ (by omega) (Or.inl (Nat.le_refl _)), List.drop_drop, written_same _ _ _ _ (by omega),
    written_same _ _ _ _ (by omega)]
  congr 1
  rw [List.take_of_length_le (Nat.le_refl xs.length), List.drop_of_length_le (l := List.take xs.length _) (by rw [List.length_take]; omega),
    List.append_nil, List.take_take]
  congr 1
  · congr 1
    omega
  · by_cases hx : ys.length ≤ s.cap - s.len
    · rw [List.take_of_length_le hx]
    · rw [List.drop_of_length_le (by rw [List.length_take]; omega), List.drop_of_length_le (by omega)]

theorem Path.memLoop_eq (extra : Nat → Nat) : ∀ (arr : List Bytes) (h : Arrays Bytes) (p : Slc),
    Path.memLoop extra h p arr = ((pushAll [] extra h p (arr.map unescape)).1, (pushAll [] extra h p (arr.map unescape)).2, .ok ())
  | [], h, p => rfl
  | a :: arr, h, p => by
    simp only [Path.memLoop, String.unmarshal, List.map_cons, pushAll]
    exact Path.memLoop_eq extra arr _ _

theorem Path.fillLoop_eq : ∀ (arr : List Bytes) (p : Path), Path.fillLoop p arr = (p ++ arr.map unescape, .ok ())
  | [], p => by simp [Path.fillLoop]
  | a :: arr, p => by
    simp only [Path.fillLoop, String.unmarshal, List.map_cons]
    rw [Path.fillLoop_eq arr]
    simp

/-- The field of a text of two bytes or more. -/
def fieldOf (v : Bytes) : Option Field := if hv : v.length < 2 then none else some ⟨v.take 2, by rw [List.length_take]; omega, v.drop 2⟩

/-- The loop appends the fields of the texts before the first that is too short. -/
theorem Fields.memLoop_eq (extra : Nat → Nat) : ∀ (good rest : List Bytes) (h : Arrays Field) (mp : Slc), (∀ v ∈ good, 2 ≤ v.length) →
    (∀ v, rest.head? = some v → v.length < 2) →
    Fields.memLoop extra h mp (good ++ rest) = ((pushAll Field.zero extra h mp (good.filterMap fieldOf)).1,
      (pushAll Field.zero extra h mp (good.filterMap fieldOf)).2, if rest = [] then .ok () else .err (.other 106))
  | [], [], h, mp, _, _ => rfl
  | [], v :: rest, h, mp, _, hr => by
    have := hr v rfl
    simp [Fields.memLoop, this, pushAll]
  | v :: good, rest, h, mp, hg, hr => by
    have h2 : ¬ v.length < 2 := by have := hg v (by simp); omega
    have e : fieldOf v = some ⟨v.take 2, by rw [List.length_take]; omega, v.drop 2⟩ := by simp [fieldOf, h2]
    simp only [List.cons_append, Fields.memLoop, dif_neg h2, String.unmarshal, List.filterMap_cons, e, pushAll]
    exact Fields.memLoop_eq extra good rest _ _ (fun v hv => hg v (by simp [hv])) hr

theorem Fields.unmarshalLoop_eq : ∀ (good rest : List Bytes) (mp : Fields), (∀ v ∈ good, 2 ≤ v.length) →
    (∀ v, rest.head? = some v → v.length < 2) →
    Fields.unmarshalLoop mp (good ++ rest) = if rest = [] then .ok (mp ++ good.filterMap fieldOf) else .err (.other 106)
  | [], [], mp, _, _ => by simp [Fields.unmarshalLoop]
  | [], v :: rest, mp, _, hr => by
    have := hr v rfl
    simp [Fields.unmarshalLoop, this]
  | v :: good, rest, mp, hg, hr => by
    have h2 : ¬ v.length < 2 := by have := hg v (by simp); omega
    have e : fieldOf v = some ⟨v.take 2, by rw [List.length_take]; omega, v.drop 2⟩ := by simp [fieldOf, h2]
    simp only [List.cons_append, Fields.unmarshalLoop, dif_neg h2, String.unmarshal, List.filterMap_cons, e]
    rw [Fields.unmarshalLoop_eq good rest _ (fun v hv => hg v (by simp [hv])) hr]
    simp

theorem exists_split (l : List Bytes) : ∃ good rest, l = good ++ rest ∧ (∀ v ∈ good, 2 ≤ v.length) ∧
    (∀ v, rest.head? = some v → v.length < 2) := by
  induction l with
  | nil => exact ⟨[], [], rfl, by simp, by simp⟩
  | cons a l ih =>
    by_cases ha : a.length < 2
    · exact ⟨[], a :: l, rfl, by simp, by simpa using ha⟩
    · obtain ⟨g, r, e, h1, h2⟩ := ih
      refine ⟨a :: g, r, by simp [e], ?_, h2⟩
      intro v hv
      rcases List.mem_cons.1 hv with rfl | hv
      · omega
      · exact h1 v hv

end Verif.Adc
