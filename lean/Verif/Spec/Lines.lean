import Verif.Go.Basic

/-!
# Specification: the lines of a byte string
-/

namespace Verif.Spec

/-- Splits a byte string into its lines, each ending with the delimiter, and the unterminated tail. -/
def splitLines (delim : Byte) : Bytes → List Bytes × Bytes
  | [] => ([], [])
  | b :: bs =>
    if b = delim then ([b] :: (splitLines delim bs).1, (splitLines delim bs).2)
    else
      match splitLines delim bs with
      | ([], tail) => ([], b :: tail)
      | (l :: ls, tail) => ((b :: l) :: ls, tail)

/-- A line: some bytes without the delimiter, then the delimiter. -/
def IsLine (delim : Byte) (l : Bytes) : Prop := ∃ body, delim ∉ body ∧ l = body ++ [delim]

/-- Splitting loses and adds nothing. -/
theorem splitLines_flatten (d : Byte) (bs : Bytes) :
    (splitLines d bs).1.flatten ++ (splitLines d bs).2 = bs := by
  induction bs with
  | nil => rfl
  | cons b bs ih =>
    unfold splitLines
    split
    · simp_all
    · cases hs : splitLines d bs with
      | mk ls t => rw [hs] at ih; cases ls <;> simp_all

theorem splitLines_tail (d : Byte) (bs : Bytes) : d ∉ (splitLines d bs).2 := by
  induction bs with
  | nil => simp [splitLines]
  | cons b bs ih =>
    unfold splitLines
    split
    · exact ih
    · cases hs : splitLines d bs with
      | mk ls t => rw [hs] at ih; cases ls <;> simp_all [Ne.symm, eq_comm]

theorem splitLines_lines (d : Byte) (bs : Bytes) : ∀ l ∈ (splitLines d bs).1, IsLine d l := by
  induction bs with
  | nil => simp [splitLines]
  | cons b bs ih =>
    unfold splitLines
    split
    · rename_i h
      intro l hl
      simp only [List.mem_cons] at hl
      rcases hl with rfl | hl
      · exact ⟨[], by simp, by simp [h]⟩
      · exact ih l hl
    · rename_i h
      cases hs : splitLines d bs with
      | mk ls t =>
        rw [hs] at ih
        cases ls with
        | nil => simp
        | cons l0 ls =>
          intro l hl
          simp only [List.mem_cons] at hl
          rcases hl with rfl | hl
          · obtain ⟨body, hb, rfl⟩ := ih l0 (by simp)
            exact ⟨b :: body, by simp [hb, Ne.symm h], by simp⟩
          · exact ih l (by simp [hl])

/-- The split is the only decomposition into lines and a tail without delimiter. -/
theorem splitLines_unique (d : Byte) (ls : List Bytes) (t : Bytes)
    (hl : ∀ l ∈ ls, IsLine d l) (ht : d ∉ t) :
    splitLines d (ls.flatten ++ t) = (ls, t) := by
  induction ls with
  | nil =>
    simp only [List.flatten_nil, List.nil_append]
    induction t with
    | nil => rfl
    | cons c t ih =>
      simp only [List.mem_cons, not_or] at ht
      simp [splitLines, Ne.symm ht.1, ih ht.2]
  | cons l ls ih =>
    obtain ⟨body, hb, rfl⟩ := hl l (by simp)
    have ih := ih (fun l h => hl l (by simp [h]))
    simp only [List.flatten_cons, List.append_assoc, List.singleton_append]
    clear hl
    induction body with
    | nil => simp [splitLines, ih]
    | cons c body ihb =>
      simp only [List.mem_cons, not_or] at hb
      have h := ihb hb.2
      simp only [List.cons_append] at h
      simp only [List.cons_append, splitLines, Ne.symm hb.1, if_false, h]

end Verif.Spec
