import Verif.Adc.ExtGroup
import Verif.Spec.Sega
import Verif.Nmdc.Wire

/-!
# C58: groups of file extensions
-/

namespace Verif.Props.AdcGroups

open Verif.Go Verif.Adc Verif.Spec
open Verif.Nmdc (All2)

variable [LowerCase]

set_option linter.unusedSectionVars false

/-- The words of the groups are lower case letters and digits. -/
def Word (w : Bytes) : Prop := ∀ c ∈ w, (0x30 ≤ c.toNat ∧ c.toNat ≤ 0x39) ∨ (0x61 ≤ c.toNat ∧ c.toNat ≤ 0x7A)

theorem encodeRune_cases (r : Nat) : (r < 0x80 ∧ encodeRune r = [UInt8.ofNat r]) ∨
    (0x80 ≤ r ∧ ∃ b u, encodeRune r = b :: u ∧ 0x80 ≤ b.toNat) := by
  by_cases h : r < 0x80
  · left
    refine ⟨h, ?_⟩
    have : IsScalar r := .inl (by omega)
    simp [encodeRune, this, utf8, h]
  · right
    refine ⟨by omega, ?_⟩
    have key : ∀ q : Nat, 0x80 ≤ q → IsScalar q → ∃ b u, utf8 q = b :: u ∧ 0x80 ≤ b.toNat := by
      intro q hq hs
      unfold utf8
      rw [if_neg (by omega)]
      have hs : q < 0x110000 := by rcases hs with h | h <;> omega
      split
      · exact ⟨_, _, rfl, by rw [toNat_ofNat_lt (by omega)]; omega⟩
      · split
        · exact ⟨_, _, rfl, by rw [toNat_ofNat_lt (by omega)]; omega⟩
        · exact ⟨_, _, rfl, by rw [toNat_ofNat_lt (by omega)]; omega⟩
    unfold encodeRune
    split
    · rename_i hs
      exact key r (by omega) hs.2
    · exact key runeError (by decide) (by decide)

/-- Which runes have a given lower case letter or digit. -/
theorem lowerRune_iff {r : Nat} {c : Byte} (hc : (0x30 ≤ c.toNat ∧ c.toNat ≤ 0x39) ∨ (0x61 ≤ c.toNat ∧ c.toNat ≤ 0x7A)) :
    lowerRune r = c.toNat ↔ WritesChar r c := by
  unfold lowerRune WritesChar
  split
  · split <;> omega
  · by_cases h1 : r = 0x130
    · subst h1; rw [LowerCase.dotted]; omega
    · by_cases h2 : r = 0x212A
      · subst h2; rw [LowerCase.kelvin]; omega
      · have := LowerCase.other r (by omega) h1 h2
        omega

/-- The lower case form of a text is the word `w` exactly when each rune of the text is a way to write the letter of `w` at its
place. -/
theorem toLower_word (s w : Bytes) (hw : Word w) :
    toLower s = w ↔ All2 (fun r c => ∃ x, r = some x ∧ WritesChar x c) (runes s) w := by
  unfold toLower
  generalize runes s = rs
  induction rs generalizing w with
  | nil =>
    constructor
    · intro h; simp at h; subst h; exact .nil
    · intro h; cases h; rfl
  | cons r rs ih =>
    rw [List.flatMap_cons]
    cases w with
    | nil =>
      constructor
      · intro h
        exfalso
        cases r with
        | none => simp [utf8, runeError] at h
        | some x =>
          rcases encodeRune_cases (lowerRune x) with ⟨_, h1⟩ | ⟨_, b, u, h1, _⟩ <;> simp [h1] at h
      · intro h; cases h
    | cons c w =>
      have hc := hw c (by simp)
      have hw' : Word w := fun x hx => hw x (by simp [hx])
      cases r with
      | none =>
        constructor
        · intro h
          simp only [utf8, runeError] at h
          simp only [show ¬ (0xFFFD : Nat) < 0x80 by decide, show ¬ (0xFFFD : Nat) < 0x800 by decide,
            show (0xFFFD : Nat) < 0x10000 by decide, if_true, if_false, List.cons_append, List.cons.injEq] at h
          have := congrArg UInt8.toNat h.1
          simp at this
          omega
        · intro h; cases h with
          | cons h _ => obtain ⟨x, hx, _⟩ := h; cases hx
      | some x =>
        simp only
        rcases encodeRune_cases (lowerRune x) with ⟨hl, h1⟩ | ⟨hl, b, u, h1, hb⟩
        · rw [h1]
          simp only [List.cons_append, List.nil_append, List.cons.injEq]
          constructor
          · rintro ⟨h2, h3⟩
            have : lowerRune x = c.toNat := by rw [← h2, toNat_ofNat_lt (by omega)]
            exact .cons ⟨x, rfl, (lowerRune_iff hc).mp this⟩ ((ih w hw').mp h3)
          · intro h
            cases h with
            | cons h2 h3 =>
              obtain ⟨y, hy, h2⟩ := h2
              cases hy
              refine ⟨?_, (ih w hw').mpr h3⟩
              rw [(lowerRune_iff hc).mpr h2, UInt8.ofNat_toNat]
        · constructor
          · intro h
            rw [h1, List.cons_append, List.cons.injEq] at h
            rw [← h.1] at hc
            omega
          · intro h
            cases h with
            | cons h2 h3 =>
              obtain ⟨y, hy, h2⟩ := h2
              cases hy
              have := (lowerRune_iff hc).mpr h2
              omega

/-- The map of the code is the table of the specification: the word `w` belongs to group `i` exactly when the map has its bit. -/
theorem table (w : Bytes) (g : ExtGroup) :
    (w, g) ∈ extGroups ↔ ∃ (i : Nat) (ws : List Bytes), segaGroups[i]? = some ws ∧ w ∈ ws ∧ g = 1#64 <<< i := by
  constructor
  · intro h
    have key : ∀ e ∈ extGroups, ∃ i : Nat, i < 6 ∧ ∃ ws : List Bytes, segaGroups[i]? = some ws ∧ e.1 ∈ ws ∧ e.2 = 1#64 <<< i := by
      intro e he
      have : (extGroups.all fun e => (List.range 6).any fun i => (segaGroups.getD i []).contains e.1 && e.2 == 1#64 <<< i) = true := by
        decide +kernel
      rw [List.all_eq_true] at this
      have := this e he
      rw [List.any_eq_true] at this
      obtain ⟨i, hi, h⟩ := this
      simp only [List.mem_range] at hi
      simp only [Bool.and_eq_true, List.contains_iff_mem, beq_iff_eq] at h
      refine ⟨i, hi, segaGroups[i]'(by simpa [segaGroups] using hi), List.getElem?_eq_getElem _, ?_, h.2⟩
      have h1 := h.1
      rwa [List.getD_eq_getElem?_getD, List.getElem?_eq_getElem (by simpa [segaGroups] using hi), Option.getD_some] at h1
    obtain ⟨i, _, ws, h1, h2, h3⟩ := key _ h
    exact ⟨i, ws, h1, h2, h3⟩
  · rintro ⟨i, ws, h1, h2, rfl⟩
    have : ((List.range 6).all fun i => (segaGroups.getD i []).all fun w => extGroups.contains (w, 1#64 <<< i)) = true := by decide +kernel
    rw [List.all_eq_true] at this
    obtain ⟨hi, rfl⟩ := List.getElem?_eq_some_iff.mp h1
    have := this i (by simpa [segaGroups] using hi)
    rw [List.all_eq_true] at this
    have := this w (by rwa [List.getD_eq_getElem?_getD, List.getElem?_eq_getElem hi, Option.getD_some])
    simpa using this

theorem keys_unique : (extGroups.map Prod.fst).Nodup := by decide +kernel

theorem extGroup_eq {w : Bytes} {g : ExtGroup} (h : (w, g) ∈ extGroups) : extGroup w = g := by
  have key : (extGroups.all fun e => extGroup e.1 == e.2) = true := by decide +kernel
  rw [List.all_eq_true] at key
  simpa using key _ h

theorem words : ∀ e ∈ extGroups, Word e.1 := by
  have key : (extGroups.all fun e => e.1.all fun c => (0x30 ≤ c.toNat && c.toNat ≤ 0x39) || (0x61 ≤ c.toNat && c.toNat ≤ 0x7A)) = true := by
    decide +kernel
  rw [List.all_eq_true] at key
  intro e he c hc
  have := key e he
  rw [List.all_eq_true] at this
  simpa using this c hc

theorem extGroup_other {w : Bytes} (h : ∀ g, (w, g) ∉ extGroups) : extGroup w = 0 := by
  unfold extGroup
  split
  · rename_i e he
    have h1 := List.find?_some he
    have h2 := List.mem_of_find?_eq_some he
    simp only [beq_iff_eq] at h1
    subst h1
    exact absurd h2 (h e.2)
  · rfl

/-- **C58.** `Matches` accepts a name exactly when the search asks for no group, or for the group `i` one of whose extensions is that of
the name, in any mix of upper and lower case. -/
theorem matches_iff (t : ExtGroup) (name : Bytes) : t.matches name = true ↔
    t = 0 ∨ ∃ (i : Nat) (ws : List Bytes) (w e : Bytes), segaGroups[i]? = some ws ∧ w ∈ ws ∧ t.getLsbD i = true ∧ IsExtension e name ∧
      All2 (fun r c => ∃ x, r = some x ∧ WritesChar x c) (runes e) w := by
  have bit : ∀ i, i < 6 → (t.has (1#64 <<< i) = true ↔ t.getLsbD i = true) := by
    intro i hi
    simp only [ExtGroup.has, bne_iff_ne, ne_eq]
    constructor
    · intro h
      refine Decidable.byContradiction fun hn => h ?_
      apply BitVec.eq_of_getLsbD_eq
      intro j hj
      simp only [BitVec.getLsbD_and, BitVec.getLsbD_shiftLeft, BitVec.getLsbD_one]
      by_cases hij : j = i
      · subst hij; simp [hn]
      · simp; intro _ _ _; omega
    · intro h h0
      have := congrArg (fun b => b.getLsbD i) h0
      simp [BitVec.getLsbD_and, BitVec.getLsbD_shiftLeft, h] at this
      omega
  have ext : ∃ e, IsExtension e name ∧ afterDot name = e := by
    unfold afterDot
    cases hi : lastIndexByte name c!"." with
    | none => exact ⟨name, ⟨lastIndexByte_none.mp hi, .inl rfl⟩, rfl⟩
    | some i =>
      obtain ⟨a, b, rfl, hb, rfl⟩ := lastIndexByte_some hi
      exact ⟨b, ⟨hb, .inr ⟨a, rfl⟩⟩, by simp⟩
  have uniq : ∀ e e', IsExtension e name → IsExtension e' name → e = e' := by
    rintro e e' ⟨h1, h2⟩ ⟨h3, h4⟩
    rcases h2 with rfl | ⟨a, ha⟩
    · rcases h4 with rfl | ⟨b, hb⟩
      · rfl
      · exact absurd (by rw [hb]; simp) h1
    · rcases h4 with rfl | ⟨b, hb⟩
      · exact absurd (by rw [ha]; simp) h3
      · have e1 := lastIndexByte_append (a := a) h1
        have e2 := lastIndexByte_append (a := b) h3
        rw [← ha] at e1
        rw [← hb, e1] at e2
        have hl : a.length = b.length := by simpa using e2
        have := (List.append_inj (ha.symm.trans hb) hl).2
        exact (List.cons.inj this).2
  obtain ⟨e, he, hee⟩ := ext
  unfold ExtGroup.matches
  by_cases h0 : t = 0
  · simp [h0]
  · rw [if_neg h0, hee]
    constructor
    · intro h
      right
      by_cases hm : ∃ g, (toLower e, g) ∈ extGroups
      · obtain ⟨g, hg⟩ := hm
        rw [extGroup_eq hg] at h
        obtain ⟨i, ws, h1, h2, rfl⟩ := (table _ _).mp hg
        have hi : i < 6 := (List.getElem?_eq_some_iff.mp h1).1
        exact ⟨i, ws, _, e, h1, h2, (bit i hi).mp h, he, (toLower_word e _ (words _ hg)).mp rfl⟩
      · rw [extGroup_other (fun g hg => hm ⟨g, hg⟩)] at h
        simp [ExtGroup.has] at h
    · rintro (h | ⟨i, ws, w, e', h1, h2, h3, h4, h5⟩)
      · exact absurd h h0
      · cases uniq _ _ he h4
        have hg := (table w _).mpr ⟨i, ws, h1, h2, rfl⟩
        have hi : i < 6 := (List.getElem?_eq_some_iff.mp h1).1
        rw [(toLower_word e w (words _ hg)).mpr h5, extGroup_eq hg]
        exact (bit i hi).mpr h3

/-- Each extension is in one group: the table has no word twice. -/
theorem groups_disjoint (i j : Nat) (w : Bytes) {ws vs : List Bytes} (hi : segaGroups[i]? = some ws) (hj : segaGroups[j]? = some vs)
    (h1 : w ∈ ws) (h2 : w ∈ vs) : i = j := by
  have a := extGroup_eq ((table w _).mpr ⟨i, ws, hi, h1, rfl⟩)
  have b := extGroup_eq ((table w _).mpr ⟨j, vs, hj, h2, rfl⟩)
  have hi : i < 6 := (List.getElem?_eq_some_iff.mp hi).1
  have hj : j < 6 := (List.getElem?_eq_some_iff.mp hj).1
  have key : ∀ i < 6, ∀ j < 6, 1#64 <<< i = 1#64 <<< j → i = j := by decide +kernel
  exact key i hi j hj (a.symm.trans b)

/-- A `LowerCase` for examples. -/
@[reducible] def someCase : LowerCase where
  lower r := if r = 0x130 then 0x69 else if r = 0x212A then 0x6B else r
  dotted := rfl
  kelvin := rfl
  other r h h1 h2 := by simpa [h1, h2] using h

example : letI := someCase
    (extVideo.matches b!"My.Film.MkV" = true ∧ extAudio.matches b!"My.Film.MkV" = false ∧ (extAudio ||| extVideo).matches b!"mkv" = true ∧
    extVideo.matches b!"mkv.txt" = false ∧ extVideo.matches b!"film." = false ∧ (0 : ExtGroup).matches b!"" = true) := by
  decide +kernel

/-- Finding: the Kelvin sign counts as a `k`. -/
theorem kelvin_matches : extVideo.matches (b!"film.m" ++ utf8 0x212A ++ b!"v") = true := by
  rw [matches_iff]
  right
  refine ⟨5, _, b!"mkv", b!"m" ++ utf8 0x212A ++ b!"v", rfl, by decide, by decide, ⟨by decide, .inr ⟨b!"film", rfl⟩⟩, ?_⟩
  rw [show runes (b!"m" ++ utf8 0x212A ++ b!"v") = [some 0x6D, some 0x212A, some 0x76] by decide +kernel]
  exact .cons ⟨_, rfl, .inl rfl⟩ (.cons ⟨_, rfl, .inr (.inr (.inr ⟨rfl, rfl⟩))⟩ (.cons ⟨_, rfl, .inl rfl⟩ .nil))

end Verif.Props.AdcGroups
