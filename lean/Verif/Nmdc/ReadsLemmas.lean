import Verif.Spec.NmdcReads
import Verif.Nmdc.FormLemmas
import Verif.Nmdc.SimpleLemmas
import Verif.Props.NmdcNumbers

/-!
# Lemmas for the reading of NMDC messages
-/

namespace Verif.Nmdc

open Verif.Go Verif.Spec Verif.Spec.NmdcWire Verif.Spec.NmdcReads Verif.Tiger
open Verif.Spec.AdcWire (Parts)
open Verif.Adc (parts_iff)

/-! ## Cutting -/

theorem drop_append_of_eq {d a x : Bytes} (h : d = a ++ x) : d.drop a.length = x := by subst h; simp

theorem first_index {d sep a b : Bytes} : First sep d a b ↔ index d sep = some a.length ∧ d = a ++ sep ++ b := by
  constructor
  · rintro ⟨h, hmin⟩
    refine ⟨index_eq ⟨b, ?_⟩ (by rw [h]; simp) ?_, h⟩
    · rw [drop_append_of_eq (a := a) (x := sep ++ b) (by simpa using h)]
    · intro j hj hp
      obtain ⟨t, ht⟩ := hp
      have hl : j ≤ d.length := by rw [h]; simp; omega
      have := hmin (d.take j) t (by rw [List.append_assoc, ht, List.take_append_drop])
      rw [List.length_take, Nat.min_eq_left hl] at this
      omega
  · rintro ⟨h, hd⟩
    refine ⟨hd, fun a' b' h' => ?_⟩
    obtain ⟨x, y, -, hx, hmin⟩ := index_some h
    refine Nat.le_of_not_lt fun hlt => hmin a'.length hlt ⟨b', ?_⟩
    rw [drop_append_of_eq (a := a') (x := sep ++ b') (by simpa using h')]

theorem absent_index {d sep : Bytes} : Absent sep d ↔ index d sep = none := by
  constructor
  · intro h
    cases hi : index d sep with
    | none => rfl
    | some i =>
      obtain ⟨a, b, e, -⟩ := index_some hi
      exact absurd e (h a b)
  · intro h a b e
    refine index_none h a.length (by rw [e]; simp) ⟨b, ?_⟩
    rw [drop_append_of_eq (a := a) (x := sep ++ b) (by simpa using e)]

/-- Either `sep` does not occur, or it has a first occurrence. -/
theorem view_index (d sep : Bytes) :
    (index d sep = none ∧ Absent sep d ∧ ∀ a b, ¬ First sep d a b) ∨
      ∃ a b, index d sep = some a.length ∧ d.take a.length = a ∧ sliceFrom d (a.length + sep.length) = .ok b ∧ ¬ Absent sep d ∧
        First sep d a b ∧ ∀ a' b', First sep d a' b' ↔ a' = a ∧ b' = b := by
  cases hi : index d sep with
  | none =>
    refine .inl ⟨rfl, absent_index.mpr hi, fun a b h => ?_⟩
    rw [first_index, hi] at h; simp at h
  | some i =>
    obtain ⟨a, b, e, rfl, -⟩ := index_some hi
    have hf : First sep d a b := first_index.mpr ⟨hi, e⟩
    refine .inr ⟨a, b, rfl, by rw [e]; simp, ?_, fun h => h a b e, hf, fun a' b' => ⟨fun h => ?_, fun h => by rw [h.1, h.2]; exact hf⟩⟩
    · have h1 := sliceFrom_append (a ++ sep) b
      rw [List.length_append] at h1
      rw [e]; exact h1
    · have h1 := (first_index.mp h).1
      rw [hi, Option.some.injEq] at h1
      have h2 : a ++ (sep ++ b) = a' ++ (sep ++ b') := by
        rw [← List.append_assoc, ← List.append_assoc, ← e, ← h.1]
      obtain ⟨h3, h4⟩ := List.append_inj h2 h1
      exact ⟨h3.symm, (List.append_cancel_left h4).symm⟩

theorem index_single (d : Bytes) (c : Byte) : index d [c] = indexByte d c := by
  induction d with
  | nil => rfl
  | cons x d ih =>
    rw [index, indexByte]
    by_cases h : x = c
    · subst h; simp
    · have h1 : [c].isPrefixOf (x :: d) = false := by
        simp only [List.isPrefixOf, Bool.and_eq_false_imp, beq_iff_eq]
        rintro rfl; exact absurd rfl h
      rw [h1, if_neg h]
      simp [ih]

/-- The same for a single byte. -/
theorem view_byte (d : Bytes) (c : Byte) :
    (indexByte d c = none ∧ Absent [c] d ∧ ∀ a b, ¬ First [c] d a b) ∨
      ∃ a b, indexByte d c = some a.length ∧ d.take a.length = a ∧ sliceFrom d (a.length + 1) = .ok b ∧ ¬ Absent [c] d ∧
        First [c] d a b ∧ ∀ a' b', First [c] d a' b' ↔ a' = a ∧ b' = b := by
  rw [← index_single]
  exact view_index d [c]

theorem absent_byte {d : Bytes} {c : Byte} : Absent [c] d ↔ c ∉ d := by
  rw [absent_index, index_single, indexByte_none]

theorem first_byte {d a b : Bytes} {c : Byte} : First [c] d a b ↔ c ∉ a ∧ d = a ++ c :: b := by
  constructor
  · intro h
    have h1 := first_index.mp h
    rw [index_single] at h1
    obtain ⟨x, y, hx, hn, hl⟩ := indexByte_some h1.1
    have h2 : a ++ ([c] ++ b) = x ++ (c :: y) := by rw [← List.append_assoc, ← h1.2, hx]
    obtain ⟨rfl, -⟩ := List.append_inj h2 hl.symm
    exact ⟨hn, by simpa using h1.2⟩
  · rintro ⟨h, rfl⟩
    rw [first_index, index_single, indexByte_append h]
    simp

theorem last_byte {d a b : Bytes} {c : Byte} : Last [c] d a b ↔ c ∉ b ∧ d = a ++ c :: b := by
  constructor
  · rintro ⟨h, hmax⟩
    refine ⟨fun hm => ?_, by simpa using h⟩
    obtain ⟨x, y, rfl⟩ := List.append_of_mem hm
    have := hmax (a ++ [c] ++ x) y (by simp [h])
    simp at this
    omega
  · rintro ⟨h, rfl⟩
    refine ⟨by simp, fun a' b' h' => ?_⟩
    refine Nat.le_of_not_lt fun hlt => h ?_
    have h2 : a ++ (c :: b) = a' ++ ([c] ++ b') := by rw [h']; simp
    rcases List.append_eq_append_iff.mp h2 with ⟨x, h3, h4⟩ | ⟨x, h3, h4⟩
    · rw [h3] at hlt
      cases x with
      | nil => simp at hlt
      | cons y x =>
        simp only [List.cons_append, List.nil_append, List.cons.injEq] at h4
        rw [h4.2]; simp
    · rw [h3] at hlt; simp at hlt; omega

/-- Either `c` does not occur, or it has a last occurrence. -/
theorem view_last (d : Bytes) (c : Byte) :
    (lastIndexByte d c = none ∧ Absent [c] d ∧ ∀ a b, ¬ Last [c] d a b) ∨
      ∃ a b, lastIndexByte d c = some a.length ∧ d.take a.length = a ∧ sliceFrom d (a.length + 1) = .ok b ∧ ¬ Absent [c] d ∧
        Last [c] d a b ∧ ∀ a' b', Last [c] d a' b' ↔ a' = a ∧ b' = b := by
  cases hi : lastIndexByte d c with
  | none =>
    rw [lastIndexByte_none] at hi
    refine .inl ⟨rfl, absent_byte.mpr hi, fun a b h => ?_⟩
    rw [last_byte] at h; exact hi (by rw [h.2]; simp)
  | some i =>
    obtain ⟨a, b, rfl, hb, rfl⟩ := lastIndexByte_some hi
    refine .inr ⟨a, b, rfl, by simp, by simp, fun h => absent_byte.mp h (by simp), last_byte.mpr ⟨hb, rfl⟩, fun a' b' => ?_⟩
    rw [last_byte]
    constructor
    · rintro ⟨h, h'⟩
      have := congrArg (lastIndexByte · c) h'
      simp only [lastIndexByte_append hb, lastIndexByte_append h, Option.some.injEq] at this
      obtain ⟨h1, h2⟩ := List.append_inj h' this
      simp at h2
      exact ⟨h1.symm, h2.symm⟩
    · rintro ⟨rfl, rfl⟩; exact ⟨hb, rfl⟩

theorem begins_iff {p d : Bytes} : Begins p d ↔ hasPrefix d p = true := by
  rw [hasPrefix_iff]
  exact ⟨fun ⟨r, h⟩ => ⟨r, h.symm⟩, fun ⟨r, h⟩ => ⟨r, h.symm⟩⟩

/-- Either `d` begins with `p` or not. -/
theorem view_prefix (d p : Bytes) :
    (hasPrefix d p = false ∧ ¬ Begins p d ∧ ∀ r, d ≠ p ++ r) ∨
      ∃ r, d = p ++ r ∧ hasPrefix d p = true ∧ sliceFrom d p.length = .ok r ∧ Begins p d ∧ ∀ r', d = p ++ r' ↔ r' = r := by
  cases h : hasPrefix d p with
  | false =>
    have hb : ¬ Begins p d := by rw [begins_iff, h]; simp
    exact .inl ⟨rfl, hb, fun r hr => hb ⟨r, hr⟩⟩
  | true =>
    obtain ⟨r, rfl⟩ := begins_iff.mpr h
    exact .inr ⟨r, rfl, rfl, by simp, ⟨r, rfl⟩, fun r' => ⟨fun h => (List.append_cancel_left h).symm, fun h => by rw [h]⟩⟩

theorem without_iff {suf d r : Bytes} : Without suf d r ↔ trimSuffix d suf = r := by
  constructor
  · intro h
    cases h with
    | there => exact trimSuffix_append _ _
    | absent h => exact trimSuffix_ne (fun ⟨t, ht⟩ => h t ht.symm)
  · rintro rfl
    by_cases h : suf <:+ d
    · obtain ⟨t, rfl⟩ := h
      rw [trimSuffix_append]; exact .there
    · rw [trimSuffix_ne h]; exact .absent (fun t ht => h ⟨t, ht.symm⟩)

theorem without_byte {d r : Bytes} {c : Byte} : Without [c] d r ↔ (if d.getLast? = some c then d.dropLast else d) = r := by
  rw [without_iff]
  have : trimSuffix d [c] = if d.getLast? = some c then d.dropLast else d := by
    rcases List.eq_nil_or_concat d with rfl | ⟨a, x, rfl⟩
    · simp [trimSuffix]
    · by_cases h : x = c
      · subst h
        rw [List.concat_eq_append, trimSuffix_append]; simp
      · rw [trimSuffix_ne, if_neg (by simp [h])]
        rintro ⟨t, ht⟩
        rw [List.concat_eq_append] at ht
        exact h (by simpa using (List.append_inj' ht rfl).2.symm)
  rw [this]

theorem splitDD_none {s : Bytes} (h : Absent b!"$$" s) : splitDD s = [s] := by
  induction s with
  | nil => rfl
  | cons x s ih =>
    have ih := ih (fun a b e => h (x :: a) b (by rw [e]; rfl))
    cases s with
    | nil => rfl
    | cons y s =>
      rw [splitDD, ih, if_neg]
      rintro ⟨rfl, rfl⟩
      exact h [] s (by simp)

theorem splitDD_first {s a r : Bytes} (h : First b!"$$" s a r) : splitDD s = a :: splitDD r := by
  obtain ⟨e, hmin⟩ := h
  induction a generalizing s with
  | nil => subst e; simp [splitDD]
  | cons x a ih =>
    subst e
    have ih := ih (s := a ++ b!"$$" ++ r) rfl (fun a' b' e => by
      have := hmin (x :: a') b' (by simp only [List.cons_append]; rw [e])
      simpa using this)
    obtain ⟨y, z, hyz⟩ : ∃ y z, a ++ b!"$$" ++ r = y :: z := by
      cases a with
      | nil => exact ⟨_, _, rfl⟩
      | cons y a => exact ⟨_, _, rfl⟩
    rw [List.cons_append, List.cons_append, hyz, splitDD, ← hyz, ih, if_neg]
    rintro ⟨rfl, rfl⟩
    have := hmin [] z (by simp only [List.cons_append, List.nil_append]; rw [hyz])
    simp at this

theorem cuts_iff {d : Bytes} {ps : List Bytes} : Cuts b!"$$" d ps ↔ splitDD d = ps := by
  constructor
  · intro h
    induction h with
    | last h => exact splitDD_none h
    | more h _ ih => rw [splitDD_first h, ih]
  · rintro rfl
    generalize hn : d.length = n
    induction n using Nat.strongRecOn generalizing d with
    | ind n ih =>
      rcases view_index d b!"$$" with ⟨-, h, -⟩ | ⟨a, b, -, -, -, -, h, -⟩
      · rw [splitDD_none h]; exact .last h
      · rw [splitDD_first h]
        refine .more h (ih b.length ?_ rfl)
        have := congrArg List.length h.1
        simp at this
        omega

/-! ## Values -/

theorem legacy_sound {d t : Bytes} (h : Legacy d t) : legacyReplace d = t := by
  induction h with
  | nil => rfl
  | @code k c s t hm _ ih =>
    have hk : ∀ e ∈ legacyCodes, keyReplace e.2 = some e.1 := by decide
    rw [key_legacy (hk _ hm), ih]
  | @other c s t hn _ ih =>
    have : legacyAt (c :: s) = none := by
      unfold legacyAt
      rw [Option.map_eq_none_iff, List.find?_eq_none]
      intro e he hp
      exact hn e he (begins_iff.mpr hp)
    unfold legacyReplace at ih ⊢
    simp only [legacyFrom, this, ih]

theorem legacy_total (d : Bytes) : Legacy d (legacyReplace d) := by
  generalize hn : d.length = n
  induction n using Nat.strongRecOn generalizing d with
  | ind n ih =>
    cases d with
    | nil => exact .nil
    | cons x d =>
      by_cases h : ∃ e ∈ legacyCodes, Begins e.1 (x :: d)
      · obtain ⟨⟨k, c⟩, he, r, hr⟩ := h
        have hk : ∀ e ∈ legacyCodes, keyReplace e.2 = some e.1 ∧ 0 < e.1.length := by decide
        rw [hr, key_legacy (hk _ he).1]
        refine .code he (ih r.length ?_ r rfl)
        have := congrArg List.length hr
        have := (hk _ he).2
        simp at *
        omega
      · have h' : ∀ e ∈ legacyCodes, ¬ Begins e.1 (x :: d) := fun e he hb => h ⟨e, he, hb⟩
        have := ih d.length (by simp at hn; omega) d rfl
        have h2 := legacy_sound (.other h' this)
        rw [h2]
        exact .other h' this

theorem legacy_iff {d t : Bytes} : Legacy d t ↔ legacyReplace d = t :=
  ⟨legacy_sound, fun h => h ▸ legacy_total d⟩

theorem legacy_amp {d t : Bytes} (h : Legacy d t) (hm : c!"&" ∈ t) : c!"&" ∈ d := by
  induction h with
  | nil => exact hm
  | @code k c s t he _ ih =>
    have hk : ∀ e ∈ legacyCodes, c!"&" ≠ e.2 := by decide
    rcases List.mem_cons.mp hm with h | h
    · exact absurd h (hk _ he)
    · exact List.mem_append_right _ (ih h)
  | other _ _ ih =>
    rcases List.mem_cons.mp hm with h | h
    · rw [h]; simp
    · exact List.mem_cons_of_mem _ (ih h)

section
variable [HtmlEntities]

theorem unescape_eq (d : Bytes) : unescapeBytes d = htmlUnescape (legacyReplace d) := by
  have h1 : contains d b!"/%DCN" = false → legacyReplace d = d := by
    intro h
    apply legacyReplace_id
    rintro ⟨e, he, a, b, hab⟩
    have hall : ∀ e ∈ legacyTable, ∃ r, e.1 = b!"/%DCN" ++ r := by
      have : ∀ e ∈ legacyTable, e.1 = b!"/%DCN" ++ e.1.drop 5 := by decide
      exact fun e he => ⟨_, this e he⟩
    obtain ⟨r, hr⟩ := hall e he
    rw [contains, Option.isSome_eq_false_iff, Option.isNone_iff_eq_none] at h
    exact absent_index.mpr h a (r ++ b) (by rw [hab, hr]; simp)
  have h2 : indexByte d c!"&" = none → htmlUnescape (legacyReplace d) = legacyReplace d := by
    intro h
    rw [indexByte_none] at h
    exact htmlUnescape_id (fun h' => h (legacy_amp (legacy_total d) h'))
  unfold unescapeBytes
  cases hc : contains d b!"/%DCN" with
  | false =>
    rw [h1 hc]
    cases hi : indexByte d c!"&" with
    | none => rw [h1 hc] at h2; simp [h2 hi]
    | some i => simp
  | true =>
    cases hi : indexByte d c!"&" with
    | none => simp [h2 hi]
    | some i => simp

theorem decoded_iff {dec : Codec} {d s : Bytes} :
    (dec.run (unescapeBytes d) >>= fun x => if validUtf8 x then Res.ok x else .err (.unknownEncoding x)) = .ok s ↔ Decoded dec d s := by
  rw [Res.bind_eq_ok]
  simp only [Decoded, legacy_iff, recoded_iff, unescape_eq]
  constructor
  · rintro ⟨x, h1, h2⟩
    split at h2
    · rename_i hv
      cases h2
      exact ⟨_, rfl, h1, validUtf8_iff.mp hv⟩
    · cases h2
  · rintro ⟨_, rfl, h1, h2⟩
    exact ⟨s, h1, by rw [if_pos (validUtf8_iff.mpr h2)]⟩

theorem str_reads {dec : Codec} {d s : Bytes} : Str.unmarshal dec d = .ok s ↔ ReadsText dec d s := by
  unfold Str.unmarshal ReadsText
  cases hi : indexByte d 0 with
  | none =>
    rw [indexByte_none] at hi
    simp only [Option.isSome_none, Bool.false_eq_true, if_false, hi, not_false_eq_true, true_and]
    exact decoded_iff
  | some i =>
    have : (0 : Byte) ∈ d := by
      obtain ⟨a, b, rfl, -⟩ := indexByte_some hi; simp
    simp [this]

theorem name_reads {dec : Codec} {d s : Bytes} : Name.unmarshal dec d = .ok s ↔ ReadsName dec d s := by
  unfold Name.unmarshal ReadsName
  simp only [badName_iff]
  by_cases h : d.length > maxName
  · rw [if_pos h]; unfold maxName at h; simp; omega
  · rw [if_neg h]
    by_cases h2 : d.any invalidCharName = true
    · rw [if_pos h2]
      obtain ⟨b, hb, hi⟩ := List.any_eq_true.mp h2
      simp only [reduceCtorEq, false_iff, not_and]
      intro _ h3
      rw [h3 b hb] at hi; cases hi
    · rw [if_neg h2]
      have h3 : ∀ b ∈ d, invalidCharName b = false := by
        intro b hb
        cases hi : invalidCharName b with
        | false => rfl
        | true => exact absurd (List.any_eq_true.mpr ⟨b, hb, hi⟩) h2
      unfold maxName at h
      simp only [show d.length ≤ 256 by omega, true_and]
      exact decoded_iff.trans ⟨fun h => ⟨h3, h⟩, fun h => h.2⟩

end

theorem nat_reads {d : Bytes} {n : Nat} : parseUin64Trim d = .ok n ↔ ReadsNat d n := Verif.Props.NmdcNumbers.uint_exact

theorem int_reads {d : Bytes} {n : Int} : atoiTrim d = .ok n ↔ ReadsInt d n := Verif.Props.NmdcNumbers.atoi_exact

theorem mapErr_ok {α : Type} {r : Res α} {e : Err} {a : α} : mapErr r e = .ok a ↔ r = .ok a := by
  cases r <;> simp [mapErr]

theorem parts_split {sep : Byte} {d : Bytes} {ps : List Bytes} : Parts sep d ps ↔ split d sep = ps := parts_iff sep d ps

end Verif.Nmdc
