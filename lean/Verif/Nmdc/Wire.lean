import Verif.Nmdc.Types
import Verif.Nmdc.Utils

/-!
# Lemmas for cutting a message at its separators
-/

namespace Verif.Nmdc

open Verif.Go Verif.Spec

/-- Two lists of equal length related element by element. -/
inductive All2 {α β : Type} (R : α → β → Prop) : List α → List β → Prop
  | nil : All2 R [] []
  | cons {a b as bs} : R a b → All2 R as bs → All2 R (a :: as) (b :: bs)

theorem All2.imp {α β : Type} {R S : α → β → Prop} {as : List α} {bs : List β} (h : All2 R as bs)
    (hi : ∀ a ∈ as, ∀ b, R a b → S a b) : All2 S as bs := by
  induction h with
  | nil => exact .nil
  | cons h _ ih => exact .cons (hi _ (by simp) _ h) (ih (fun a ha => hi a (by simp [ha])))

theorem All2.right {α β : Type} {R : α → β → Prop} {as : List α} {bs : List β} (h : All2 R as bs) :
    ∀ b ∈ bs, ∃ a ∈ as, R a b := by
  induction h with
  | nil => simp
  | cons h _ ih =>
    intro b hb
    rcases List.mem_cons.mp hb with rfl | hb
    · exact ⟨_, by simp, h⟩
    · obtain ⟨a, ha, hr⟩ := ih b hb
      exact ⟨a, by simp [ha], hr⟩

theorem All2.length {α β : Type} {R : α → β → Prop} {as : List α} {bs : List β} (h : All2 R as bs) :
    as.length = bs.length := by
  induction h with
  | nil => rfl
  | cons _ _ ih => simp [ih]

theorem All2.getLast? {α β : Type} {R : α → β → Prop} {as : List α} {bs : List β} (h : All2 R as bs) {b : β}
    (hb : bs.getLast? = some b) : ∃ a, as.getLast? = some a ∧ R a b := by
  induction h with
  | nil => simp at hb
  | cons h hs ih =>
    cases hs with
    | nil => simp at hb ⊢; exact hb ▸ h
    | cons _ _ =>
      rw [List.getLast?_cons_cons] at hb ⊢
      exact ih hb

theorem sliceFrom_lit {a p b : Bytes} {n : Nat} (h : p.length = n) : sliceFrom (a ++ p ++ b) (a.length + n) = .ok b := by
  have : a.length + n = (a ++ p).length := by simp [h]
  rw [this, sliceFrom_append]

theorem take_lit {a p b : Bytes} : (a ++ p ++ b).take a.length = a := by simp

/-- The pattern is found at its place when it does not begin earlier. -/
theorem index_at {a p b : Bytes} (hp : p ≠ []) (h : ¬ p <:+: a ++ p.dropLast) : index (a ++ p ++ b) p = some a.length := by
  refine index_eq ?_ (by simp) ?_
  · simp
  · intro j hj hpre
    apply h
    obtain ⟨t, ht⟩ := hpre
    have hlen : 0 < p.length := List.length_pos_iff.mpr hp
    have e : a ++ p ++ b = a ++ p.dropLast ++ ([p.getLast hp] ++ b) := by
      rw [List.append_assoc, List.append_assoc, ← List.append_assoc p.dropLast, List.dropLast_concat_getLast]
    rw [e, List.drop_append_of_le_length (by simp; omega)] at ht
    have hpre : p <+: (a ++ p.dropLast).drop j := by
      have h1 : p <+: (a ++ p.dropLast).drop j ++ ([p.getLast hp] ++ b) := ⟨t, ht⟩
      refine List.prefix_of_prefix_length_le h1 (List.prefix_append _ _) ?_
      simp; omega
    obtain ⟨u, hu⟩ := hpre
    exact ⟨(a ++ p.dropLast).take j, u, by rw [List.append_assoc, hu, List.take_append_drop]⟩

/-- The pattern is found at its place when its second byte does not occur before. -/
theorem index_snd {a p b : Bytes} {c d : Byte} (h : d ∉ a) (hcd : c ≠ d) :
    index (a ++ (c :: d :: p) ++ b) (c :: d :: p) = some a.length := by
  refine index_eq (by simp) (by simp) ?_
  intro j hj hp
  obtain ⟨t, ht⟩ := hp
  have h1 : (a ++ (c :: d :: p) ++ b)[j + 1]? = some d := by
    have : ((a ++ (c :: d :: p) ++ b).drop j)[1]? = some d := by rw [← ht]; rfl
    rwa [List.getElem?_drop] at this
  rw [List.append_assoc] at h1
  by_cases hj' : j + 1 < a.length
  · rw [List.getElem?_append_left hj'] at h1
    exact h (List.mem_of_getElem? h1)
  · rw [List.getElem?_append_right (by omega)] at h1
    have : j + 1 - a.length = 0 := by omega
    simp [this] at h1
    exact hcd h1

/-- An escaped name holds a byte that is not part of escapes only if the name does. -/
theorem not_mem_esc {tbl : Byte → Option Bytes} {s : Bytes} {c : Byte} (h : c ∉ s)
    (hesc : ∀ x v, tbl x = some v → c ∉ v) : c ∉ escWith tbl s := by
  intro hm
  rcases mem_escWith hm with ⟨h1, -⟩ | ⟨x, -, v, hv, hc⟩
  · exact h h1
  · exact hesc x v hv hc

theorem name_free {s w : Bytes} {c : Byte} (hw : Name.marshal none s = .ok w) (hc : escByte c = false) (h : c ∉ s) : c ∉ w := by
  obtain ⟨-, e, he, -, rfl⟩ := name_marshal_ok.mp hw
  cases he
  exact not_mem_esc h (fun x v hv hm => by rw [escByte_name hv c hm] at hc; cases hc)

theorem str_free {s w : Bytes} {c : Byte} (hw : Str.marshal none s = .ok w) (hc : escByte c = false) (h : c ∉ s) : c ∉ w := by
  obtain ⟨e, he, -, rfl⟩ := str_marshal_ok.mp hw
  cases he
  exact not_mem_esc h (fun x v hv hm => by rw [escByte_string hv c hm] at hc; cases hc)

/-- A UTF-8 text without `%`, with the nil encoder. -/
theorem textOk_nil {s : Bytes} (h : validUtf8 s = true) (h' : c!"%" ∉ s) : TextOk none s := by
  refine ⟨validUtf8_iff.mp h, ?_⟩
  rintro e he ⟨x, hx, a, b, hab⟩
  cases he
  have hm : ∀ x ∈ legacyTable, c!"%" ∈ x.1 := by decide
  apply h'
  rw [hab]
  simp [hm x hx]

theorem escWith_name_length (s : Bytes) : (escWith escapeCharName s).length ≤ 6 * s.length := by
  induction s with
  | nil => simp
  | cons b s ih =>
    rw [escWith_cons, List.length_append, List.length_cons]
    have : ((escapeCharName b).getD [b]).length ≤ 6 := by
      unfold escapeCharName
      repeat' split
      all_goals simp
    omega

/-- A short UTF-8 name without `%`, with the nil encoder. -/
theorem nameOk_nil {s : Bytes} (h : validUtf8 s = true) (h' : c!"%" ∉ s) (hl : 6 * s.length ≤ 256) : NameOk none s := by
  refine ⟨textOk_nil h h', ?_⟩
  intro w hw
  obtain ⟨-, e, he, -, rfl⟩ := name_marshal_ok.mp hw
  cases he
  have := escWith_name_length s
  omega

/-- A checkable condition for `TextOk none`. -/
def okText (s : Bytes) : Bool := validUtf8 s && !s.contains c!"%"

/-- A checkable condition for `NameOk none`. -/
def okName (s : Bytes) : Bool := okText s && decide (6 * s.length ≤ 256)

theorem textOk_of {s : Bytes} (h : okText s = true) : TextOk none s := by
  simp [okText] at h
  exact textOk_nil h.1 h.2

theorem nameOk_of {s : Bytes} (h : okName s = true) : NameOk none s := by
  simp [okName, okText] at h
  exact nameOk_nil h.1.1 h.1.2 h.2

theorem name_ne_nil {enc dec : Codec} (hl : Lossless enc dec) {s w : Bytes} (hw : Name.marshal enc s = .ok w)
    (h : s ≠ []) (h0 : dec.run [] = .ok []) : w ≠ [] := by
  rintro rfl
  obtain ⟨-, e, he, -, h2⟩ := name_marshal_ok.mp hw
  cases e with
  | nil => have := hl s [] he; rw [h0] at this; cases this; exact h rfl
  | cons b e =>
    rw [escWith_cons] at h2
    have : ((escapeCharName b).getD [b]) ≠ [] := by
      unfold escapeCharName
      repeat' split
      all_goals simp
    simp at h2
    exact this h2.1

end Verif.Nmdc
