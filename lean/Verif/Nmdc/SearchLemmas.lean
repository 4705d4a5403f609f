import Verif.Nmdc.Search
import Verif.Nmdc.NumLemmas
import Verif.Nmdc.SimpleLemmas

/-!
# Lemmas for searches
-/

namespace Verif.Nmdc

open Verif.Go Verif.Spec Verif.Props Verif.Tiger

theorem replaceByte_append (s t : Bytes) (a b : Byte) : replaceByte (s ++ t) a b = replaceByte s a b ++ replaceByte t a b := by
  simp [replaceByte]

theorem replaceByte_id {s : Bytes} {a b : Byte} (h : a ∉ s) : replaceByte s a b = s := by
  induction s with
  | nil => rfl
  | cons c s ih =>
    simp only [List.mem_cons, not_or] at h
    simp only [replaceByte, List.map_cons] at ih ⊢
    rw [ih h.2, if_neg (Ne.symm h.1)]

theorem replaceByte_not_mem {s : Bytes} {a b : Byte} (h : a ≠ b) : a ∉ replaceByte s a b := by
  intro hm
  obtain ⟨c, -, hc⟩ := List.mem_map.mp hm
  split at hc
  · exact h hc.symm
  · rename_i hne; exact hne hc

theorem escString_no_space {b : Byte} {v : Bytes} (h : escapeCharString b = some v) : c!" " ∉ v ∧ b ≠ c!" " := by
  unfold escapeCharString delim at h
  repeat' split at h
  all_goals simp at h
  all_goals subst h; subst_vars; decide

section
variable [HtmlEntities]

theorem htmlUnescape_swap (e : Bytes) :
    htmlUnescape (replaceByte (escWith escapeCharString e) c!" " c!"$") = replaceByte e c!" " c!"$" := by
  induction e with
  | nil => rfl
  | cons b e ih =>
    rw [escWith_cons, replaceByte_append]
    cases h : escapeCharString b with
    | none =>
      have hb : b ≠ c!"&" := by rintro rfl; exact goodString.amp h
      simp only [Option.getD_none]
      by_cases hs : b = c!" "
      · subst hs
        have : replaceByte [c!" "] c!" " c!"$" = [c!"$"] := rfl
        rw [this, List.cons_append, List.nil_append, htmlUnescape_cons (by decide), ih]
        rfl
      · have : replaceByte [b] c!" " c!"$" = [b] := by simp [replaceByte, hs]
        rw [this, List.cons_append, List.nil_append, htmlUnescape_cons hb, ih]
        simp [replaceByte, hs]
    | some v =>
      obtain ⟨h1, h2⟩ := escString_no_space h
      simp only [Option.getD_some]
      rw [replaceByte_id h1, goodString.unescape b v h, ih]
      simp [replaceByte, h2]

omit [HtmlEntities] in
theorem hasLegacy_swap {p : Bytes} (h : ¬ HasLegacy p) : ¬ HasLegacy (replaceByte p c!" " c!"$") := by
  rintro ⟨e, he, a, b, hab⟩
  have hall : ∀ e ∈ legacyTable, c!"$" ∉ e.1 := by decide
  have hd := hall e he
  unfold replaceByte at hab
  obtain ⟨x, y, rfl, hx, hy⟩ := List.map_eq_append_iff.mp hab
  obtain ⟨u, v, rfl, hu, hv⟩ := List.map_eq_append_iff.mp hx
  have hv' : v = e.1 := by
    rw [← hv]
    symm
    apply replaceByte_id
    intro hm
    apply hd
    rw [← hv]
    exact List.mem_map.mpr ⟨c!" ", hm, rfl⟩
  exact h ⟨e, he, u, y, by rw [hv']⟩

theorem unescape_swap {e : Bytes} (h : ¬ HasLegacy e) :
    unescapeBytes (replaceByte (escWith escapeCharString e) c!" " c!"$") = replaceByte e c!" " c!"$" := by
  unfold unescapeBytes
  have hl := legacyReplace_id (hasLegacy_swap (hasLegacy_escWith goodString h))
  simp only [hl, ite_self]
  have hh := htmlUnescape_swap e
  cases hi : indexByte (replaceByte (escWith escapeCharString e) c!" " c!"$") c!"&" with
  | some i => simp [hh]
  | none =>
    rw [indexByte_none] at hi
    rw [htmlUnescape_id hi] at hh
    simp [hh]

end

theorem utf8_high {r : Nat} (h : 0x80 ≤ r) (hs : IsScalar r) : ∀ b ∈ utf8 r, 0x80 ≤ b.toNat := by
  have t : ∀ n, n < 256 → (UInt8.ofNat n).toNat = n := fun n hn => toNat_ofNat_lt hn
  unfold IsScalar at hs
  unfold utf8
  rw [if_neg (by omega)]
  repeat' split
  all_goals
    simp only [List.mem_cons, List.not_mem_nil, or_false]
    intro b hb
  · rcases hb with rfl | rfl <;> rw [t _ (by omega)] <;> omega
  · rcases hb with rfl | rfl | rfl <;> rw [t _ (by omega)] <;> omega
  · rcases hb with rfl | rfl | rfl | rfl <;> rw [t _ (by omega)] <;> omega

theorem isUtf8_swap {s : Bytes} (h : IsUtf8 s) : IsUtf8 (replaceByte s c!" " c!"$") := by
  obtain ⟨rs, hrs, rfl⟩ := h
  refine ⟨rs.map (fun r => if r = 32 then 36 else r), ?_, ?_⟩
  · intro r hr
    obtain ⟨x, hx, rfl⟩ := List.mem_map.mp hr
    split
    · exact .inl (by decide)
    · exact hrs x hx
  · induction rs with
    | nil => rfl
    | cons r rs ih =>
      rw [List.flatMap_cons, replaceByte_append, List.map_cons, List.flatMap_cons, ih (fun x hx => hrs x (by simp [hx]))]
      congr 1
      by_cases h : r < 0x80
      · have : ∀ r : Fin 128, replaceByte (utf8 r.val) c!" " c!"$" = utf8 (if r.val = 32 then 36 else r.val) := by decide +kernel
        exact this ⟨r, h⟩
      · rw [if_neg (by omega), replaceByte_id]
        intro hm
        have := utf8_high (by omega) (hrs r (by simp)) _ hm
        exact absurd this (by decide)

/-- The codec treats space and dollar alike: swapping them in the encoded text swaps them in the decoded one. -/
def AsciiSwap (enc dec : Codec) : Prop :=
  ∀ s e, enc.run s = .ok e → dec.run (replaceByte e c!" " c!"$") = .ok (replaceByte s c!" " c!"$")

theorem asciiSwap_nil : AsciiSwap none none := by
  intro s e h; cases h; rfl

/-- The pattern of a search: spaces travel as dollars. -/
theorem pattern_roundtrip [HtmlEntities] {enc dec : Codec} (hs : AsciiSwap enc dec) {s w : Bytes} (ht : TextOk enc s)
    (h : Str.marshal enc s = .ok w) : Str.unmarshal dec (replaceByte w c!" " c!"$") = .ok (replaceByte s c!" " c!"$") := by
  have hclean := str_marshal_clean h
  obtain ⟨e, he, h0, rfl⟩ := str_marshal_ok.mp h
  have hz : indexByte (replaceByte (escWith escapeCharString e) c!" " c!"$") 0 = none := by
    rw [indexByte_none]
    intro h'
    obtain ⟨c, hc, hc'⟩ := List.mem_map.mp h'
    split at hc'
    · exact absurd hc' (by decide)
    · subst hc'; exact (hclean 0 hc).2.2 rfl
  unfold Str.unmarshal
  rw [hz, unescape_swap (ht.2 e he), hs s e he]
  simp [validUtf8_iff.mpr (isUtf8_swap ht.1)]

theorem replace_back (s : Bytes) : replaceByte (replaceByte s c!" " c!"$") c!"$" c!" " = replaceByte s c!"$" c!" " := by
  simp only [replaceByte, List.map_map]
  apply List.map_congr_left
  intro c _
  simp only [Function.comp]
  by_cases h1 : c = c!" "
  · subst h1; rfl
  · simp [h1]

theorem alpha_no {h : Hash} {c : Byte} (hc : ¬ ((c!"A" ≤ c ∧ c ≤ c!"Z") ∨ (c!"2" ≤ c ∧ c ≤ c!"7"))) : c ∉ h.base32 :=
  fun hm => hc (Hash.base32_alpha hm)

theorem strAll_ok {enc : Codec} {ps ws : List Bytes} (h : strAll enc ps = .ok ws) :
    All2 (fun p w => Str.marshal enc p = .ok w) ps ws := by
  induction ps generalizing ws with
  | nil => cases h; exact .nil
  | cons p ps ih =>
    simp only [strAll, Res.bind_eq_ok, Res.ok.injEq] at h
    obtain ⟨w, hw, ws', hws, rfl⟩ := h
    exact .cons hw (ih hws)

/-- Characters of the slot field. -/
theorem slotByte_iff {b : Byte} : slotByte b = true ↔ b = c!"/" ∨ IsDigit b := by
  revert b; apply forall_byte; decide +kernel

theorem takeWhile_append_stop {α : Type} {p : α → Bool} {a : List α} {x : α} {b : List α} (h : ∀ y ∈ a, p y = true)
    (hx : p x = false) : (a ++ x :: b).takeWhile p = a := by
  induction a with
  | nil => simp [hx]
  | cons y a ih => simp [h y (by simp), ih (fun z hz => h z (by simp [hz]))]

/-- A directory result: path, a space, and slots. -/
theorem dirSplit_dir {p a b : Bytes} (ha : ∀ c ∈ a, IsDigit c) (hb : ∀ c ∈ b, IsDigit c) :
    SR.dirSplit (p ++ c!" " :: (a ++ c!"/" :: b)) = some (p, a ++ c!"/" :: b) := by
  have hrun : ((p ++ c!" " :: (a ++ c!"/" :: b)).reverse.takeWhile slotByte).reverse = a ++ c!"/" :: b := by
    have e : (p ++ c!" " :: (a ++ c!"/" :: b)).reverse = (a ++ c!"/" :: b).reverse ++ c!" " :: p.reverse := by simp
    rw [e, takeWhile_append_stop, List.reverse_reverse]
    · intro y hy
      rw [List.mem_reverse] at hy
      rw [slotByte_iff]
      simp only [List.mem_append, List.mem_cons] at hy
      rcases hy with hy | rfl | hy
      · exact .inr (ha y hy)
      · exact .inl rfl
      · exact .inr (hb y hy)
    · decide
  unfold SR.dirSplit
  simp only [hrun]
  rw [if_pos ⟨by simp, by simp; omega⟩]
  have : (p ++ c!" " :: (a ++ c!"/" :: b)).length - (a ++ c!"/" :: b).length - 1 = p.length := by simp; omega
  rw [this]
  simp

/-- A path that cannot be taken for a directory result: every `/` is followed by something that is no slot
character, or there is nothing but slot characters. -/
theorem dirSplit_file {p : Bytes}
    (h : (∀ a b, p = a ++ c!"/" :: b → ∃ c ∈ b, ¬ (c = c!"/" ∨ IsDigit c)) ∨ ∀ c ∈ p, c = c!"/" ∨ IsDigit c) :
    SR.dirSplit p = none := by
  unfold SR.dirSplit
  simp only
  rw [if_neg]
  rintro ⟨h1, h2⟩
  rcases h with h | h
  · -- the run is a suffix
    have hsuf : ∃ q, p = q ++ (p.reverse.takeWhile slotByte).reverse := by
      refine ⟨(p.reverse.dropWhile slotByte).reverse, ?_⟩
      rw [← List.reverse_append, List.takeWhile_append_dropWhile, List.reverse_reverse]
    obtain ⟨q, hq⟩ := hsuf
    obtain ⟨u, v, huv⟩ := List.append_of_mem h1
    obtain ⟨c, hc, hc'⟩ := h (q ++ u) v (by rw [List.append_assoc, ← huv]; exact hq)
    apply hc'
    rw [← slotByte_iff]
    have hm : c ∈ (p.reverse.takeWhile slotByte) := by
      rw [← List.mem_reverse, huv]; simp [hc]
    exact (List.all_eq_true.mp (List.all_takeWhile) c hm)
  · have : p.reverse.takeWhile slotByte = p.reverse := by
      apply takeWhile_all
      intro c hc
      rw [slotByte_iff]
      exact h c (List.mem_reverse.mp hc)
    rw [this] at h2
    simp at h2

end Verif.Nmdc
