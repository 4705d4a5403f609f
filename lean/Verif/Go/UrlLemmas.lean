import Verif.Go.Url

/-!
# Facts about `net/url`
-/

namespace Verif.Go.Url

open Verif.Go

theorem unhex_upperhex : ∀ c : Byte, unhex (upperhex (c / 16)) = some (c / 16) ∧ unhex (upperhex (c % 16)) = some (c % 16)
    ∧ 16 * (c / 16) + c % 16 = c := by
  apply forall_byte; decide +kernel

theorem upperhex_ok : ∀ c : Byte, isAlnum (upperhex (c / 16)) = true ∧ isAlnum (upperhex (c % 16)) = true := by
  apply forall_byte; decide +kernel

theorem shouldEscape_zone : ∀ c : Byte, shouldEscape .zone c = shouldEscape .host c := by
  apply forall_byte; decide +kernel

theorem escape_zone (s : Bytes) : escape .zone s = escape .host s := by
  unfold escape
  congr 1
  funext c
  simp [escapeByte, shouldEscape_zone]

theorem shouldEscape_percent (m : Mode) : shouldEscape m c!"%" = true := by cases m <;> decide +kernel

/-- Bytes that come back. -/
def Back (m : Mode) (c : Byte) : Prop := shouldEscape m c = true → escapeOk m (upperhex (c / 16)) (upperhex (c % 16)) c = true

theorem back_path (c : Byte) : Back .path c := fun _ => rfl
theorem back_user (c : Byte) : Back .userPassword c := fun _ => rfl
theorem back_fragment (c : Byte) : Back .fragment c := fun _ => rfl

theorem back_host : ∀ c : Byte, Back .host c ↔ (shouldEscape .host c = true → 128 ≤ c ∨ c = c!"%") := by
  unfold Back
  apply forall_byte; decide +kernel

theorem back_zone : ∀ c : Byte, Back .zone c ↔ (shouldEscape .host c = true → c = c!" " ∨ c = c!"%") := by
  unfold Back
  apply forall_byte; decide +kernel

theorem unescape_plain {m : Mode} {c : Byte} (hc : c ≠ c!"%") (h : ¬ ((m = .host ∨ m = .zone) ∧ c < 128 ∧ shouldEscape m c = true)) (s : Bytes) :
    unescape m (c :: s) = (unescape m s).map (c :: ·) := by
  rw [unescape.eq_def]
  simp only [if_neg hc, if_neg h]

theorem unescape_bad {m : Mode} {c : Byte} (hc : c ≠ c!"%") (h : (m = .host ∨ m = .zone) ∧ c < 128 ∧ shouldEscape m c = true) (s : Bytes) :
    unescape m (c :: s) = none := by
  rw [unescape.eq_def]
  simp only [if_neg hc, if_pos h]

theorem unescape_escape (m : Mode) (s r : Bytes) (hs : ∀ c ∈ s, Back m c) :
    unescape m (escape m s ++ r) = (unescape m r).map (s ++ ·) := by
  induction s with
  | nil => cases h : unescape m r <;> simp [escape, h]
  | cons c s ih =>
    have e : escape m (c :: s) ++ r = escapeByte m c ++ (escape m s ++ r) := by simp [escape]
    rw [e]
    have ih := ih fun x hx => hs x (by simp [hx])
    have hb := hs c (by simp)
    unfold escapeByte
    by_cases hc : shouldEscape m c = true
    · rw [if_pos hc]
      obtain ⟨h1, h2, h3⟩ := unhex_upperhex c
      simp only [List.cons_append, List.nil_append]
      rw [unescape, if_pos rfl]
      simp only [h1, h2, h3, hb hc, if_true, ih, Option.map_map]
      rfl
    · rw [if_neg hc]
      simp only [List.cons_append, List.nil_append]
      rw [unescape_plain (by rintro rfl; exact hc (shouldEscape_percent m)) (fun h => hc h.2.2), ih, Option.map_map]
      rfl

theorem unescape_escape' (m : Mode) (s : Bytes) (hs : ∀ c ∈ s, Back m c) : unescape m (escape m s) = some s := by
  have := unescape_escape m s [] hs
  simpa [unescape] using this

/-- What an escape may stand for. -/
theorem escapeOk_host : ∀ a b : Byte, ∀ x y : Byte, unhex a = some x → unhex b = some y → escapeOk .host a b (16 * x + y) = true →
    128 ≤ 16 * x + y ∨ (16 * x + y = c!"%" ∧ a = c!"2" ∧ b = c!"5") := by
  intro a b x y ha hb h
  simp only [escapeOk, Bool.or_eq_true, decide_eq_true_eq, Bool.and_eq_true, beq_iff_eq] at h
  rcases h with h | ⟨rfl, rfl⟩
  · exact .inl h
  · right
    have e1 : unhex c!"2" = some 2 := by decide
    have e2 : unhex c!"5" = some 5 := by decide
    rw [e1] at ha; rw [e2] at hb
    cases ha; cases hb
    decide

theorem escapeOk_zone : ∀ a b : Byte, ∀ x y : Byte, unhex a = some x → unhex b = some y → escapeOk .zone a b (16 * x + y) = true →
    16 * x + y = c!"%" ∨ 16 * x + y = c!" " ∨ shouldEscape .host (16 * x + y) = false := by
  intro a b x y ha hb h
  simp only [escapeOk, Bool.or_eq_true, Bool.and_eq_true, beq_iff_eq, Bool.not_eq_true'] at h
  rcases h with (⟨rfl, rfl⟩ | h) | h
  · left
    have e1 : unhex c!"2" = some 2 := by decide
    have e2 : unhex c!"5" = some 5 := by decide
    rw [e1] at ha; rw [e2] at hb
    cases ha; cases hb
    decide
  · exact .inr (.inl h)
  · exact .inr (.inr h)

/-- The cases of `unescape` on a text that is not empty. -/
theorem unescape_cons {m : Mode} {c : Byte} {s t : Bytes} (h : unescape m (c :: s) = some t) :
    (∃ a b r x y t', c = c!"%" ∧ s = a :: b :: r ∧ unhex a = some x ∧ unhex b = some y ∧ escapeOk m a b (16 * x + y) = true
      ∧ unescape m r = some t' ∧ t = (16 * x + y) :: t')
    ∨ (∃ t', c ≠ c!"%" ∧ ¬ ((m = .host ∨ m = .zone) ∧ c < 128 ∧ shouldEscape m c = true) ∧ unescape m s = some t' ∧ t = c :: t') := by
  rw [unescape.eq_def] at h
  simp only [] at h
  split at h
  · rename_i hc
    left
    split at h
    · rename_i a b r
      split at h
      · rename_i x y hx hy
        split at h
        · rename_i hok
          simp only [Option.map_eq_some_iff] at h
          obtain ⟨t', h1, h2⟩ := h
          exact ⟨a, b, r, x, y, t', hc, rfl, hx, hy, hok, h1, h2.symm⟩
        · simp at h
      · simp at h
    · simp at h
  · rename_i hc
    right
    split at h
    · simp at h
    · rename_i hn
      simp only [Option.map_eq_some_iff] at h
      obtain ⟨t', h1, h2⟩ := h
      exact ⟨t', hc, hn, h1, h2.symm⟩

/-- Induction along `unescape`. -/
theorem unescape_ind {m : Mode} {P : Bytes → Bytes → Prop} (nil : P [] [])
    (esc : ∀ a b r x y t, unhex a = some x → unhex b = some y → escapeOk m a b (16 * x + y) = true → unescape m r = some t → P r t →
      P (c!"%" :: a :: b :: r) ((16 * x + y) :: t))
    (plain : ∀ c s t, c ≠ c!"%" → ¬ ((m = .host ∨ m = .zone) ∧ c < 128 ∧ shouldEscape m c = true) → unescape m s = some t → P s t →
      P (c :: s) (c :: t)) :
    ∀ s t, unescape m s = some t → P s t := by
  intro s
  induction hn : s.length using Nat.strongRecOn generalizing s with
  | _ n ih =>
  intro t h
  match s, hn with
  | [], _ =>
    simp only [unescape, Option.some.injEq] at h
    rw [← h]; exact nil
  | c :: s, hn =>
    rcases unescape_cons h with ⟨a, b, r, x, y, t', rfl, rfl, h1, h2, h3, h4, rfl⟩ | ⟨t', h1, h2, h3, rfl⟩
    · exact esc a b r x y t' h1 h2 h3 h4 (ih r.length (by simp at hn; omega) r rfl t' h4)
    · exact plain c s t' h1 h2 h3 (ih s.length (by simp at hn; omega) s rfl t' h3)

theorem unescape_host_back (s t : Bytes) (h : unescape .host s = some t) : ∀ c ∈ t, Back .host c := by
  refine unescape_ind (P := fun _ t => ∀ c ∈ t, Back .host c) (by simp) ?_ ?_ s t h
  · intro a b r x y t ha hb hok _ ih c hc
    simp only [List.mem_cons] at hc
    rcases hc with rfl | hc
    · rw [back_host]
      intro _
      rcases escapeOk_host a b x y ha hb hok with h | h
      · exact .inl h
      · exact .inr h.1
    · exact ih c hc
  · intro c s t hc hn _ ih x hx
    simp only [List.mem_cons] at hx
    rcases hx with rfl | hx
    · rw [back_host]
      intro hs
      left
      simp only [hs, true_or, true_and, and_true] at hn
      exact UInt8.not_lt.mp hn
    · exact ih x hx

/-- What can be in a zone. -/
def ZoneByte (c : Byte) : Prop := shouldEscape .host c = true → 128 ≤ c ∨ c = c!" " ∨ c = c!"%"

theorem unescape_zone_bytes (s t : Bytes) (h : unescape .zone s = some t) : ∀ c ∈ t, ZoneByte c := by
  refine unescape_ind (P := fun _ t => ∀ c ∈ t, ZoneByte c) (by simp) ?_ ?_ s t h
  · intro a b r x y t ha hb hok _ ih c hc
    simp only [List.mem_cons] at hc
    rcases hc with rfl | hc
    · intro hs
      rcases escapeOk_zone a b x y ha hb hok with h | h | h
      · exact .inr (.inr h)
      · exact .inr (.inl h)
      · rw [hs] at h; simp at h
    · exact ih c hc
  · intro c s t hc hn _ ih x hx
    simp only [List.mem_cons] at hx
    rcases hx with rfl | hx
    · intro hs
      left
      simp only [shouldEscape_zone, hs, or_true, true_and, and_true] at hn
      exact UInt8.not_lt.mp hn
    · exact ih x hx

/-- Decoding a host brings in no ASCII bytes but the percent sign. -/
theorem unescape_host_mem (s t : Bytes) (h : unescape .host s = some t) : ∀ c ∈ t, c < 128 → c ≠ c!"%" → c ∈ s := by
  refine unescape_ind (P := fun s t => ∀ c ∈ t, c < 128 → c ≠ c!"%" → c ∈ s) (by simp) ?_ ?_ s t h
  · intro a b r x y t ha hb hok _ ih c hc h1 h2
    simp only [List.mem_cons] at hc
    rcases hc with rfl | hc
    · rcases escapeOk_host a b x y ha hb hok with h | h
      · exact absurd h1 (UInt8.not_lt.mpr h)
      · exact absurd h.1 h2
    · have := ih c hc h1 h2
      simp [this]
  · intro c s t hc hn _ ih x hx h1 h2
    simp only [List.mem_cons] at hx ⊢
    rcases hx with rfl | hx
    · exact .inl rfl
    · exact .inr (ih x hx h1 h2)

/-- A host without `%25` has no percent sign after decoding. -/
theorem unescape_host_percent (s t : Bytes) (h : unescape .host s = some t) : index s b!"%25" = none → c!"%" ∉ t := by
  refine unescape_ind (P := fun s t => index s b!"%25" = none → c!"%" ∉ t) (by simp) ?_ ?_ s t h
  · intro a b r x y t ha hb hok _ ih hi hm
    have hj := index_none hi
    simp only [List.mem_cons] at hm
    rcases hm with hm | hm
    · rcases escapeOk_host a b x y ha hb hok with h | ⟨_, rfl, rfl⟩
      · rw [← hm] at h; exact absurd h (by decide)
      · exact hj 0 (by simp) ⟨r, by simp⟩
    · refine ih ?_ hm
      cases hr : index r b!"%25" with
      | none => rfl
      | some i =>
        obtain ⟨p, q, rfl, rfl, _⟩ := index_some hr
        exact absurd ⟨q, by simp⟩ (hj (p.length + 3) (by simp))
  · intro c s t hc hn _ ih hi hm
    have hj := index_none hi
    simp only [List.mem_cons] at hm
    rcases hm with hm | hm
    · exact hc hm.symm
    · refine ih ?_ hm
      cases hr : index s b!"%25" with
      | none => rfl
      | some i =>
        obtain ⟨p, q, rfl, rfl, _⟩ := index_some hr
        exact absurd ⟨q, by simp⟩ (hj (p.length + 1) (by simp))

/-- A byte that is not part of an escape splits the text. -/
theorem unescape_split (m : Mode) (a b : Bytes) (c : Byte) (hx : unhex c = none) :
    unescape m (a ++ c :: b) = (unescape m a).bind fun x => (unescape m (c :: b)).map (x ++ ·) := by
  induction hn : a.length using Nat.strongRecOn generalizing a with
  | _ n ih =>
  match a, hn with
  | [], _ => simp [unescape]
  | d :: a, hn =>
    by_cases hd : d = c!"%"
    · subst hd
      match a, hn with
      | [], _ => cases b <;> simp [unescape, hx]
      | [x], _ => simp [unescape, hx]
      | x :: y :: r, hn =>
        simp only [List.cons_append]
        rw [unescape, if_pos rfl, unescape.eq_def m (c!"%" :: x :: y :: r)]
        simp only [if_true]
        cases unhex x with
        | none => simp
        | some x' =>
          cases unhex y with
          | none => simp
          | some y' =>
            simp only []
            split
            · rw [ih r.length (by simp at hn; omega) r rfl]
              cases unescape m r <;> simp
              cases unescape m (c :: b) <;> simp
            · simp
    · simp only [List.cons_append]
      by_cases hh : (m = .host ∨ m = .zone) ∧ d < 128 ∧ shouldEscape m d = true
      · rw [unescape_bad hd hh, unescape_bad hd hh]; rfl
      · rw [unescape_plain hd hh, unescape_plain hd hh, ih a.length (by simp at hn; omega) a rfl]
        cases unescape m a <;> simp
        cases unescape m (c :: b) <;> simp

/-! ## What an escaped text holds -/

theorem escape_append (m : Mode) (a b : Bytes) : escape m (a ++ b) = escape m a ++ escape m b := by simp [escape]

theorem escape_nil (m : Mode) : escape m [] = [] := rfl

theorem escape_id {m : Mode} {s : Bytes} (h : ∀ c ∈ s, shouldEscape m c = false) : escape m s = s := by
  induction s with
  | nil => rfl
  | cons c s ih =>
    have := ih fun x hx => h x (by simp [hx])
    unfold escape at this ⊢
    rw [List.flatMap_cons, this, escapeByte, h c (by simp)]
    rfl

/-- An escaped text holds percent signs, letters, digits, and bytes that need no escape. -/
theorem mem_escape {m : Mode} {s : Bytes} {c : Byte} (h : c ∈ escape m s) : c = c!"%" ∨ isAlnum c = true ∨ (c ∈ s ∧ shouldEscape m c = false) := by
  unfold escape at h
  rw [List.mem_flatMap] at h
  obtain ⟨d, hd, h⟩ := h
  unfold escapeByte at h
  split at h
  · obtain ⟨h1, h2⟩ := upperhex_ok d
    simp only [List.mem_cons, List.not_mem_nil, or_false] at h
    rcases h with rfl | rfl | rfl
    · exact .inl rfl
    · exact .inr (.inl h1)
    · exact .inr (.inl h2)
  · rename_i hn
    simp only [List.mem_cons, List.not_mem_nil, or_false] at h
    subst h
    exact .inr (.inr ⟨hd, by simpa using hn⟩)

theorem not_mem_escape {m : Mode} {s : Bytes} {c : Byte} (h1 : c ≠ c!"%") (h2 : isAlnum c = false) (h3 : shouldEscape m c = true ∨ c ∉ s) :
    c ∉ escape m s := by
  intro h
  rcases mem_escape h with h | h | ⟨h, h'⟩
  · exact h1 h
  · rw [h2] at h; simp at h
  · rcases h3 with h3 | h3
    · rw [h'] at h3; simp at h3
    · exact h3 h

theorem escape_head (m : Mode) (s : Bytes) (c : Byte) (h : (escape m s).head? = some c) : c = c!"%" ∨ s.head? = some c := by
  cases s with
  | nil => simp [escape] at h
  | cons d s =>
    simp only [escape, List.flatMap_cons, escapeByte] at h
    split at h
    · simp at h; exact .inl h.symm
    · simp at h; exact .inr (by simp [h])

theorem escape_ne_nil {m : Mode} {s : Bytes} (h : s ≠ []) : escape m s ≠ [] := by
  cases s with
  | nil => exact absurd rfl h
  | cons d s =>
    simp only [escape, List.flatMap_cons, escapeByte]
    split <;> simp

/-! ## Hosts -/

/-- The hosts a URL can have after parsing. -/
inductive GoHost : Bytes → Prop
  /-- A name without a port. -/
  | name (h : Bytes) (h1 : h.head? ≠ some c!"[") (h2 : c!":" ∉ h) (h3 : ∀ c ∈ h, Back .host c) : GoHost h
  /-- A name, a colon and digits. -/
  | port (a p : Bytes) (h1 : a.head? ≠ some c!"[") (h3 : ∀ c ∈ a, Back .host c) (h4 : p.all (fun d => c!"0" ≤ d && d ≤ c!"9") = true) :
      GoHost (a ++ c!":" :: p)
  /-- Something in brackets, with or without a port. -/
  | lit (a p : Bytes) (h2 : c!"%" ∉ a) (h3 : ∀ c ∈ a, Back .host c) (h4 : validOptionalPort p = true) :
      GoHost (c!"[" :: a ++ c!"]" :: p)
  /-- Something in brackets with a zone, with or without a port. -/
  | zone (a z p : Bytes) (h2 : c!"%" ∉ a) (h3 : ∀ c ∈ a, Back .host c) (h5 : ∀ c ∈ z, ZoneByte c) (h4 : validOptionalPort p = true) :
      GoHost (c!"[" :: a ++ c!"%" :: z ++ c!"]" :: p)

theorem digit_ok : ∀ c : Byte, (c!"0" ≤ c && c ≤ c!"9") = true → shouldEscape .host c = false ∧ c ≠ c!"%" ∧ c ≠ c!":" ∧ c ≠ c!"]" := by
  apply forall_byte; decide +kernel

theorem unescape_id {m : Mode} {s : Bytes} (h : ∀ c ∈ s, shouldEscape m c = false) : unescape m s = some s := by
  have := unescape_escape' m s fun c hc hs => by rw [h c hc] at hs; simp at hs
  rwa [escape_id h] at this

theorem port_plain {p : Bytes} (h : validOptionalPort p = true) : (∀ c ∈ p, shouldEscape .host c = false) ∧ c!"]" ∉ p ∧ c!"%" ∉ p := by
  unfold validOptionalPort at h
  split at h
  · simp
  · rename_i c r
    simp only [Bool.and_eq_true, beq_iff_eq, List.all_eq_true] at h
    obtain ⟨rfl, h⟩ := h
    refine ⟨?_, ?_, ?_⟩
    · intro c hc
      simp only [List.mem_cons] at hc
      rcases hc with rfl | hc
      · decide
      · exact (digit_ok c (by simpa using h c hc)).1
    · simp only [List.mem_cons, not_or]
      exact ⟨by decide, fun hm => (digit_ok _ (by simpa using h _ hm)).2.2.2 rfl⟩
    · simp only [List.mem_cons, not_or]
      exact ⟨by decide, fun hm => (digit_ok _ (by simpa using h _ hm)).2.1 rfl⟩

theorem unescape_head {s t : Bytes} (h : unescape .host s = some t) {c : Byte} (h1 : t.head? = some c) (h2 : c < 128) (h3 : c ≠ c!"%") :
    s.head? = some c := by
  cases s with
  | nil => simp [unescape] at h; subst h; simp at h1
  | cons d s =>
    rcases unescape_cons h with ⟨a, b, r, x, y, t', rfl, rfl, e1, e2, e3, e4, rfl⟩ | ⟨t', e1, e2, e3, rfl⟩
    · simp only [List.head?_cons, Option.some.injEq] at h1
      rcases escapeOk_host a b x y e1 e2 e3 with h | h
      · rw [h1] at h; exact absurd h2 (UInt8.not_lt.mpr h)
      · rw [h1] at h; exact absurd h.1 h3
    · simpa using h1

theorem drop_after {x b : Bytes} {c : Byte} : (x ++ c :: b).drop (x.length + 1) = b := by
  rw [show x ++ c :: b = (x ++ [c]) ++ b by simp]
  exact List.drop_left' (by simp)

theorem parseHost_good {s h : Bytes} (hp : parseHost s = some h) : GoHost h := by
  unfold parseHost at hp
  split at hp
  · rename_i hb
    obtain ⟨s', rfl⟩ : ∃ s', s = c!"[" :: s' := by
      cases s with
      | nil => simp at hb
      | cons d s => simp at hb; exact ⟨s, by rw [hb]⟩
    split at hp
    · simp at hp
    · rename_i i hi
      obtain ⟨a, b, e1, e2, e3⟩ := lastIndexByte_some hi
      obtain ⟨a, rfl⟩ : ∃ a', a = c!"[" :: a' := by
        cases a with
        | nil => simp at e1
        | cons d a => simp at e1; exact ⟨a, by rw [e1.1]⟩
      rw [e1] at hp hi
      subst e3
      rw [drop_after, List.take_left' rfl, List.drop_left' rfl] at hp
      split at hp
      · rename_i hv
        have hport := unescape_id (m := .host) (s := c!"]" :: b) (by
          intro c hc
          simp only [List.mem_cons] at hc
          rcases hc with rfl | hc
          · decide
          · exact (port_plain hv).1 c hc)
        split at hp
        · rename_i z hz
          obtain ⟨A, B, f1, f2, f3⟩ := index_some hz
          subst f2
          rw [f1, hport] at hp
          rw [show A ++ b!"%25" ++ B ++ c!"]" :: b = A ++ (b!"%25" ++ B ++ c!"]" :: b) by simp, List.take_left' rfl,
            show A ++ b!"%25" ++ B = A ++ (b!"%25" ++ B) by simp, List.drop_left' rfl] at hp
          obtain ⟨A, rfl⟩ : ∃ A', A = c!"[" :: A' := by
            cases A with
            | nil => simp at f1
            | cons d A => simp at f1; exact ⟨A, by rw [f1.1]⟩
          have hA : index (c!"[" :: A) b!"%25" = none := by
            cases hr : index (c!"[" :: A) b!"%25" with
            | none => rfl
            | some i =>
              obtain ⟨q, w, g1, g2, _⟩ := index_some hr
              refine absurd ?_ (f3 i ?_)
              · rw [f1, g1, ← g2, show q ++ b!"%25" ++ w ++ b!"%25" ++ B = q ++ (b!"%25" ++ (w ++ b!"%25" ++ B)) by simp, List.drop_left' rfl]
                exact ⟨_, rfl⟩
              · rw [g1, ← g2]; simp
          split at hp
          · rename_i x y w hx hy hw
            cases hw
            cases hp
            have hno := unescape_host_percent _ _ hx hA
            have hback := unescape_host_back _ _ hx
            rw [unescape_plain (by decide) (by decide), Option.map_eq_some_iff] at hx
            obtain ⟨x, hx, rfl⟩ := hx
            have hzone : ∃ y', y = c!"%" :: y' ∧ unescape .zone B = some y' := by
              have e : unescape .zone (b!"%25" ++ B) = (unescape .zone B).map (c!"%" :: ·) := by
                rw [show b!"%25" ++ B = c!"%" :: c!"2" :: c!"5" :: B from rfl, unescape.eq_def]
                simp only [if_true]
                rfl
              rw [e, Option.map_eq_some_iff] at hy
              obtain ⟨y', g1, g2⟩ := hy
              exact ⟨y', g2.symm, g1⟩
            obtain ⟨y, rfl, hy'⟩ := hzone
            exact .zone x y b (fun h => hno (by simp [h])) (fun c hc => hback c (by simp [hc])) (unescape_zone_bytes _ _ hy') hv
          · simp at hp
        · rename_i hz
          rw [unescape_split _ _ _ _ (by decide), hport] at hp
          cases ha : unescape .host (c!"[" :: a) with
          | none => simp [ha] at hp
          | some x =>
            simp only [ha, Option.bind_some, Option.map_some, Option.some.injEq] at hp
            subst hp
            have hno := unescape_host_percent _ _ ha hz
            have hback := unescape_host_back _ _ ha
            rw [unescape_plain (by decide) (by decide), Option.map_eq_some_iff] at ha
            obtain ⟨x, ha, rfl⟩ := ha
            exact .lit x b (fun h => hno (by simp [h])) (fun c hc => hback c (by simp [hc])) hv
      · simp at hp
  · rename_i hb
    split at hp
    · rename_i i hi
      obtain ⟨a, b, rfl, e2, e3⟩ := lastIndexByte_some hi
      subst e3
      split at hp
      · rename_i hv
        rw [List.drop_left' rfl] at hv
        rw [unescape_split _ _ _ _ (by decide), unescape_id (port_plain hv).1] at hp
        cases ha : unescape .host a with
        | none => simp [ha] at hp
        | some a' =>
          simp [ha] at hp
          subst hp
          refine .port a' b ?_ (unescape_host_back _ _ ha) ?_
          · intro e
            have := unescape_head ha e (by decide) (by decide)
            refine hb ?_
            cases a with
            | nil => simp at this
            | cons d a => simpa using this
          · simpa [validOptionalPort] using hv
      · simp at hp
    · rename_i hn
      rw [lastIndexByte_none] at hn
      exact .name h (fun e => hb (unescape_head hp e (by decide) (by decide)))
        (fun e => hn (unescape_host_mem _ _ hp _ e (by decide) (by decide))) (unescape_host_back _ _ hp)

theorem high_hex : ∀ c : Byte, (128 ≤ c → upperhex (c / 16) ≠ c!"2") ∧ upperhex (c / 16) ≠ c!"%" ∧ upperhex (c % 16) ≠ c!"%" := by
  apply forall_byte; decide +kernel

/-- The escaped bytes of a host without a percent sign hold no `%25`. -/
theorem no_percent (a : Bytes) (h1 : c!"%" ∉ a) (h2 : ∀ c ∈ a, Back .host c) (r : Bytes) :
    ∀ j < (escape .host a).length, ¬ b!"%25" <+: (escape .host a ++ r).drop j := by
  induction a with
  | nil => simp [escape]
  | cons c a ih =>
    have ih := ih (fun h => h1 (by simp [h])) (fun x hx => h2 x (by simp [hx]))
    have hb := (back_host c).mp (h2 c (by simp))
    have hc : c ≠ c!"%" := fun h => h1 (by simp [h])
    obtain ⟨g1, g2, g3⟩ := high_hex c
    rw [show escape .host (c :: a) = escapeByte .host c ++ escape .host a by simp [escape]]
    unfold escapeByte
    split
    · rename_i hs
      have hx := g1 ((hb hs).resolve_right hc)
      intro j hj hp
      match j with
      | 0 => simp at hp; exact hx hp.1.symm
      | 1 => simp at hp; exact g2 hp.1.symm
      | 2 => simp at hp; exact g3 hp.1.symm
      | j + 3 =>
        simp only [List.cons_append, List.nil_append, List.drop_succ_cons, List.length_cons] at hp hj
        exact ih j (by omega) hp
    · intro j hj hp
      match j with
      | 0 => simp at hp; exact hc hp.1.symm
      | j + 1 =>
        simp only [List.cons_append, List.nil_append, List.drop_succ_cons, List.length_cons] at hp hj
        exact ih j (by omega) hp

/-- No byte above 127 after a percent sign. -/
def AsciiZone (h : Bytes) : Prop := ∀ a b, h = a ++ c!"%" :: b → ∀ c ∈ b, c < 128

theorem unescape_escape_bad (m : Mode) (s r : Bytes) (hs : ∃ c ∈ s, ¬ Back m c) : unescape m (escape m s ++ r) = none := by
  induction s with
  | nil => simp at hs
  | cons c s ih =>
    have e : escape m (c :: s) ++ r = escapeByte m c ++ (escape m s ++ r) := by simp [escape]
    rw [e]
    unfold escapeByte
    by_cases hc : shouldEscape m c = true
    · rw [if_pos hc]
      obtain ⟨h1, h2, h3⟩ := unhex_upperhex c
      simp only [List.cons_append, List.nil_append]
      rw [unescape, if_pos rfl]
      simp only [h1, h2, h3]
      split
      · rename_i hok
        obtain ⟨x, hx, hx'⟩ := hs
        simp only [List.mem_cons] at hx
        rcases hx with rfl | hx
        · exact absurd (fun _ => hok) hx'
        · rw [ih ⟨x, hx, hx'⟩]; rfl
      · rfl
    · rw [if_neg hc]
      simp only [List.cons_append, List.nil_append]
      obtain ⟨x, hx, hx'⟩ := hs
      simp only [List.mem_cons] at hx
      rcases hx with rfl | hx
      · exact absurd (fun h => absurd h hc) hx'
      · rw [unescape_plain (by rintro rfl; exact hc (shouldEscape_percent m)) (fun h => hc h.2.2), ih ⟨x, hx, hx'⟩]; rfl

theorem host_colon : escape .host b!":" = b!":" ∧ escape .host b!"[" = b!"[" ∧ escape .host b!"]" = b!"]" ∧ escape .host b!"%" = b!"%25" := by
  decide +kernel

theorem escape_cons (m : Mode) (c : Byte) (s : Bytes) : escape m (c :: s) = escape m [c] ++ escape m s := by simp [escape]

theorem zone_back {z : Bytes} (h5 : ∀ c ∈ z, ZoneByte c) (h6 : ∀ c ∈ z, c < 128) : ∀ c ∈ z, Back .zone c := by
  intro c hc
  rw [back_zone]
  intro hs
  exact (h5 c hc hs).resolve_left (UInt8.not_le.mpr (h6 c hc))

theorem zone_parse (a z p : Bytes) (h2 : c!"%" ∉ a) (h3 : ∀ c ∈ a, Back .host c) (h4 : validOptionalPort p = true) :
    parseHost (escape .host (c!"[" :: a ++ c!"%" :: z ++ c!"]" :: p)) =
      (unescape .zone (escape .zone z)).map fun y => c!"[" :: a ++ c!"%" :: y ++ c!"]" :: p := by
  obtain ⟨p1, p2, p3⟩ := port_plain h4
  have e : escape .host (c!"[" :: a ++ c!"%" :: z ++ c!"]" :: p)
      = (c!"[" :: escape .host a ++ (b!"%25" ++ escape .zone z)) ++ c!"]" :: p := by
    obtain ⟨_, q1, q2, q3⟩ := host_colon
    rw [List.append_assoc, List.append_assoc, List.cons_append, escape_cons, escape_append, List.cons_append, escape_cons _ c!"%", escape_append,
      escape_cons _ c!"]", q1, q2, q3, escape_id p1, escape_zone]
    simp
  rw [e]
  unfold parseHost
  rw [if_pos (by simp), lastIndexByte_append p2]
  simp only []
  rw [drop_after, if_pos h4, List.take_left' rfl, List.drop_left' rfl]
  have hi : index (c!"[" :: escape .host a ++ (b!"%25" ++ escape .zone z)) b!"%25" = some (c!"[" :: escape .host a).length := by
    refine index_eq ?_ (by simp) ?_
    · rw [List.drop_left' rfl]; exact ⟨_, rfl⟩
    · intro j hj hp
      match j with
      | 0 => simp at hp
      | j + 1 =>
        simp only [List.cons_append, List.drop_succ_cons, List.length_cons] at hp hj
        exact no_percent a h2 h3 _ j (by omega) hp
  rw [hi]
  simp only []
  rw [List.drop_left' rfl, List.append_assoc (c!"[" :: escape .host a), List.take_left' rfl]
  have e1 : unescape .host (c!"[" :: escape .host a) = some (c!"[" :: a) := by
    rw [unescape_plain (by decide) (by decide), unescape_escape' _ _ h3]; rfl
  have e2 : unescape .zone (b!"%25" ++ escape .zone z) = (unescape .zone (escape .zone z)).map (c!"%" :: ·) := by
    rw [show b!"%25" ++ escape .zone z = c!"%" :: c!"2" :: c!"5" :: escape .zone z from rfl, unescape.eq_def]
    simp only [if_true]
    rfl
  have e3 : unescape .host (c!"]" :: p) = some (c!"]" :: p) := by
    rw [unescape_plain (by decide) (by decide), unescape_id p1]; rfl
  rw [e1, e2, e3]
  cases unescape .zone (escape .zone z) <;> simp

/-- The host of a parsed URL is read back from its escaped form, unless it has a zone with a byte above 127. -/
theorem parseHost_escape {h : Bytes} (g : GoHost h) : (parseHost (escape .host h) = some h ∨ parseHost (escape .host h) = none) ∧
    (parseHost (escape .host h) = some h ↔ (h.head? = some c!"[" → AsciiZone h)) := by
  cases g with
  | name _ h1 h2 h3 =>
    have : parseHost (escape .host h) = some h := by
      unfold parseHost
      rw [if_neg, lastIndexByte_none.mpr (not_mem_escape (by decide) (by decide) (.inr h2))]
      · exact unescape_escape' _ _ h3
      · intro e
        rcases escape_head _ _ _ e with e | e
        · exact absurd e (by decide)
        · exact h1 e
    exact ⟨.inl this, fun _ h => absurd h h1, fun _ => this⟩
  | port a p h1 h3 h4 =>
    have hv : validOptionalPort (c!":" :: p) = true := by simpa [validOptionalPort] using h4
    obtain ⟨p1, p2, p3⟩ := port_plain hv
    have hh : (a ++ c!":" :: p).head? ≠ some c!"[" := by
      cases a with
      | nil => simp
      | cons d a => simpa using h1
    have hcol : c!":" ∉ p := by
      intro hm
      rw [List.all_eq_true] at h4
      exact (digit_ok _ (h4 _ hm)).2.2.1 rfl
    have : parseHost (escape .host (a ++ c!":" :: p)) = some (a ++ c!":" :: p) := by
      unfold parseHost
      rw [if_neg]
      · rw [escape_append, escape_id p1, lastIndexByte_append hcol]
        simp only []
        rw [List.drop_left' rfl, if_pos hv, unescape_escape _ _ _ h3, unescape_id p1]
        rfl
      · intro e
        rcases escape_head _ _ _ e with e | e
        · exact absurd e (by decide)
        · exact hh e
    exact ⟨.inl this, fun _ h => absurd h hh, fun _ => this⟩
  | lit a p h2 h3 h4 =>
    obtain ⟨p1, p2, p3⟩ := port_plain h4
    have : parseHost (escape .host (c!"[" :: a ++ c!"]" :: p)) = some (c!"[" :: a ++ c!"]" :: p) := by
      have e : escape .host (c!"[" :: a ++ c!"]" :: p) = c!"[" :: escape .host a ++ c!"]" :: p := by
        obtain ⟨_, q1, q2, q3⟩ := host_colon
        rw [List.cons_append, escape_cons, escape_append, escape_cons _ c!"]", q1, q2, escape_id p1]
        simp
      rw [e]
      unfold parseHost
      rw [if_pos (by simp), lastIndexByte_append p2]
      simp only []
      rw [drop_after, if_pos h4, List.take_left' rfl, List.drop_left' rfl]
      have hi : index (c!"[" :: escape .host a) b!"%25" = none := by
        cases hr : index (c!"[" :: escape .host a) b!"%25" with
        | none => rfl
        | some i =>
          obtain ⟨q, w, g1, g2, _⟩ := index_some hr
          cases q with
          | nil => simp at g1
          | cons d q =>
            simp only [List.cons_append, List.cons.injEq] at g1
            refine absurd ?_ (no_percent a h2 h3 [] q.length (by rw [g1.2]; simp))
            rw [List.append_nil, g1.2, List.append_assoc, List.drop_left' rfl]
            exact ⟨_, rfl⟩
      rw [hi]
      simp only []
      have hpl : ∀ c ∈ c!"]" :: p, shouldEscape .host c = false := by
        intro c hc
        simp only [List.mem_cons] at hc
        rcases hc with rfl | hc
        · decide
        · exact p1 c hc
      rw [List.cons_append, unescape_plain (by decide) (by decide), unescape_escape _ _ _ h3, unescape_id hpl]
      rfl
    refine ⟨.inl this, fun _ _ a' b e => ?_, fun _ => this⟩
    exfalso
    have hm : c!"%" ∈ c!"[" :: a ++ c!"]" :: p := by rw [e]; simp
    simp only [List.cons_append, List.mem_cons, List.mem_append] at hm
    rcases hm with hm | hm | hm | hm
    · exact absurd hm (by decide)
    · exact h2 hm
    · exact absurd hm (by decide)
    · exact p3 hm
  | zone a z p h2 h3 h5 h4 =>
    rw [zone_parse a z p h2 h3 h4]
    obtain ⟨p1, p2, p3⟩ := port_plain h4
    by_cases hz : ∀ c ∈ z, c < 128
    · rw [unescape_escape' _ _ (zone_back h5 hz)]
      refine ⟨.inl rfl, fun _ _ a' b e => ?_, fun _ => rfl⟩
      have hp : ∀ c ∈ p, c < 128 := by
        intro c hc
        have : ∀ c : Byte, shouldEscape .host c = false → c < 128 := by apply forall_byte; decide +kernel
        exact this c (p1 c hc)
      intro c hc
      have hlen : a.length + 1 ≤ a'.length := by
        have hidx := e
        by_cases hl : a.length + 1 ≤ a'.length
        · exact hl
        · exfalso
          have : a' <+: c!"[" :: a := by
            refine List.prefix_of_prefix_length_le (l₃ := c!"[" :: a ++ c!"%" :: z ++ c!"]" :: p) ?_ ?_ (by simp; omega)
            · rw [e]; exact ⟨_, rfl⟩
            · exact ⟨c!"%" :: z ++ c!"]" :: p, by simp⟩
          obtain ⟨t, ht⟩ := this
          rw [← ht] at e
          simp only [List.append_assoc, List.append_cancel_left_eq] at e
          cases t with
          | nil =>
            have := congrArg List.length ht
            simp at this
            omega
          | cons d t =>
            simp only [List.cons_append, List.cons.injEq] at e
            cases a' with
            | nil =>
              simp at ht
              rw [ht.1] at e
              exact absurd e.1 (by decide)
            | cons d' a' =>
              simp only [List.cons_append, List.cons.injEq] at ht
              exact h2 (by rw [← ht.2]; simp [e.1])
      have : c ∈ z ++ c!"]" :: p := by
        have h1 : (c!"[" :: a ++ c!"%" :: z ++ c!"]" :: p).drop (a'.length + 1) = b := by rw [e]; exact drop_after
        have h2 : (c!"[" :: a ++ c!"%" :: z ++ c!"]" :: p).drop (a.length + 2) = z ++ c!"]" :: p := by
          rw [show c!"[" :: a ++ c!"%" :: z ++ c!"]" :: p = (c!"[" :: a) ++ c!"%" :: (z ++ c!"]" :: p) by simp]
          exact drop_after
        have h3 : b = (z ++ c!"]" :: p).drop (a'.length - (a.length + 1)) := by
          rw [← h1, ← h2, List.drop_drop]
          congr 1; omega
        rw [h3] at hc
        exact List.mem_of_mem_drop hc
      simp only [List.mem_append, List.mem_cons] at this
      rcases this with h | rfl | h
      · exact hz c h
      · decide
      · exact hp c h
    · have : ∃ c ∈ z, ¬ Back .zone c := by
        simp only [Classical.not_forall] at hz
        obtain ⟨c, hc, hn⟩ := hz
        refine ⟨c, hc, fun hb => ?_⟩
        rw [back_zone] at hb
        have hh : ∀ c : Byte, ¬ c < 128 → shouldEscape .host c = true ∧ c ≠ c!" " ∧ c ≠ c!"%" := by apply forall_byte; decide +kernel
        obtain ⟨g1, g2, g3⟩ := hh c hn
        rcases hb g1 with h | h
        · exact g2 h
        · exact g3 h
      have e := unescape_escape_bad .zone z [] this
      rw [List.append_nil] at e
      rw [e]
      refine ⟨.inr rfl, fun h => by simp at h, fun h => ?_⟩
      exfalso
      refine hz fun c hc => h (by simp) (c!"[" :: a) (z ++ c!"]" :: p) (by simp) c (by simp [hc])

/-! ## Paths and fragments -/

/-- A byte that `Parse` refuses everywhere but in the fragment. -/
def ctl (c : Byte) : Bool := c < 32 || c == 127

/-- What an escaped path or fragment can hold. -/
def okByte (m : Mode) (c : Byte) : Bool := c ∈ b!"!$&'()*+,;=:@[]%" || !shouldEscape m c

theorem alnum_ok (m : Mode) : ∀ c : Byte, isAlnum c = true → shouldEscape m c = false := by
  cases m <;> apply forall_byte <;> decide +kernel

theorem escape_valid (m : Mode) (s : Bytes) : validEncoded m (escape m s) = true := by
  unfold validEncoded
  rw [List.all_eq_true]
  intro c hc
  rcases mem_escape hc with rfl | h | ⟨_, h⟩
  · simp
  · simp [alnum_ok m c h]
  · simp [h]

theorem escapedPath_valid (u : URL) : validEncoded .path u.escapedPath = true := by
  unfold URL.escapedPath
  split
  · rename_i h; exact h.2.1
  · split
    · decide
    · exact escape_valid _ _

theorem escapedPath_back (u : URL) : unescape .path u.escapedPath = some u.path := by
  unfold URL.escapedPath
  split
  · rename_i h; exact h.2.2
  · split
    · rename_i h; rw [h]; decide
    · exact unescape_escape' _ _ fun c _ => back_path c

theorem escapedFragment_back (u : URL) : unescape .fragment u.escapedFragment = some u.fragment := by
  unfold URL.escapedFragment
  split
  · rename_i h; exact h.2.2
  · exact unescape_escape' _ _ fun c _ => back_fragment c

theorem escapedFragment_valid (u : URL) : validEncoded .fragment u.escapedFragment = true := by
  unfold URL.escapedFragment
  split
  · rename_i h; exact h.2.1
  · exact escape_valid _ _

theorem path_bytes : ∀ c : Byte, okByte .path c = true → c ≠ c!"?" ∧ c ≠ c!"#" ∧ ctl c = false := by
  apply forall_byte; decide +kernel

/-- The escaped path is written again as it was read. -/
theorem setPath_again (u : URL) (v : URL) (hs : u.path ≠ b!"*") :
    ∃ r, v.setPath u.escapedPath = some { v with path := u.path, rawPath := r } ∧ (r = [] ∨ r = u.escapedPath) ∧
      ∀ w : URL, w.path = u.path → w.rawPath = r → w.escapedPath = u.escapedPath := by
  refine ⟨if u.escapedPath = escape .path u.path then [] else u.escapedPath, ?_, ?_, ?_⟩
  · unfold URL.setPath
    rw [escapedPath_back]
  · split
    · exact .inl rfl
    · exact .inr rfl
  · intro w h1 h2
    split at h2
    · rename_i he
      rw [URL.escapedPath.eq_def w, h2, if_neg (by simp), h1, if_neg hs]
      exact he.symm
    · rename_i he
      have hne : u.escapedPath ≠ [] := by
        intro e
        have := escapedPath_back u
        rw [e] at this
        simp only [unescape, Option.some.injEq] at this
        rw [e, ← this] at he
        exact he rfl
      rw [URL.escapedPath, h2, if_pos ⟨hne, escapedPath_valid u, by rw [escapedPath_back, h1]⟩]

/-- The escaped fragment is written again as it was read. -/
theorem setFragment_again (u : URL) (v : URL) :
    ∃ r, v.setFragment u.escapedFragment = some { v with fragment := u.fragment, rawFragment := r } ∧
      ∀ w : URL, w.fragment = u.fragment → w.rawFragment = r → w.escapedFragment = u.escapedFragment := by
  refine ⟨if u.escapedFragment = escape .fragment u.fragment then [] else u.escapedFragment, ?_, ?_⟩
  · unfold URL.setFragment
    rw [escapedFragment_back]
  · intro w h1 h2
    split at h2
    · rename_i he
      unfold URL.escapedFragment
      rw [h2, if_neg (by simp), h1]
      exact he.symm
    · rename_i he
      have hne : u.escapedFragment ≠ [] := by
        intro e
        have := escapedFragment_back u
        rw [e] at this
        simp only [unescape, Option.some.injEq] at this
        rw [e, ← this] at he
        exact he rfl
      rw [URL.escapedFragment, h2, if_pos ⟨hne, escapedFragment_valid u, by rw [escapedFragment_back, h1]⟩]

/-! ## The authority -/

/-- The text before the host. -/
def userPart (u : Option (Bytes × Option Bytes)) : Bytes :=
  match u with
  | some x => userText x ++ b!"@"
  | none => []

theorem user_bytes : ∀ c : Byte, (c = c!"%" ∨ isAlnum c = true ∨ shouldEscape .userPassword c = false) →
    (isAlnum c || c ∈ b!"-._:~!$&'()*+,;=%@") = true ∧ c ≠ c!"/" ∧ c ≠ c!"?" ∧ c ≠ c!"#" ∧ c ≠ c!":" ∧ c ≠ c!"@" ∧ ctl c = false := by
  apply forall_byte; decide +kernel

theorem host_bytes : ∀ c : Byte, (c = c!"%" ∨ isAlnum c = true ∨ shouldEscape .host c = false) →
    c ≠ c!"/" ∧ c ≠ c!"?" ∧ c ≠ c!"#" ∧ c ≠ c!"@" ∧ ctl c = false := by
  apply forall_byte; decide +kernel

theorem mem_escape' {m : Mode} {s : Bytes} {c : Byte} (h : c ∈ escape m s) : c = c!"%" ∨ isAlnum c = true ∨ shouldEscape m c = false := by
  rcases mem_escape h with h | h | ⟨_, h⟩
  · exact .inl h
  · exact .inr (.inl h)
  · exact .inr (.inr h)

theorem userText_bytes (x : Bytes × Option Bytes) : ∀ c ∈ userText x,
    (isAlnum c || c ∈ b!"-._:~!$&'()*+,;=%@") = true ∧ c ≠ c!"/" ∧ c ≠ c!"?" ∧ c ≠ c!"#" ∧ c ≠ c!"@" ∧ ctl c = false := by
  intro c hc
  unfold userText at hc
  have key : ∀ s, c ∈ escape .userPassword s → (isAlnum c || c ∈ b!"-._:~!$&'()*+,;=%@") = true ∧ c ≠ c!"/" ∧ c ≠ c!"?" ∧ c ≠ c!"#"
      ∧ c ≠ c!"@" ∧ ctl c = false := by
    intro s hs
    obtain ⟨h1, h2, h3, h4, h5, h6, h7⟩ := user_bytes c (mem_escape' hs)
    exact ⟨h1, h2, h3, h4, h6, h7⟩
  rw [List.mem_append] at hc
  rcases hc with hc | hc
  · exact key _ hc
  · split at hc
    · simp only [List.cons_append, List.nil_append, List.mem_cons] at hc
      rcases hc with rfl | hc
      · decide
      · exact key _ hc
    · simp at hc

theorem authority_bytes (u : Option (Bytes × Option Bytes)) (h : Bytes) : ∀ c ∈ userPart u ++ escape .host h,
    c ≠ c!"/" ∧ c ≠ c!"?" ∧ c ≠ c!"#" ∧ ctl c = false := by
  intro c hc
  rw [List.mem_append] at hc
  rcases hc with hc | hc
  · unfold userPart at hc
    split at hc
    · rw [List.mem_append] at hc
      rcases hc with hc | hc
      · obtain ⟨_, h1, h2, h3, _, h5⟩ := userText_bytes _ c hc
        exact ⟨h1, h2, h3, h5⟩
      · simp at hc; subst hc; decide
    · simp at hc
  · obtain ⟨h1, h2, h3, _, h5⟩ := host_bytes c (mem_escape' hc)
    exact ⟨h1, h2, h3, h5⟩

theorem parseAuthority_again (u : Option (Bytes × Option Bytes)) (h : Bytes) :
    parseAuthority (userPart u ++ escape .host h) = (parseHost (escape .host h)).map (u, ·) := by
  have hat : c!"@" ∉ escape .host h := fun hm => (host_bytes _ (mem_escape' hm)).2.2.2.1 rfl
  cases u with
  | none =>
    simp only [userPart, List.nil_append]
    unfold parseAuthority
    rw [lastIndexByte_none.mpr hat]
  | some x =>
    have e : userPart (some x) ++ escape .host h = userText x ++ c!"@" :: escape .host h := by simp [userPart]
    rw [e]
    unfold parseAuthority
    rw [lastIndexByte_append hat]
    simp only []
    rw [drop_after, List.take_left' rfl]
    cases hp : parseHost (escape .host h) with
    | none => rfl
    | some g =>
      simp only []
      rw [if_pos]
      · have hcol : c!":" ∉ escape .userPassword x.1 := fun hm => (user_bytes _ (mem_escape' hm)).2.2.2.2.1 rfl
        have hu : ∀ s, unescape .userPassword (escape .userPassword s) = some s := fun s => unescape_escape' _ _ fun c _ => back_user c
        obtain ⟨n, p⟩ := x
        cases p with
        | none =>
          simp only [userText, List.append_nil]
          unfold cut
          rw [indexByte_none.mpr hcol]
          simp only [hu, Option.map_some]
        | some p =>
          simp only [userText, List.cons_append, List.nil_append]
          unfold cut
          rw [indexByte_append hcol]
          simp only [drop_after, List.take_left' rfl, hu, Option.map_some]
      · unfold validUserinfo
        rw [List.all_eq_true]
        intro c hc
        exact (userText_bytes x c hc).1

/-! ## The whole URL -/

/-- What a parsed URL with a host looks like, apart from its scheme. -/
structure Parsed (u : URL) : Prop where
  opaq : u.opaq = []
  host : GoHost u.host
  nonempty : u.host ≠ []
  path : u.path = [] ∨ u.path.head? = some c!"/"
  rawPath : u.rawPath = [] ∨ u.rawPath.head? = some c!"/"
  query : c!"#" ∉ u.rawQuery ∧ ∀ c ∈ u.rawQuery, ctl c = false
  force : u.forceQuery = true → u.rawQuery = []

/-- The text of a query. -/
def queryPart (u : URL) : Bytes := if u.forceQuery = true ∨ u.rawQuery ≠ [] then b!"?" ++ u.rawQuery else []

/-- The text of a fragment. -/
def fragmentPart (u : URL) : Bytes := if u.fragment ≠ [] then b!"#" ++ u.escapedFragment else []

theorem escapedPath_head {u : URL} (h : u.path = [] ∨ u.path.head? = some c!"/") (h' : u.rawPath = [] ∨ u.rawPath.head? = some c!"/") :
    u.escapedPath = [] ∨ u.escapedPath.head? = some c!"/" := by
  unfold URL.escapedPath
  split
  · exact h'
  · split
    · rename_i e; rw [e] at h; simp at h
    · rcases h with h | h
      · rw [h]; exact .inl rfl
      · cases hp : u.path with
        | nil => simp [hp] at h
        | cons c s =>
          rw [hp] at h
          simp at h
          subst h
          right
          rw [escape_cons]
          rfl

theorem string_eq {u : URL} (hs : u.scheme ≠ []) (p : Parsed u) :
    u.string = u.scheme ++ c!":" :: (b!"//" ++ (userPart u.user ++ escape .host u.host) ++ u.escapedPath ++ queryPart u) ++ fragmentPart u := by
  unfold URL.string
  rw [if_neg (by simp [p.opaq])]
  have hm : u.mainText = u.scheme ++ c!":" :: (b!"//" ++ (userPart u.user ++ escape .host u.host) ++ u.escapedPath) := by
    unfold URL.mainText
    simp only [if_pos hs]
    rw [if_pos ⟨.inl hs, fun h => p.nonempty h.2.1⟩, if_pos (.inl p.nonempty), if_neg]
    · rw [if_neg]
      · simp [userPart]
        cases u.user <;> rfl
      · simp [hs]
    · rintro ⟨h1, h2, _⟩
      rcases escapedPath_head p.path p.rawPath with h | h
      · exact h1 h
      · exact h2 h
  rw [hm]
  unfold queryPart fragmentPart
  simp only [List.append_assoc, List.cons_append, List.nil_append]

/-- The schemes of hub addresses. -/
def schemes : List Bytes := [b!"adc", b!"adcs", b!"dchub", b!"nmdcs", b!"nmdc"]

theorem schemeLen_ok {s : Bytes} (h : s ∈ schemes) (r : Bytes) : schemeLen (s ++ c!":" :: r) 0 = .ok (some s.length) := by
  simp only [schemes, List.mem_cons, List.not_mem_nil, or_false] at h
  rcases h with rfl | rfl | rfl | rfl | rfl <;> simp [schemeLen]

theorem scheme_bytes {s : Bytes} (h : s ∈ schemes) : lower s = s ∧ s ≠ [] ∧ ∀ c ∈ s, c ≠ c!"#" ∧ ctl c = false := by
  simp only [schemes, List.mem_cons, List.not_mem_nil, or_false] at h
  rcases h with rfl | rfl | rfl | rfl | rfl <;> decide

theorem getLast?_mem {s : Bytes} {c : Byte} (h : s.getLast? = some c) : c ∈ s := List.mem_of_getLast? h

/-- The part after the scheme and before the query. -/
theorem parseRest_again {u v : URL} (p : Parsed u) (hv : v.scheme ≠ []) :
    parseRest v (b!"//" ++ (userPart u.user ++ escape .host u.host) ++ u.escapedPath) =
      (parseHost (escape .host u.host)).bind fun h => { v with user := u.user, host := h }.setPath u.escapedPath := by
  unfold parseRest
  rw [if_neg (by simp), if_neg (by simp), if_pos ⟨by simp [hasPrefix], .inl hv⟩]
  simp only [List.append_assoc, List.cons_append, List.nil_append, List.drop_succ_cons, List.drop_zero]
  have hA := authority_bytes u.user u.host
  have hsl : c!"/" ∉ userPart u.user ++ escape .host u.host := fun h => (hA _ h).1 rfl
  have hau := parseAuthority_again u.user u.host
  rw [← List.append_assoc]
  generalize hA' : userPart u.user ++ escape .host u.host = A at hsl hau
  rcases escapedPath_head p.path p.rawPath with h | h
  · rw [h, List.append_nil, indexByte_none.mpr hsl]
    simp only []
    rw [hau]
    cases parseHost (escape .host u.host) <;> rfl
  · cases hE : u.escapedPath with
    | nil => simp [hE] at h
    | cons c E =>
      rw [hE] at h
      simp at h
      subst h
      rw [indexByte_append hsl]
      simp only []
      rw [List.take_left' rfl, List.drop_left' rfl, hau]
      cases parseHost (escape .host u.host) <;> rfl

/-- The text of a parsed URL, parsed again: all as before, only the raw forms may differ, and the text is the same; or the host is refused. -/
theorem parse_string {u : URL} (hs : u.scheme ∈ schemes) (p : Parsed u) :
    (parseHost (escape .host u.host) = none → parse u.string = none) ∧
    (parseHost (escape .host u.host) = some u.host → ∃ v, parse u.string = some v ∧ v.scheme = u.scheme ∧ v.user = u.user ∧ v.host = u.host ∧
      v.path = u.path ∧ v.rawQuery = u.rawQuery ∧ v.forceQuery = u.forceQuery ∧ v.fragment = u.fragment ∧ v.string = u.string) := by
  obtain ⟨s1, s2, s3⟩ := scheme_bytes hs
  have hA := authority_bytes u.user u.host
  have hP : ∀ c ∈ u.escapedPath, c ≠ c!"?" ∧ c ≠ c!"#" ∧ ctl c = false := by
    intro c hc
    have := escapedPath_valid u
    unfold validEncoded at this
    rw [List.all_eq_true] at this
    exact path_bytes c (this c hc)
  have hQ : ∀ c ∈ queryPart u, c ≠ c!"#" ∧ ctl c = false := by
    intro c hc
    unfold queryPart at hc
    split at hc
    · simp only [List.cons_append, List.nil_append, List.mem_cons] at hc
      rcases hc with rfl | hc
      · decide
      · exact ⟨fun h => p.query.1 (h ▸ hc), p.query.2 c hc⟩
    · simp at hc
  have hpath : u.path ≠ b!"*" := by
    intro h
    have := p.path
    rw [h] at this
    simp at this
  rw [string_eq s2 p]
  generalize hR : b!"//" ++ (userPart u.user ++ escape .host u.host) ++ u.escapedPath = R
  have hRb : ∀ c ∈ R, c ≠ c!"?" ∧ c ≠ c!"#" ∧ ctl c = false := by
    intro c hc
    rw [← hR, List.mem_append, List.mem_append] at hc
    rcases hc with (hc | hc) | hc
    · simp at hc; subst hc; decide
    · exact (hA c hc).2
    · exact hP c hc
  -- everything before the fragment
  have hmain : parseMain (u.scheme ++ c!":" :: (R ++ queryPart u)) =
      parseRest { URL.empty with scheme := u.scheme, rawQuery := u.rawQuery, forceQuery := u.forceQuery } R := by
    unfold parseMain
    rw [if_neg, if_neg, schemeLen_ok hs]
    · simp only []
      rw [List.take_left' rfl, s1, drop_after]
      have hq : c!"?" ∉ R := fun h => (hRb _ h).1 rfl
      unfold queryPart
      by_cases hf : u.forceQuery = true
      · rw [p.force hf, hf]
        simp only [true_or, if_true, List.append_nil]
        rw [if_pos]
        · simp [URL.empty]
        · refine ⟨by simp, ?_⟩
          rw [List.count_append, List.count_eq_zero.mpr hq]
          rfl
      · simp only [hf, false_or, Bool.false_eq_true]
        by_cases hq0 : u.rawQuery = []
        · rw [hq0]
          simp only [ne_eq, not_true_eq_false, if_false, List.append_nil]
          rw [if_neg (fun h => hq (getLast?_mem h.1))]
          unfold cut
          rw [indexByte_none.mpr hq]
          simp [URL.empty]
        · rw [if_pos hq0, if_neg]
          · unfold cut
            rw [show R ++ (b!"?" ++ u.rawQuery) = R ++ c!"?" :: u.rawQuery from rfl, indexByte_append hq]
            simp only [drop_after, List.take_left' rfl, Option.getD_some]
            simp [URL.empty]
          · rintro ⟨h1, h2⟩
            have hm : c!"?" ∈ u.rawQuery := by
              rw [← List.append_assoc, List.getLast?_append] at h1
              cases hl : u.rawQuery.getLast? with
              | none => exact absurd (List.getLast?_eq_none_iff.mp hl) hq0
              | some d =>
                rw [hl] at h1
                simp at h1
                exact h1 ▸ getLast?_mem hl
            have := List.count_pos_iff.mpr hm
            rw [List.count_append, List.count_append] at h2
            simp at h2
            omega
    · intro h
      have := congrArg List.head? h
      simp only [schemes, List.mem_cons, List.not_mem_nil, or_false] at hs
      rcases hs with hs | hs | hs | hs | hs <;> rw [hs] at this <;> simp at this
    · simp only [List.any_eq_true, not_exists, not_and]
      intro c hc
      rw [List.mem_append] at hc
      have : ctl c = false := by
        rcases hc with hc | hc
        · exact (s3 c hc).2
        · rw [List.mem_cons] at hc
          rcases hc with rfl | hc
          · decide
          · rw [List.mem_append] at hc
            rcases hc with hc | hc
            · exact (hRb c hc).2.2
            · exact (hQ c hc).2
      unfold ctl at this
      simp [this]
  have hhash : c!"#" ∉ u.scheme ++ c!":" :: (R ++ queryPart u) := by
    intro hc
    rw [List.mem_append] at hc
    rcases hc with hc | hc
    · exact (s3 _ hc).1 rfl
    · rw [List.mem_cons] at hc
      rcases hc with hc | hc
      · exact absurd hc (by decide)
      · rw [List.mem_append] at hc
        rcases hc with hc | hc
        · exact (hRb _ hc).2.1 rfl
        · exact (hQ _ hc).1 rfl
  have hparse : parse (u.scheme ++ c!":" :: (R ++ queryPart u) ++ fragmentPart u) =
      (parseRest { URL.empty with scheme := u.scheme, rawQuery := u.rawQuery, forceQuery := u.forceQuery } R).bind fun v =>
        if u.fragment = [] then some v else v.setFragment u.escapedFragment := by
    unfold parse fragmentPart
    by_cases hf : u.fragment = []
    · simp only [hf, ne_eq, not_true_eq_false, if_false, List.append_nil]
      unfold cut
      rw [indexByte_none.mpr hhash]
      simp only []
      rw [hmain]
      cases parseRest { URL.empty with scheme := u.scheme, rawQuery := u.rawQuery, forceQuery := u.forceQuery } R <;> simp
    · rw [if_pos hf]
      have hef : u.escapedFragment ≠ [] := by
        intro e
        have := escapedFragment_back u
        rw [e] at this
        simp [unescape] at this
        exact hf this
      unfold cut
      rw [show ∀ x : Bytes, x ++ (b!"#" ++ u.escapedFragment) = x ++ c!"#" :: u.escapedFragment from fun _ => rfl, indexByte_append hhash]
      simp only [drop_after, List.take_left' rfl, Option.getD_some]
      rw [hmain]
      cases parseRest { URL.empty with scheme := u.scheme, rawQuery := u.rawQuery, forceQuery := u.forceQuery } R <;> simp [hf, hef]
  have hsch : { URL.empty with scheme := u.scheme, rawQuery := u.rawQuery, forceQuery := u.forceQuery }.scheme ≠ [] := s2
  rw [hparse, ← hR, parseRest_again p hsch]
  refine ⟨fun hn => by rw [hn]; rfl, fun hok => ?_⟩
  rw [hok, Option.bind_some]
  obtain ⟨r, q1, q2, q3⟩ := setPath_again u
    { URL.empty with scheme := u.scheme, rawQuery := u.rawQuery, forceQuery := u.forceQuery, user := u.user, host := u.host } hpath
  rw [q1, Option.bind_some]
  have final : ∀ v : URL, v.opaq = [] → v.scheme = u.scheme → v.user = u.user → v.host = u.host → v.path = u.path → v.rawPath = r →
      v.rawQuery = u.rawQuery → v.forceQuery = u.forceQuery → v.fragment = u.fragment → (u.fragment ≠ [] → v.escapedFragment = u.escapedFragment) →
      v.string = u.scheme ++ c!":" :: (b!"//" ++ (userPart u.user ++ escape .host u.host) ++ u.escapedPath ++ queryPart u) ++ fragmentPart u := by
    intro v e0 e1 e2 e3 e4 e5 e6 e7 e8 e9
    rw [string_eq (by rw [e1]; exact s2)
      ⟨e0, by rw [e3]; exact p.host, by rw [e3]; exact p.nonempty, by rw [e4]; exact p.path, ?_, by rw [e6]; exact p.query, by rw [e6, e7]; exact p.force⟩]
    · rw [e1, e2, e3, q3 v e4 e5]
      unfold queryPart fragmentPart
      rw [e6, e7, e8]
      split
      · split
        · rename_i hf; rw [e9 hf]
        · rfl
      · split
        · rename_i hf; rw [e9 hf]
        · rfl
    · rw [e5]
      rcases q2 with q2 | q2
      · exact .inl q2
      · rw [q2]; exact escapedPath_head p.path p.rawPath
  by_cases hf : u.fragment = []
  · rw [if_pos hf]
    refine ⟨_, rfl, rfl, rfl, rfl, rfl, rfl, rfl, hf.symm, ?_⟩
    exact final _ rfl rfl rfl rfl rfl rfl rfl rfl hf.symm fun h => absurd hf h
  · rw [if_neg hf]
    obtain ⟨f, w1, w2⟩ := setFragment_again u
      { URL.empty with scheme := u.scheme, rawQuery := u.rawQuery, forceQuery := u.forceQuery, user := u.user, host := u.host,
                       path := u.path, rawPath := r }
    rw [w1]
    refine ⟨_, rfl, rfl, rfl, rfl, rfl, rfl, rfl, rfl, ?_⟩
    exact final _ rfl rfl rfl rfl rfl rfl rfl rfl rfl fun _ => w2 _ rfl rfl

theorem cut_some {s a : Bytes} {c : Byte} {b : Option Bytes} (h : cut s c = (a, b)) :
    (b = none ∧ a = s ∧ c ∉ s) ∨ ∃ r, b = some r ∧ s = a ++ c :: r ∧ c ∉ a := by
  unfold cut at h
  split at h
  · rename_i hn
    cases h
    exact .inl ⟨rfl, rfl, indexByte_none.mp hn⟩
  · rename_i i hi
    obtain ⟨x, y, rfl, h1, rfl⟩ := indexByte_some hi
    rw [drop_after, List.take_left' rfl] at h
    cases h
    exact .inr ⟨y, rfl, rfl, h1⟩

theorem parseAuthority_host {a h : Bytes} {x : Option (Bytes × Option Bytes)} (hp : parseAuthority a = some (x, h)) : GoHost h := by
  unfold parseAuthority at hp
  split at hp
  · rw [Option.map_eq_some_iff] at hp
    obtain ⟨g, h1, h2⟩ := hp
    cases h2
    exact parseHost_good h1
  · split at hp
    · simp at hp
    · rename_i g hg
      split at hp
      · split at hp
        · rw [Option.map_eq_some_iff] at hp
          obtain ⟨n, _, h2⟩ := hp
          cases h2
          exact parseHost_good hg
        · split at hp
          · cases hp
            exact parseHost_good hg
          · simp at hp
      · simp at hp

theorem setPath_facts {u v : URL} {p : Bytes} (hp : p = [] ∨ p.head? = some c!"/") (h : u.setPath p = some v) :
    ∃ path raw, v = { u with path := path, rawPath := raw } ∧ (path = [] ∨ path.head? = some c!"/") ∧ (raw = [] ∨ raw.head? = some c!"/") := by
  unfold URL.setPath at h
  split at h
  · simp at h
  · rename_i path hpath
    cases h
    refine ⟨_, _, rfl, ?_, ?_⟩
    · rcases hp with rfl | hp
      · simp only [unescape, Option.some.injEq] at hpath; exact .inl hpath.symm
      · right
        cases p with
        | nil => simp at hp
        | cons c p =>
          simp at hp
          subst hp
          rw [unescape_plain (by decide) (by decide), Option.map_eq_some_iff] at hpath
          obtain ⟨t, _, rfl⟩ := hpath
          rfl
    · split
      · exact .inl rfl
      · exact hp

/-- What the last part of `parse` leaves: the query as it was, and what `Parsed` says about the rest. -/
theorem parseRest_facts {u v : URL} {rest : Bytes} (h : parseRest u rest = some v) (h0 : u.host = []) (h1 : u.opaq = []) (hh : v.host ≠ []) :
    v.opaq = [] ∧ GoHost v.host ∧ (v.path = [] ∨ v.path.head? = some c!"/") ∧ (v.rawPath = [] ∨ v.rawPath.head? = some c!"/") ∧
      v.rawQuery = u.rawQuery ∧ v.forceQuery = u.forceQuery ∧ v.scheme = u.scheme := by
  unfold parseRest at h
  split at h
  · cases h; exact absurd h0 hh
  · split at h
    · simp at h
    · split at h
      · have fin : ∀ auth path : Bytes, (path = [] ∨ path.head? = some c!"/") →
            (∃ user host, parseAuthority auth = some (user, host) ∧ { u with user := user, host := host }.setPath path = some v) →
            v.opaq = [] ∧ GoHost v.host ∧ (v.path = [] ∨ v.path.head? = some c!"/") ∧ (v.rawPath = [] ∨ v.rawPath.head? = some c!"/") ∧
              v.rawQuery = u.rawQuery ∧ v.forceQuery = u.forceQuery ∧ v.scheme = u.scheme := by
          rintro auth path hpath ⟨user, host, hau, h⟩
          obtain ⟨p, raw, rfl, g1, g2⟩ := setPath_facts hpath h
          exact ⟨h1, parseAuthority_host hau, g1, g2, rfl, rfl, rfl⟩
        cases hi : indexByte (rest.drop 2) c!"/" with
        | none =>
          simp only [hi] at h
          split at h
          · simp at h
          · rename_i user host hau
            exact fin _ [] (.inl rfl) ⟨user, host, hau, h⟩
        | some i =>
          simp only [hi] at h
          obtain ⟨x, y, e1, _, e2⟩ := indexByte_some hi
          split at h
          · simp at h
          · rename_i user host hau
            refine fin _ _ (.inr ?_) ⟨user, host, hau, h⟩
            rw [e1, ← e2, List.drop_left' rfl]
            rfl
      · exfalso
        unfold URL.setPath at h
        split at h
        · simp at h
        · cases h; exact hh h0

/-- What `Parse` gives when there is a host. -/
theorem parse_facts {s : Bytes} {u : URL} (h : parse s = some u) (hh : u.host ≠ []) : Parsed u := by
  unfold parse at h
  split at h
  rename_i s' f hcut
  have hs' : c!"#" ∉ s' := by
    rcases cut_some hcut with ⟨_, rfl, h⟩ | ⟨_, _, _, h⟩ <;> exact h
  split at h
  · simp at h
  · rename_i w hw
    have key : w.host ≠ [] → Parsed w := by
      intro hwh
      unfold parseMain at hw
      split at hw
      · simp at hw
      · rename_i hctl
        split at hw
        · cases hw; exact absurd rfl hwh
        · split at hw
          · simp at hw
          · rename_i n hn
            have fin : ∀ scheme rest : Bytes, (∀ c ∈ rest, c ∈ s') →
                (if rest.getLast? = some c!"?" ∧ rest.count c!"?" = 1 then
                    parseRest { { URL.empty with scheme := scheme } with forceQuery := true } rest.dropLast
                  else parseRest { { URL.empty with scheme := scheme } with rawQuery := (cut rest c!"?").2.getD [] } (cut rest c!"?").1) = some w →
                Parsed w := by
              intro scheme rest hrest hw
              split at hw
              · obtain ⟨f1, f2, f3, f4, f5, f6, _⟩ := parseRest_facts hw rfl rfl hwh
                refine ⟨f1, f2, hwh, f3, f4, ?_, ?_⟩
                · rw [f5]; simp [URL.empty]
                · rw [f5]; intro _; rfl
              · obtain ⟨f1, f2, f3, f4, f5, f6, _⟩ := parseRest_facts hw rfl rfl hwh
                refine ⟨f1, f2, hwh, f3, f4, ?_, ?_⟩
                · rw [f5]
                  have hmem : ∀ c ∈ (cut rest c!"?").2.getD [], c ∈ s' := by
                    intro c hc
                    rcases cut_some (s := rest) (c := c!"?") (a := (cut rest c!"?").1) (b := (cut rest c!"?").2) rfl with ⟨e, _, _⟩ | ⟨r, e, e', _⟩
                    · rw [e] at hc; simp at hc
                    · refine hrest c ?_
                      rw [e] at hc
                      rw [e']
                      simp at hc
                      simp [hc]
                  refine ⟨fun hm => hs' (hmem _ hm), fun c hc => ?_⟩
                  simp only [List.any_eq_true, not_exists, not_and] at hctl
                  have := hctl c (hmem c hc)
                  unfold ctl
                  simpa using this
                · rw [f6]; simp [URL.empty]
            cases n with
            | none => exact fin _ _ (fun c hc => hc) hw
            | some n => exact fin _ _ (fun c hc => List.mem_of_mem_drop hc) hw
    split at h
    · cases h; exact key hh
    · unfold URL.setFragment at h
      split at h
      · simp at h
      · cases h
        obtain ⟨k1, k2, k3, k4, k5, k6, k7⟩ := key hh
        exact ⟨k1, k2, k3, k4, k5, k6, k7⟩

/-! ## Where the host comes from -/

theorem unescape_no_percent {m : Mode} {s t : Bytes} (h : unescape m s = some t) (hp : c!"%" ∉ s) : t = s := by
  refine unescape_ind (P := fun s t => c!"%" ∉ s → t = s) (fun _ => rfl) ?_ ?_ s t h hp
  · intro a b r x y t _ _ _ _ _ hp; simp at hp
  · intro c s t _ _ _ ih hp
    rw [ih (fun h => hp (by simp [h]))]

theorem parseHost_no_percent {s h : Bytes} (hp : parseHost s = some h) (hn : c!"%" ∉ s) : h = s := by
  unfold parseHost at hp
  split at hp
  · split at hp
    · simp at hp
    · rename_i i _
      split at hp
      · split at hp
        · rename_i z hz
          exfalso
          obtain ⟨a, b, e, _⟩ := index_some hz
          refine hn (List.mem_of_mem_take (i := i) ?_)
          rw [e]; simp
        · exact unescape_no_percent hp hn
      · simp at hp
  · split at hp
    · split at hp
      · exact unescape_no_percent hp hn
      · simp at hp
    · exact unescape_no_percent hp hn

theorem parseAuthority_from {a h : Bytes} {x : Option (Bytes × Option Bytes)} (hp : parseAuthority a = some (x, h)) :
    ∃ b, (∀ c ∈ b, c ∈ a) ∧ parseHost b = some h := by
  unfold parseAuthority at hp
  split at hp
  · rw [Option.map_eq_some_iff] at hp
    obtain ⟨g, h1, h2⟩ := hp
    cases h2
    exact ⟨a, fun c hc => hc, h1⟩
  · split at hp
    · simp at hp
    · rename_i g hg
      split at hp
      · split at hp
        · rw [Option.map_eq_some_iff] at hp
          obtain ⟨n, _, h2⟩ := hp
          cases h2
          exact ⟨_, fun c hc => List.mem_of_mem_drop hc, hg⟩
        · split at hp
          · cases hp
            exact ⟨_, fun c hc => List.mem_of_mem_drop hc, hg⟩
          · simp at hp
      · simp at hp

theorem parseRest_from {u v : URL} {rest : Bytes} (h : parseRest u rest = some v) (h0 : u.host = []) (hh : v.host ≠ []) :
    b!"//" <+: rest ∧ v.scheme = u.scheme ∧ ∃ b, (∀ c ∈ b, c ∈ rest) ∧ parseHost b = some v.host := by
  unfold parseRest at h
  split at h
  · cases h; exact absurd h0 hh
  · split at h
    · simp at h
    · split at h
      · rename_i hpre
        have fin : ∀ auth path : Bytes, (∀ c ∈ auth, c ∈ rest) →
            (∃ user host, parseAuthority auth = some (user, host) ∧ { u with user := user, host := host }.setPath path = some v) →
            b!"//" <+: rest ∧ v.scheme = u.scheme ∧ ∃ b, (∀ c ∈ b, c ∈ rest) ∧ parseHost b = some v.host := by
          rintro auth path hmem ⟨user, host, hau, h⟩
          unfold URL.setPath at h
          split at h
          · simp at h
          · cases h
            obtain ⟨b, h1, h2⟩ := parseAuthority_from hau
            exact ⟨hasPrefix_iff.mp hpre.1, rfl, b, fun c hc => hmem c (h1 c hc), h2⟩
        cases hi : indexByte (rest.drop 2) c!"/" with
        | none =>
          simp only [hi] at h
          split at h
          · simp at h
          · rename_i user host hau
            exact fin _ [] (fun c hc => List.mem_of_mem_drop hc) ⟨user, host, hau, h⟩
        | some i =>
          simp only [hi] at h
          split at h
          · simp at h
          · rename_i user host hau
            exact fin _ _ (fun c hc => List.mem_of_mem_drop (List.mem_of_mem_take hc)) ⟨user, host, hau, h⟩
      · exfalso
        unfold URL.setPath at h
        split at h
        · simp at h
        · cases h; exact hh h0

theorem schemeLen_some {s : Bytes} {i n : Nat} (h : schemeLen s i = .ok (some n)) : ∃ a b, s = a ++ c!":" :: b ∧ a.length + i = n := by
  induction s generalizing i with
  | nil => simp [schemeLen] at h
  | cons c s ih =>
    unfold schemeLen at h
    have step : schemeLen s (i + 1) = .ok (some n) → ∃ a b, c :: s = a ++ c!":" :: b ∧ a.length + i = n := by
      intro h
      obtain ⟨a, b, rfl, h2⟩ := ih h
      exact ⟨c :: a, b, by simp, by simp; omega⟩
    split at h
    · exact step h
    · split at h
      · split at h
        · simp at h
        · exact step h
      · split at h
        · rename_i hc
          split at h
          · simp at h
          · simp at h
            exact ⟨[], s, by simp [hc], by simpa using h⟩
        · simp at h

/-- A URL with a scheme and a host has `://` in its text, and its host is in the text unless the text has a percent sign. -/
theorem parse_from {s : Bytes} {u : URL} (h : parse s = some u) (hh : u.host ≠ []) :
    (u.scheme ≠ [] → ∃ a b, s = a ++ b!"://" ++ b) ∧ (c!"%" ∉ s → c!"%" ∉ u.host) := by
  unfold parse at h
  split at h
  rename_i s' f hcut
  obtain ⟨t, ht⟩ : ∃ t, s = s' ++ t := by
    rcases cut_some hcut with ⟨_, rfl, h⟩ | ⟨r, _, h, _⟩
    · exact ⟨[], by simp⟩
    · exact ⟨_, h⟩
  split at h
  · simp at h
  · rename_i w hw
    have key : w.host ≠ [] → (w.scheme ≠ [] → ∃ a b, s = a ++ b!"://" ++ b) ∧ (c!"%" ∉ s → c!"%" ∉ w.host) := by
      intro hwh
      unfold parseMain at hw
      split at hw
      · simp at hw
      · split at hw
        · cases hw; exact absurd rfl hwh
        · split at hw
          · simp at hw
          · rename_i n hn
            have fin : ∀ scheme rest : Bytes, (∀ c ∈ rest, c ∈ s') → (scheme ≠ [] → ∃ a, s' = a ++ c!":" :: rest) →
                (if rest.getLast? = some c!"?" ∧ rest.count c!"?" = 1 then
                    parseRest { { URL.empty with scheme := scheme } with forceQuery := true } rest.dropLast
                  else parseRest { { URL.empty with scheme := scheme } with rawQuery := (cut rest c!"?").2.getD [] } (cut rest c!"?").1) = some w →
                (w.scheme ≠ [] → ∃ a b, s = a ++ b!"://" ++ b) ∧ (c!"%" ∉ s → c!"%" ∉ w.host) := by
              intro scheme rest hrest hcolon hw
              have main : ∀ rest', (∃ t, rest = rest' ++ t) →
                  (b!"//" <+: rest' ∧ w.scheme = scheme ∧ ∃ b, (∀ c ∈ b, c ∈ rest') ∧ parseHost b = some w.host) →
                  (w.scheme ≠ [] → ∃ a b, s = a ++ b!"://" ++ b) ∧ (c!"%" ∉ s → c!"%" ∉ w.host) := by
                rintro rest' ⟨t', e⟩ ⟨⟨y, g1⟩, g2, b, g3, g4⟩
                constructor
                · intro hsch
                  rw [g2] at hsch
                  obtain ⟨a, ha⟩ := hcolon hsch
                  exact ⟨a, y ++ t' ++ t, by rw [ht, ha, e, ← g1]; simp⟩
                · intro hp
                  have hb : c!"%" ∉ b := by
                    intro hm
                    refine hp ?_
                    rw [ht, List.mem_append]
                    left
                    refine hrest _ ?_
                    rw [e, List.mem_append]
                    exact .inl (g3 _ hm)
                  rw [parseHost_no_percent g4 hb]
                  exact hb
              split at hw
              · rename_i hl
                refine main _ ?_ (parseRest_from hw rfl hwh)
                have hne : rest ≠ [] := by rintro rfl; simp at hl
                exact ⟨[rest.getLast hne], (List.dropLast_concat_getLast hne).symm⟩
              · refine main _ ?_ (parseRest_from hw rfl hwh)
                rcases cut_some (s := rest) (c := c!"?") (a := (cut rest c!"?").1) (b := (cut rest c!"?").2) rfl with ⟨_, e, _⟩ | ⟨r, _, e', _⟩
                · exact ⟨[], by rw [e]; simp⟩
                · exact ⟨_, e'⟩
            cases n with
            | none => exact fin _ _ (fun c hc => hc) (fun h => absurd rfl h) hw
            | some n =>
              refine fin _ _ (fun c hc => List.mem_of_mem_drop hc) (fun _ => ?_) hw
              obtain ⟨a, b, e1, e2⟩ := schemeLen_some hn
              refine ⟨a, ?_⟩
              rw [e1, show n = a.length by omega, drop_after]
    split at h
    · cases h; exact key hh
    · unfold URL.setFragment at h
      split at h
      · simp at h
      · cases h
        exact key hh

end Verif.Go.Url
