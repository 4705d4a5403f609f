import Verif.Spec.NmdcBack
import Verif.Nmdc.ReadsLemmas
import Verif.Nmdc.FormLemmas
import Verif.Adc.WireLemmas
import Verif.Nmdc.SearchLemmas

/-!
# What comes back of an escaped text
-/

namespace Verif.Nmdc

open Verif.Go Verif.Spec Verif.Spec.NmdcWire Verif.Spec.NmdcReads

theorem legacy_length {d t : Bytes} (h : Legacy d t) : t.length ≤ d.length := by
  induction h with
  | nil => exact Nat.le_refl _
  | @code k c s t he _ ih =>
    have : ∀ e ∈ legacyCodes, 1 ≤ e.1.length := by decide
    have := this _ he
    simp only [List.length_cons, List.length_append] at *
    omega
  | other _ _ ih => simp only [List.length_cons]; omega

/-- Only a text without old escape sequences is left as it is. -/
theorem legacy_same {d : Bytes} : Legacy d d ↔ ∀ e ∈ legacyCodes, Absent e.1 d := by
  constructor
  · intro h
    have main : ∀ d t : Bytes, Legacy d t → t.length = d.length → ∀ e ∈ legacyCodes, Absent e.1 d := by
      intro d t h
      induction h with
      | nil =>
        intro _ e he a b hab
        have : ∀ e ∈ legacyCodes, 1 ≤ e.1.length := by decide
        have := this e he
        have hlen := congrArg List.length hab
        simp at hlen
        omega
      | @code k c s t he h ih =>
        intro hl
        have : ∀ e ∈ legacyCodes, 2 ≤ e.1.length := by decide
        have := this _ he
        have := legacy_length h
        simp only [List.length_cons, List.length_append] at *
        omega
      | @other c s t hc h ih =>
        intro hl e he a b hab
        have ih := ih (by simpa using hl) e he
        cases a with
        | nil => exact hc e he ⟨b, by simpa using hab⟩
        | cons x a =>
          simp only [List.cons_append, List.cons.injEq] at hab
          exact ih a b hab.2
    exact main d d h rfl
  · intro h
    induction d with
    | nil => exact .nil
    | cons c d ih =>
      refine .other (fun e he ⟨r, hr⟩ => h e he [] r (by simpa using hr)) (ih (fun e he a b hab => ?_))
      exact h e he (c :: a) b (by simp [hab])

theorem legacy_skip {v s t : Bytes} (hv : c!"/" ∉ v) (h : Legacy s t) : Legacy (v ++ s) (v ++ t) := by
  induction v with
  | nil => exact h
  | cons x v ih =>
    simp only [List.mem_cons, not_or] at hv
    refine .other (fun e he ⟨r, hr⟩ => ?_) (ih hv.2)
    have : ∀ e ∈ legacyCodes, e.1.head? = some c!"/" := by decide
    have := this e he
    have h2 := congrArg List.head? hr
    rw [List.head?_append, this] at h2
    simp only [List.head?_cons, Option.some_or, Option.some.injEq] at h2
    exact hv.1 h2.symm

section
variable [HtmlEntities]

/-- The sequences in an escaped text are those in the text. -/
theorem legacy_escaped {tbl : Byte → Option Bytes} (ht : GoodTable tbl) (hn : ∀ b ∈ b!"/%DCN0123456789", tbl b = none) {s t : Bytes}
    (h : Legacy s t) : ∃ u, Legacy (escWith tbl s) u ∧ htmlUnescape u = t := by
  induction h with
  | nil => exact ⟨[], .nil, rfl⟩
  | @code k c s t he _ ih =>
    obtain ⟨u, h1, h2⟩ := ih
    have hk : escWith tbl k = k := by
      have hk : ∀ e ∈ legacyCodes, ∀ b ∈ e.1, b ∈ b!"/%DCN0123456789" := by decide
      have hk := hk _ he
      generalize k = k at hk
      induction k with
      | nil => rfl
      | cons x k ihk =>
        rw [escWith_cons, hn x (hk x (by simp)), ihk (fun b hb => hk b (by simp [hb]))]
        rfl
    have hc : c ≠ c!"&" := by
      have : ∀ e ∈ legacyCodes, e.2 ≠ c!"&" := by decide
      exact this _ he
    refine ⟨c :: u, ?_, by rw [htmlUnescape_cons hc, h2]⟩
    rw [escWith_append, hk]
    exact .code he h1
  | @other c s t hc _ ih =>
    obtain ⟨u, h1, h2⟩ := ih
    rw [escWith_cons]
    cases htb : tbl c with
    | none =>
      have hb : c ≠ c!"&" := by rintro rfl; exact ht.amp htb
      refine ⟨c :: u, .other (fun e he hp => hc e he ?_) h1, by rw [htmlUnescape_cons hb, h2]⟩
      have hamp : ∀ e ∈ legacyCodes, c!"&" ∉ e.1 := by decide
      have : e.1 <+: escWith tbl (c :: s) := by
        obtain ⟨r, hr⟩ := hp
        exact ⟨r, by rw [escWith_cons, htb]; exact hr.symm⟩
      obtain ⟨r, hr⟩ := prefix_escWith ht (hamp e he) this
      exact ⟨r, hr.symm⟩
    | some v =>
      refine ⟨v ++ u, legacy_skip (ht.noSlash c v htb) h1, ?_⟩
      rw [ht.unescape c v htb, h2]

/-- What an escaped text is decoded to. -/
theorem decoded_escaped {tbl : Byte → Option Bytes} (ht : GoodTable tbl) (hn : ∀ b ∈ b!"/%DCN0123456789", tbl b = none) {s x : Bytes} :
    Decoded none (escWith tbl s) x ↔ Legacy s x ∧ IsUtf8 x := by
  obtain ⟨u, h1, h2⟩ := legacy_escaped ht hn (legacy_total s)
  unfold Decoded Recoded
  simp only
  constructor
  · rintro ⟨t, h3, rfl, h4⟩
    have : t = u := by rw [legacy_iff] at h1 h3; rw [← h1, ← h3]
    subst this
    rw [h2] at h4 ⊢
    exact ⟨legacy_total s, h4⟩
  · rintro ⟨h3, h4⟩
    refine ⟨u, h1, ?_, h4⟩
    rw [h2]; exact (legacy_iff.mp h3).symm

theorem decoded_text {s x : Bytes} : Decoded none (escText s) x ↔ Legacy s x ∧ IsUtf8 x := by
  rw [escText_eq]; exact decoded_escaped goodString (by decide)

theorem decoded_name {s x : Bytes} : Decoded none (escName s) x ↔ Legacy s x ∧ IsUtf8 x := by
  rw [escName_eq]; exact decoded_escaped goodName (by decide)

/-- A text comes back. -/
theorem text_back {s w : Bytes} (hw : WritesText none s w) : ReadsText none w s ↔ NmdcBack.Text s := by
  obtain ⟨e, he, h0, rfl⟩ := hw
  cases he
  have hz : (0 : Byte) ∉ escText s := by
    rw [escText_eq]
    intro h
    exact (str_marshal_clean (enc := none) (str_marshal_ok.mpr ⟨s, rfl, h0, rfl⟩) 0 h).2.2 rfl
  simp only [ReadsText, decoded_text, legacy_same, NmdcBack.Text, hz, h0, not_false_eq_true, true_and]
  exact and_comm

/-- A name comes back. -/
theorem name_back {s w : Bytes} (hw : Piece.Writes none (.name s) w) : ReadsName none w s ↔ NmdcBack.Name s := by
  obtain ⟨hl, e, he, h0, rfl⟩ := hw
  cases he
  have hz : ∀ b ∈ escName s, b ∉ b!"$\x00\r\n\t" := by
    rw [escName_eq]
    have := name_marshal_clean (enc := none) (name_marshal_ok.mpr ⟨hl, s, rfl, fun b hb => (badName_iff b).mp (h0 b hb), rfl⟩)
    intro b hb
    have := this b hb
    simp [this]
  simp only [ReadsName, decoded_name, legacy_same, NmdcBack.Name]
  constructor
  · rintro ⟨h1, -, h2, h3⟩; exact ⟨h0, h3, h2, h1⟩
  · rintro ⟨-, h1, h2, h3⟩; exact ⟨h3, hz, h2, h1⟩

/-! ## Encoded values -/

omit [HtmlEntities] in
theorem str_wire {s w : Bytes} : Str.marshal none s = .ok w ↔ (0 : Byte) ∉ s ∧ w = escText s := by
  rw [← text_iff]
  constructor
  · rintro ⟨e, he, h0, rfl⟩; cases he; exact ⟨h0, rfl⟩
  · rintro ⟨h0, rfl⟩; exact ⟨s, rfl, h0, rfl⟩

omit [HtmlEntities] in
theorem name_wire {s w : Bytes} : Name.marshal none s = .ok w ↔
    s.length ≤ 256 ∧ (∀ b ∈ s, b ∉ b!"$\x00\r\n\t") ∧ w = escName s := by
  rw [← name_iff]
  constructor
  · rintro ⟨h, e, he, h0, rfl⟩; cases he; exact ⟨h, h0, rfl⟩
  · rintro ⟨h, h0, rfl⟩; exact ⟨h, s, rfl, h0, rfl⟩

theorem str_back {s w : Bytes} (hw : Str.marshal none s = .ok w) : ReadsText none w s ↔ NmdcBack.Text s :=
  text_back (text_iff.mpr hw)

theorem nam_back {s w : Bytes} (hw : Name.marshal none s = .ok w) : ReadsName none w s ↔ NmdcBack.Name s :=
  name_back (name_iff.mpr hw)

theorem escWith_length {tbl : Byte → Option Bytes} (ht : GoodTable tbl) (s : Bytes) : s.length ≤ (escWith tbl s).length := by
  induction s with
  | nil => simp
  | cons b s ih =>
    rw [escWith_cons, List.length_append, List.length_cons]
    cases h : tbl b with
    | none => simp only [Option.getD_none, List.length_singleton]; omega
    | some v =>
      have := ht.head b v h
      cases v with
      | nil => simp at this
      | cons x v => simp only [Option.getD_some, List.length_cons]; omega

omit [HtmlEntities] in
theorem text_written {s : Bytes} (h : NmdcBack.Text s) : Str.marshal none s = .ok (escText s) := str_wire.mpr ⟨h.1, rfl⟩

theorem name_written {s : Bytes} (h : NmdcBack.Name s) : Name.marshal none s = .ok (escName s) := by
  refine name_wire.mpr ⟨?_, h.1, rfl⟩
  have := escWith_length goodName s
  rw [← escName_eq] at this
  have := h.2.2.2
  omega

/-! ## Cutting encoded values -/

omit [HtmlEntities] in
/-- A cut at a byte that is in no escape. -/
theorem escWith_cut {tbl : Byte → Option Bytes} {c : Byte} (hc : ∀ b v, tbl b = some v → c ∉ v) {s p r : Bytes}
    (h : escWith tbl s = p ++ c :: r) : ∃ s1 s2, s = s1 ++ c :: s2 ∧ p = escWith tbl s1 ∧ r = escWith tbl s2 := by
  induction s generalizing p with
  | nil => simp at h
  | cons b s ih =>
    rw [escWith_cons] at h
    cases hb : tbl b with
    | none =>
      simp only [hb, Option.getD_none, List.cons_append, List.nil_append] at h
      cases p with
      | nil =>
        simp only [List.nil_append, List.cons.injEq] at h
        exact ⟨[], s, by simp [h.1], rfl, h.2.symm⟩
      | cons x p =>
        simp only [List.cons_append, List.cons.injEq] at h
        obtain ⟨s1, s2, rfl, rfl, rfl⟩ := ih h.2
        exact ⟨b :: s1, s2, rfl, by rw [escWith_cons, hb, h.1]; rfl, rfl⟩
    | some v =>
      simp only [hb, Option.getD_some] at h
      rcases List.append_eq_append_iff.mp h with ⟨q, h1, h2⟩ | ⟨q, h1, h2⟩
      · obtain ⟨s1, s2, rfl, hq, rfl⟩ := ih h2
        exact ⟨b :: s1, s2, rfl, by rw [escWith_cons, hb, h1, hq]; rfl, rfl⟩
      · cases q with
        | nil =>
          simp only [List.nil_append] at h2
          obtain ⟨s1, s2, rfl, hq, rfl⟩ := ih (p := []) (by simpa using h2.symm)
          refine ⟨b :: s1, s2, rfl, ?_, rfl⟩
          rw [escWith_cons, hb, ← hq]; simpa using h1.symm
        | cons y q =>
          exfalso
          simp only [List.cons_append, List.cons.injEq] at h2
          apply hc b v hb
          rw [h1, h2.1]; simp

/-- A text is not decoded from a part of it that ends before such a byte. -/
theorem no_prefix {tbl : Byte → Option Bytes} (ht : GoodTable tbl) (hn : ∀ b ∈ b!"/%DCN0123456789", tbl b = none) {c : Byte}
    (hc : ∀ b v, tbl b = some v → c ∉ v) {s p r : Bytes} (h : escWith tbl s = p ++ c :: r) : ¬ Decoded none p s := by
  obtain ⟨s1, s2, rfl, rfl, rfl⟩ := escWith_cut hc h
  rw [decoded_escaped ht hn]
  rintro ⟨h1, -⟩
  have := legacy_length h1
  simp at this
  omega

omit [HtmlEntities] in
theorem name_esc_free {c : Byte} (hc : escByte c = false) : ∀ b v, escapeCharName b = some v → c ∉ v := by
  intro b v h hm
  have := escByte_name h c hm
  rw [hc] at this; cases this

omit [HtmlEntities] in
theorem text_esc_free {c : Byte} (hc : escByte c = false) : ∀ b v, escapeCharString b = some v → c ∉ v := by
  intro b v h hm
  have := escByte_string h c hm
  rw [hc] at this; cases this

theorem name_no_prefix {c : Byte} (hc : escByte c = false) {s p r : Bytes} (h : escName s = p ++ c :: r) : ¬ ReadsName none p s := by
  rw [escName_eq] at h
  exact fun h' => no_prefix goodName (by decide) (name_esc_free hc) h h'.2.2

theorem text_no_prefix {c : Byte} (hc : escByte c = false) {s p r : Bytes} (h : escText s = p ++ c :: r) : ¬ ReadsText none p s := by
  rw [escText_eq] at h
  exact fun h' => no_prefix goodString (by decide) (text_esc_free hc) h h'.2

omit [HtmlEntities] in
/-- A byte that is not escaped and in no escape is in the escaped text as often as in the text. -/
theorem mem_escName {c : Byte} (h1 : escByte c = false) (h2 : escapeCharName c = none) {s : Bytes} : c ∈ escName s ↔ c ∈ s := by
  rw [escName_eq]
  constructor
  · intro h
    rcases mem_escWith h with ⟨h, -⟩ | ⟨x, -, v, hv, hm⟩
    · exact h
    · exact absurd hm (name_esc_free h1 x v hv)
  · intro h
    simp only [escWith, List.mem_flatMap]
    exact ⟨c, h, by simp [h2]⟩

omit [HtmlEntities] in
theorem mem_escText {c : Byte} (h1 : escByte c = false) (h2 : escapeCharString c = none) {s : Bytes} : c ∈ escText s ↔ c ∈ s := by
  rw [escText_eq]
  constructor
  · intro h
    rcases mem_escWith h with ⟨h, -⟩ | ⟨x, -, v, hv, hm⟩
    · exact h
    · exact absurd hm (text_esc_free h1 x v hv)
  · intro h
    simp only [escWith, List.mem_flatMap]
    exact ⟨c, h, by simp [h2]⟩

end

/-! ## Cutting -/

theorem first_unique {sep d a b a' b' : Bytes} (h : First sep d a b) (h' : First sep d a' b') : a = a' ∧ b = b' := by
  have hl : a.length = a'.length := Nat.le_antisymm (h.2 _ _ h'.1) (h'.2 _ _ h.1)
  have e := h.1.symm.trans h'.1
  rw [List.append_assoc, List.append_assoc] at e
  obtain ⟨h1, h2⟩ := List.append_inj e hl
  exact ⟨h1, List.append_cancel_left h2⟩

/-- A separator with a byte that does not come before. -/
theorem first_marked {p q a r : Bytes} {x : Byte} (ha : x ∉ a) (hp : x ∉ p) : First (p ++ x :: q) (a ++ (p ++ x :: q) ++ r) a r := by
  refine ⟨rfl, fun a' b' h => ?_⟩
  have h1 : (a ++ p) ++ x :: (q ++ r) = (a' ++ p) ++ x :: (q ++ b') := by simpa using h
  rcases Nat.lt_or_ge a'.length a.length with hl | hl
  · exfalso
    rcases List.append_eq_append_iff.mp h1 with ⟨c, h2, -⟩ | ⟨c, h2, h3⟩
    · have := congrArg List.length h2
      simp at this; omega
    · cases c with
      | nil => have := congrArg List.length h2; simp at this; omega
      | cons y c =>
        simp only [List.cons_append, List.cons.injEq] at h3
        have : x ∈ a ++ p := by rw [h2, h3.1]; simp
        simp [ha, hp] at this
  · exact hl

theorem first_single {c : Byte} {d a b : Bytes} : First [c] d a b ↔ d = a ++ [c] ++ b ∧ c ∉ a := by
  constructor
  · rintro ⟨h1, h2⟩
    refine ⟨h1, fun hm => ?_⟩
    obtain ⟨x, y, rfl⟩ := List.append_of_mem hm
    have := h2 x (y ++ [c] ++ b) (by rw [h1]; simp)
    simp at this
    omega
  · rintro ⟨rfl, h⟩
    exact first_marked (p := []) (q := []) h (by simp)

theorem absent_single {c : Byte} {d : Bytes} : Absent [c] d ↔ c ∉ d := by
  constructor
  · intro h hm
    obtain ⟨x, y, rfl⟩ := List.append_of_mem hm
    exact h x y (by simp)
  · rintro h a b rfl
    simp at h

/-- Where the first separator is if one is known and there is a value before it. -/
theorem first_before {c : Byte} {sep d a b x y : Bytes} (h : First (c :: sep) d a b) (hd : d = x ++ (c :: sep) ++ y) :
    (a = x ∧ b = y) ∨ ∃ r, x = a ++ c :: r := by
  have hl := h.2 _ _ hd
  have e : a ++ (c :: (sep ++ b)) = x ++ (c :: (sep ++ y)) := by
    have := h.1.symm.trans hd
    simpa using this
  rcases List.append_eq_append_iff.mp e with ⟨q, h1, h2⟩ | ⟨q, h1, h2⟩
  · cases q with
    | nil =>
      left
      simp only [List.append_nil] at h1
      simp only [List.nil_append, List.cons.injEq, true_and] at h2
      exact ⟨h1.symm, List.append_cancel_left h2⟩
    | cons z q =>
      right
      simp only [List.cons_append, List.cons.injEq] at h2
      exact ⟨q, by rw [h1, h2.1]⟩
  · have : q = [] := by
      have := congrArg List.length h1
      simp at this
      exact List.length_eq_zero_iff.mp (by omega)
    subst this
    left
    simp only [List.append_nil] at h1
    simp only [List.nil_append, List.cons.injEq, true_and] at h2
    exact ⟨h1, (List.append_cancel_left h2).symm⟩

section
variable [HtmlEntities]

omit [HtmlEntities] in
theorem hasLegacy_iff {s : Bytes} : ¬ HasLegacy s ↔ ∀ e ∈ legacyCodes, Absent e.1 s := by
  have : legacyTable = legacyCodes := by decide
  simp only [HasLegacy, this, Absent]
  constructor
  · intro h e he a b hab; exact h ⟨e, he, a, b, hab⟩
  · rintro h ⟨e, he, a, b, hab⟩; exact h e he a b hab

omit [HtmlEntities] in
theorem textOk_back {s : Bytes} (h : NmdcBack.Text s) : TextOk none s := by
  refine ⟨h.2.1, fun e he => ?_⟩
  cases he
  exact hasLegacy_iff.mpr h.2.2

omit [HtmlEntities] in
theorem nameOk_back {s : Bytes} (h : NmdcBack.Name s) : NameOk none s := by
  refine ⟨⟨h.2.1, fun e he => ?_⟩, fun w hw => ?_⟩
  · cases he
    exact hasLegacy_iff.mpr h.2.2.1
  · obtain ⟨-, -, rfl⟩ := name_wire.mp hw
    exact h.2.2.2

/-- A pattern that begins with a byte that is in no escape. -/
theorem pattern_escWith {tbl : Byte → Option Bytes} (ht : GoodTable tbl) {c : Byte} (hc : ∀ b v, tbl b = some v → c ∉ v) {k s a b : Bytes}
    (hk : c!"&" ∉ k) (h : escWith tbl s = a ++ (c :: k) ++ b) : ∃ a' b', s = a' ++ (c :: k) ++ b' := by
  obtain ⟨s1, s2, rfl, -, h2⟩ := escWith_cut hc (s := s) (p := a) (r := k ++ b) (by rw [h]; simp)
  obtain ⟨t, rfl⟩ := prefix_escWith ht hk ⟨b, h2⟩
  exact ⟨s1, t, by simp⟩

/-- A name is read from a text with a separator after it only if it is the whole text. -/
theorem name_first {c : Byte} (hc : escByte c = false) {s w sep d a b y : Bytes} (hw : Name.marshal none s = .ok w)
    (hf : First (c :: sep) d a b) (hd : d = w ++ (c :: sep) ++ y) (hr : ReadsName none a s) : a = w ∧ b = y := by
  obtain ⟨-, -, rfl⟩ := name_wire.mp hw
  rcases first_before hf hd with h | ⟨r, h⟩
  · exact h
  · exact absurd hr (name_no_prefix hc h)

theorem text_first {c : Byte} (hc : escByte c = false) {s w sep d a b y : Bytes} (hw : Str.marshal none s = .ok w)
    (hf : First (c :: sep) d a b) (hd : d = w ++ (c :: sep) ++ y) (hr : ReadsText none a s) : a = w ∧ b = y := by
  obtain ⟨-, rfl⟩ := str_wire.mp hw
  rcases first_before hf hd with h | ⟨r, h⟩
  · exact h
  · exact absurd hr (text_no_prefix hc h)

theorem name_reads_back {s : Bytes} (h : NmdcBack.Name s) : ReadsName none (escName s) s := (nam_back (name_written h)).mpr h

theorem text_reads_back {s : Bytes} (h : NmdcBack.Text s) : ReadsText none (escText s) s := (str_back (text_written h)).mpr h

theorem name_clean {s : Bytes} (h : NmdcBack.Name s) : ∀ b ∈ escName s, b ≠ c!"$" ∧ b ≠ c!"<" ∧ b ≠ c!">" :=
  fun b hb => ⟨(name_marshal_clean (name_written h) b hb).1, (name_marshal_clean (name_written h) b hb).2.2.1, (name_marshal_clean (name_written h) b hb).2.2.2.1⟩

omit [HtmlEntities] in
/-- The ends of an escaped text: that of the text, or one that begins within an escape. -/
theorem escWith_suffix {tbl : Byte → Option Bytes} {s q t : Bytes} (h : escWith tbl s = q ++ t) :
    (∃ s1 s2, s = s1 ++ s2 ∧ t = escWith tbl s2 ∧ q = escWith tbl s1) ∨
      ∃ b v x y u, tbl b = some v ∧ v = x ++ y :: u ∧ x ≠ [] ∧ ∃ r, t = y :: r := by
  induction s generalizing q with
  | nil =>
    simp at h
    exact .inl ⟨[], [], rfl, by simp [h.2], by simp [h.1]⟩
  | cons b s ih =>
    rw [escWith_cons] at h
    rcases List.append_eq_append_iff.mp h with ⟨z, h1, h2⟩ | ⟨z, h1, h2⟩
    · rcases ih h2 with ⟨s1, s2, rfl, h3, h4⟩ | h3
      · exact .inl ⟨b :: s1, s2, rfl, h3, by rw [h1, escWith_cons, h4]⟩
      · exact .inr h3
    · cases q with
      | nil => exact .inl ⟨[], b :: s, rfl, by rw [h2, escWith_cons, h1]; simp, rfl⟩
      | cons x q =>
        cases z with
        | nil => exact .inl ⟨[b], s, rfl, by simpa using h2, by rw [escWith_cons, h1]; simp⟩
        | cons y z =>
          cases hb : tbl b with
          | none =>
            rw [hb] at h1
            simp at h1
          | some v =>
            rw [hb] at h1
            exact .inr ⟨b, v, x :: q, y, z, hb, h1, by simp, _, h2⟩

theorem text_no_suffix {s q t : Bytes} (hb : Begins b!"<" s) (hq : q ≠ []) (h : escText s = q ++ t) : ¬ Decoded none t s := by
  intro hd
  rw [escText_eq] at h
  rcases escWith_suffix h with ⟨s1, s2, rfl, rfl, rfl⟩ | ⟨b, v, x, y, u, h1, h2, h3, r, rfl⟩
  · rw [← escText_eq, decoded_text] at hd
    have := legacy_length hd.1
    have : s1 ≠ [] := by rintro rfl; exact hq rfl
    have := List.length_pos_iff.mpr this
    simp at *
    omega
  · have hy : y ≠ c!"&" ∧ y ≠ c!"/" ∧ y ≠ c!"<" := by
      unfold escapeCharString at h1
      repeat' split at h1
      all_goals simp at h1
      all_goals
        subst h1
        have hm : ∀ (v : Bytes), v = x ++ y :: u → x ≠ [] → y ∈ v.drop 1 := by
          rintro _ rfl hx
          cases x with
          | nil => simp at hx
          | cons x0 x => simp
        have := hm _ h2 h3
        clear h2 h3 hm h hd
        revert this
        revert y
        decide
    obtain ⟨t', h4, h5, -⟩ := hd
    obtain ⟨z, hz⟩ := hb
    have h5 : s = htmlUnescape t' := h5
    have : Legacy ([y] ++ r) ([y] ++ legacyReplace r) := legacy_skip (by simpa using Ne.symm hy.2.1) (legacy_total r)
    have e : t' = y :: legacyReplace r := by rw [legacy_iff] at h4 this; rw [← h4]; exact this
    rw [e, htmlUnescape_cons hy.1, hz] at h5
    simp at h5
    exact hy.2.2 h5.1.symm

end

theorem first_from {e r : Bytes} (h : Absent b!" From: " (e ++ b!" ")) : First b!" From: " (e ++ b!" From: " ++ r) e r := by
  refine ⟨rfl, fun a b hab => ?_⟩
  rcases Nat.lt_or_ge a.length e.length with hl | hl
  · exfalso
    rw [List.append_assoc, List.append_assoc] at hab
    rcases List.append_eq_append_iff.mp hab with ⟨q, h1, h2⟩ | ⟨q, h1, h2⟩
    · have := congrArg List.length h1
      simp at this; omega
    · rcases q with _ | ⟨q0, _ | ⟨q1, _ | ⟨q2, _ | ⟨q3, _ | ⟨q4, _ | ⟨q5, _ | ⟨q6, q⟩⟩⟩⟩⟩⟩⟩
      · simp at h1
        simp [h1] at hl
      all_goals simp at h2
      · obtain ⟨rfl, rfl, rfl, rfl, rfl, rfl, h2⟩ := h2
        exact h a [] (by rw [h1]; simp)
      · obtain ⟨rfl, rfl, rfl, rfl, rfl, rfl, rfl, h2⟩ := h2
        exact h a (q ++ b!" ") (by rw [h1]; simp)
  · exact hl

/-! ## Lists -/

theorem split_append_eq (a b : Bytes) (sep : Byte) : split (a ++ sep :: b) sep = split a sep ++ split b sep := by
  induction a with
  | nil => simp [split]
  | cons x a ih =>
    rw [List.cons_append, split, split]
    by_cases h : x = sep
    · rw [if_pos h, if_pos h, ih]; rfl
    · rw [if_neg h, if_neg h, ih]
      cases hs : split a sep with
      | nil => exact absurd hs (split_ne_nil a sep)
      | cons p ps => rfl

theorem split_join_eq {l : List Bytes} {sep : Byte} (hne : l ≠ []) : split (join l sep) sep = l.flatMap (split · sep) := by
  induction l with
  | nil => simp at hne
  | cons p l ih =>
    cases l with
    | nil => simp [join]
    | cons q l => rw [join_cons2, split_append_eq, ih (by simp)]; rfl

theorem split_back {l : List Bytes} {sep : Byte} : split (join l sep) sep = l ↔ l ≠ [] ∧ ∀ x ∈ l, sep ∉ x := by
  constructor
  · intro h
    refine ⟨fun h' => split_ne_nil (join l sep) sep (by rw [h, h']), fun x hx => ?_⟩
    rw [← h] at hx
    exact Verif.Adc.split_free _ _ x hx
  · rintro ⟨h1, h2⟩; exact split_join h1 h2

theorem absent_skip {v u : Bytes} (hv : c!"$" ∉ v) : Absent b!"$$" (v ++ u) ↔ Absent b!"$$" u := by
  induction v with
  | nil => rfl
  | cons x v ih =>
    simp only [List.mem_cons, not_or] at hv
    rw [← ih hv.2]
    constructor
    · intro h a b hab
      exact h (x :: a) b (by rw [List.cons_append, hab]; simp)
    · intro h a b hab
      cases a with
      | nil =>
        simp at hab
        exact hv.1 hab.1.symm
      | cons y a =>
        simp only [List.cons_append, List.cons.injEq] at hab
        exact h a b hab.2

theorem first_dd {x y : Bytes} : First b!"$$" (x ++ b!"$$" ++ y) x y ↔ Absent b!"$$" (x ++ b!"$") := by
  constructor
  · intro h a b hab
    have := h.2 a (b ++ b!"$" ++ y) (by
      calc x ++ b!"$$" ++ y = (x ++ b!"$") ++ b!"$" ++ y := by simp
        _ = _ := by rw [hab]; simp)
    have hl := congrArg List.length hab
    simp at hl
    omega
  · intro h
    refine ⟨rfl, fun a b hab => ?_⟩
    rcases Nat.lt_or_ge a.length x.length with hl | hl
    · exfalso
      rw [List.append_assoc, List.append_assoc] at hab
      rcases List.append_eq_append_iff.mp hab with ⟨q, h1, h2⟩ | ⟨q, h1, h2⟩
      · have := congrArg List.length h1
        simp at this; omega
      · rcases q with _ | ⟨q0, _ | ⟨q1, q⟩⟩
        · simp at h1; simp [h1] at hl
        · simp at h2
          exact h a [] (by rw [h1, ← h2.1]; simp)
        · simp at h2
          exact h a (q ++ b!"$") (by rw [h1, ← h2.1, ← h2.2.1]; simp)
    · exact hl

/-! ## Numbers -/

theorem readsNat_bytes {d : Bytes} {n : Nat} (h : ReadsNat d n) : c!"-" ∉ d := by
  obtain ⟨t, ⟨i, j, rfl⟩, h, -⟩ := h
  intro hm
  simp only [List.mem_append, List.mem_replicate] at hm
  rcases hm with (⟨-, hm⟩ | hm) | ⟨-, hm⟩
  · cases hm
  · exact absurd (h.2 _ hm) (by decide)
  · cases hm

theorem readsNat_utoa {n k : Nat} : ReadsNat (utoa n) k ↔ k = n ∧ n < 2 ^ 64 := by
  constructor
  · intro h
    obtain ⟨t, ⟨i, j, he⟩, ht, rfl, hlt⟩ := h
    have hi : ∀ b ∈ utoa n, b ≠ c!" " := by
      intro b hb h; subst h
      exact absurd (utoa_digit hb) (by decide)
    have : i = 0 := by
      cases i with
      | zero => rfl
      | succ i => exact absurd rfl (hi c!" " (by rw [he]; simp [List.replicate_succ]))
    have : j = 0 := by
      cases j with
      | zero => rfl
      | succ j => exact absurd rfl (hi c!" " (by rw [he]; simp [List.replicate_succ]))
    subst i j
    simp at he
    rw [← he, value_utoa] at hlt ⊢
    exact ⟨rfl, hlt⟩
  · rintro ⟨rfl, h⟩
    exact nat_reads.mp (Verif.Props.NmdcNumbers.number_roundtrip h)

/-- What is before the first space, or everything. -/
theorem field_space {d x y a b : Bytes} (h : First b!" " d a b ∨ (Absent b!" " d ∧ a = d ∧ b = [])) (hd : d = x ++ y) (hx : c!" " ∉ x)
    (hy : y = [] ∨ ∃ z, y = b!" " ++ z) : a = x := by
  rcases h with h | ⟨h1, rfl, -⟩
  · obtain ⟨h1, h2⟩ := first_single.mp h
    rcases hy with rfl | ⟨z, rfl⟩
    · exfalso
      rw [List.append_nil] at hd
      rw [hd] at h1
      exact hx (by rw [h1]; simp)
    · have : First b!" " d x z := first_single.mpr ⟨by simpa using hd, hx⟩
      exact (first_unique h this).1
  · rcases hy with rfl | ⟨z, rfl⟩
    · simpa using hd
    · exact absurd (by rw [hd]; simp) (absent_single.mp h1)

/-! ## Search patterns -/

theorem isUtf8_dollar {s : Bytes} (h : IsUtf8 s) : IsUtf8 (replaceByte s c!"$" c!" ") := by
  obtain ⟨rs, hrs, rfl⟩ := h
  refine ⟨rs.map (fun r => if r = 36 then 32 else r), ?_, ?_⟩
  · intro r hr
    obtain ⟨x, hx, rfl⟩ := List.mem_map.mp hr
    split
    · exact .inl (by decide)
    · exact hrs x hx
  · induction rs with
    | nil => rfl
    | cons r rs ih =>
      rw [List.flatMap_cons, replaceByte_append, List.map_cons, List.flatMap_cons, ih (fun x hx => hrs x (by simp [hx]))]
      congr 1
      by_cases h : r < 0x80
      · have : ∀ r : Fin 128, replaceByte (utf8 r.val) c!"$" c!" " = utf8 (if r.val = 36 then 32 else r.val) := by decide +kernel
        exact this ⟨r, h⟩
      · rw [if_neg (by omega), replaceByte_id]
        intro hm
        have := utf8_high (by omega) (hrs r (by simp)) _ hm
        exact absurd this (by decide)

/-- The escapes of a pattern. -/
def escPattern (b : Byte) : Option Bytes := if b = c!"$" then none else escapeCharString b

section
variable [HtmlEntities]

theorem goodPattern : GoodTable escPattern where
  amp := by decide
  head := by
    intro b v h
    unfold escPattern at h
    split at h
    · cases h
    · exact goodString.head b v h
  noSlash := by
    intro b v h
    unfold escPattern at h
    split at h
    · cases h
    · exact goodString.noSlash b v h
  unescape := by
    intro b v h
    unfold escPattern at h
    split at h
    · cases h
    · exact goodString.unescape b v h

omit [HtmlEntities] in
theorem pattern_wire {p : Bytes} (hp : c!"$" ∉ p) : replaceByte (escText p) c!" " c!"$" = escWith escPattern (replaceByte p c!" " c!"$") := by
  rw [escText_eq]
  induction p with
  | nil => rfl
  | cons b p ih =>
    simp only [List.mem_cons, not_or] at hp
    have e : replaceByte (b :: p) c!" " c!"$" = (if b = c!" " then c!"$" else b) :: replaceByte p c!" " c!"$" := rfl
    rw [e, escWith_cons, escWith_cons, replaceByte_append, ih hp.2]
    congr 1
    by_cases hb : b = c!" "
    · subst hb; rfl
    · rw [if_neg hb]
      have : escPattern b = escapeCharString b := by
        unfold escPattern
        rw [if_neg (Ne.symm hp.1)]
      rw [this]
      cases h : escapeCharString b with
      | none => simp [replaceByte, hb]
      | some v =>
        rw [Option.getD_some, replaceByte_id]
        exact text_esc_free (by decide) b v h

theorem pattern_back {p s : Bytes} (h : ReadsText none (replaceByte (escText p) c!" " c!"$") s) (hs : p = replaceByte s c!"$" c!" ") :
    c!"$" ∉ p ∧ IsUtf8 p ∧ ∀ e ∈ legacyCodes, Absent e.1 p := by
  have h1 : c!"$" ∉ p := by
    rw [hs]
    intro hm
    obtain ⟨x, -, hx⟩ := List.mem_map.mp hm
    split at hx
    · cases hx
    · rename_i h; exact h hx
  obtain ⟨-, h2⟩ := h
  rw [pattern_wire h1, decoded_escaped goodPattern (by decide)] at h2
  refine ⟨h1, by rw [hs]; exact isUtf8_dollar h2.2, ?_⟩
  have hl : s.length = (replaceByte p c!" " c!"$").length := by
    have := congrArg List.length hs
    simp [replaceByte] at this ⊢
    exact this.symm
  intro e he a b hab
  have hlt : ∀ d t, Legacy d t → t.length = d.length → Legacy d d := by
    intro d t h
    induction h with
    | nil => intro _; exact .nil
    | @code k c s t he h ih =>
      intro hl
      exfalso
      have : ∀ e ∈ legacyCodes, 2 ≤ e.1.length := by decide
      have := this _ he
      have := legacy_length h
      simp only [List.length_cons, List.length_append] at *
      omega
    | other hc _ ih => intro hl; exact .other hc (ih (by simpa using hl))
  have := legacy_same.mp (hlt _ _ h2.1 hl) e he (replaceByte a c!" " c!"$") (replaceByte b c!" " c!"$")
  apply this
  rw [hab, replaceByte_append, replaceByte_append, replaceByte_id (s := e.1)]
  have hsp : ∀ e ∈ legacyCodes, c!" " ∉ e.1 := by decide
  exact hsp e he

/-! ## User commands -/

omit [HtmlEntities] in
theorem readsInt_utoa {k : Int} (h : ReadsInt (utoa (toU64 k)) k) : 0 ≤ k ∧ k < 2 ^ 63 := by
  obtain ⟨t, ⟨i, j, he⟩, ht, -, hlt⟩ := h
  refine ⟨?_, hlt⟩
  generalize hk : k = z at ht
  cases ht with
  | plain _ => omega
  | plus _ => omega
  | minus _ => exact absurd (utoa_digit (n := toU64 k) (b := c!"-") (by rw [he]; simp)) (by decide)

omit [HtmlEntities] in
theorem escText_append (s t : Bytes) : escText (s ++ t) = escText s ++ escText t := by
  simp only [escText_eq, escWith_append]

omit [HtmlEntities] in
theorem escText_join (l : List Bytes) : join (l.map escText) c!"\\" = escText (join l c!"\\") := by
  induction l with
  | nil => rfl
  | cons x l ih =>
    cases l with
    | nil => rfl
    | cons y l =>
      rw [List.map_cons, List.map_cons, join_cons2, ← List.map_cons, ih, join_cons2, escText_append]
      congr 1

omit [HtmlEntities] in
theorem escText_cons (b : Byte) (s : Bytes) : escText (b :: s) = (escapeCharString b).getD [b] ++ escText s := by
  rw [escText_eq, escText_eq, escWith_cons]

omit [HtmlEntities] in
theorem split_escText (s : Bytes) : split (escText s) c!"\\" = (split s c!"\\").map escText := by
  induction s with
  | nil => rfl
  | cons b s ih =>
    rw [escText_cons]
    by_cases hb : b = c!"\\"
    · subst hb
      show split ([] ++ c!"\\" :: escText s) _ = _
      rw [split_append_eq, ih]
      simp [split]
      rfl
    · have free : c!"\\" ∉ (escapeCharString b).getD [b] := by
        cases h : escapeCharString b with
        | none => simpa using Ne.symm hb
        | some v => exact text_esc_free (by decide) b v h
      have skip : ∀ (v t : Bytes), c!"\\" ∉ v → ∀ p ps, split t c!"\\" = p :: ps → split (v ++ t) c!"\\" = (v ++ p) :: ps := by
        intro v t hv p ps hp
        induction v with
        | nil => exact hp
        | cons x v ih =>
          simp only [List.mem_cons, not_or] at hv
          rw [List.cons_append, split, if_neg (Ne.symm hv.1), ih hv.2]
          rfl
      rw [split, if_neg hb]
      cases hs : split s c!"\\" with
      | nil => exact absurd hs (split_ne_nil _ _)
      | cons p ps =>
        rw [hs] at ih
        rw [skip _ _ free _ _ ih]
        simp [escText_cons]

omit [HtmlEntities] in
theorem escText_nil {s : Bytes} : escText s = [] ↔ s = [] := by
  constructor
  · intro h
    cases s with
    | nil => rfl
    | cons b s =>
      rw [escText_cons] at h
      have h := (List.append_eq_nil_iff.mp h).1
      cases he : escapeCharString b with
      | none => rw [he] at h; cases h
      | some v =>
        rw [he] at h
        have : ∀ b : Byte, escapeCharString b ≠ some [] := by apply forall_byte; decide +kernel
        exact absurd (by rw [he]; exact congrArg some h) (this b)
  · rintro rfl; rfl

omit [HtmlEntities] in
theorem legacy_equal {d t : Bytes} (h : Legacy d t) (hl : t.length = d.length) : t = d := by
  induction h with
  | nil => rfl
  | @code k c s t he h ih =>
    exfalso
    have : ∀ e ∈ legacyCodes, 2 ≤ e.1.length := by decide
    have := this _ he
    have := legacy_length h
    simp only [List.length_cons, List.length_append] at *
    omega
  | other hc _ ih => rw [ih (by simpa using hl)]

omit [HtmlEntities] in
theorem join_total {l : List Bytes} (h : l ≠ []) (c : Byte) : (join l c).length + 1 = (l.map List.length).sum + l.length := by
  induction l with
  | nil => simp at h
  | cons x l ih =>
    cases l with
    | nil => simp [join]
    | cons y l =>
      rw [join_cons2]
      have := ih (by simp)
      simp only [List.length_append, List.length_cons, List.map_cons, List.sum_cons] at *
      omega

omit [HtmlEntities] in
theorem filter_sum (l : List Bytes) : ((l.filter (· ≠ [])).map List.length).sum = (l.map List.length).sum := by
  induction l with
  | nil => rfl
  | cons x l ih =>
    by_cases h : x = []
    · rw [List.filter_cons_of_neg (by simp [h]), ih]; simp [h]
    · rw [List.filter_cons_of_pos (by simp [h])]; simp only [List.map_cons, List.sum_cons, ih]

/-- Texts that are read from escaped texts are shorter, or they are those texts. -/
theorem texts_back {xs ss : List Bytes} (h : ReadsTexts none (xs.map escText) ss) :
    ss.length = xs.length ∧ (ss.map List.length).sum ≤ (xs.map List.length).sum ∧
      ((ss.map List.length).sum = (xs.map List.length).sum → ss = xs ∧ ∀ x ∈ xs, IsUtf8 x ∧ ∀ e ∈ legacyCodes, Absent e.1 x) := by
  induction xs generalizing ss with
  | nil => cases h; simp
  | cons x xs ih =>
    rw [List.map_cons] at h
    cases h with
    | @cons _ s _ ss h1 h2 =>
      obtain ⟨i1, i2, i3⟩ := ih h2
      obtain ⟨h3, h4⟩ := decoded_text.mp h1.2
      have h5 := legacy_length h3
      refine ⟨by simp [i1], by simp only [List.map_cons, List.sum_cons]; omega, fun he => ?_⟩
      simp only [List.map_cons, List.sum_cons] at he
      obtain ⟨rfl, i4⟩ := i3 (by omega)
      have h6 := legacy_equal h3 (by omega)
      subst h6
      refine ⟨rfl, fun x hx => ?_⟩
      rcases List.mem_cons.mp hx with rfl | hx
      · exact ⟨h4, legacy_same.mp h3⟩
      · exact i4 x hx

/-- A path that comes back from what is left of its text. -/
theorem path_back {l ps : List Bytes} {q : Bytes} {k : Nat} (hne : l ≠ []) (hq : escText (join l c!"\\") ++ b!" " = q ++ List.replicate k c!" ")
    (hl : ∀ b ∈ q.getLast?, b ≠ c!" ") (hp : split q c!"\\" = ps) (hr : ReadsTexts none (ps.filter (· ≠ [])) l) :
    q = escText (join l c!"\\") ∧ ∀ s ∈ l, s ≠ [] ∧ c!"\\" ∉ s ∧ IsUtf8 s ∧ ∀ e ∈ legacyCodes, Absent e.1 s := by
  subst hp
  obtain ⟨Q, n, hQ, rfl⟩ : ∃ Q n, join l c!"\\" = Q ++ List.replicate n c!" " ∧ q = escText Q := by
    cases k with
    | zero =>
      exfalso
      simp only [List.replicate_zero, List.append_nil] at hq
      subst hq
      exact hl c!" " (by simp) rfl
    | succ k =>
      rw [List.replicate_succ', ← List.append_assoc] at hq
      replace hq := List.append_inj_left' hq rfl
      generalize join l c!"\\" = J at hq
      clear hr hl hne
      induction k generalizing J with
      | zero => exact ⟨J, 0, by simp, by simpa using hq.symm⟩
      | succ k ih =>
        rw [List.replicate_succ', ← List.append_assoc] at hq
        have hq' : escWith escapeCharString J = (q ++ List.replicate k c!" ") ++ c!" " :: [] := by rw [← escText_eq]; exact hq
        obtain ⟨s1, s2, rfl, h2, h3⟩ := escWith_cut (text_esc_free (by decide)) hq'
        rw [← escText_eq] at h2 h3
        have h3 := escText_nil.mp h3.symm
        subst h3
        obtain ⟨Q, n, rfl, h5⟩ := ih s1 h2.symm
        exact ⟨Q, n + 1, by simp [List.replicate_succ'], h5⟩
  have hf : (split (escText Q) c!"\\").filter (· ≠ []) = ((split Q c!"\\").filter (· ≠ [])).map escText := by
    rw [split_escText, List.filter_map]
    congr 1
    apply List.filter_congr
    intro x _
    simp [escText_nil]
  rw [hf] at hr
  obtain ⟨h1, h2, h3⟩ := texts_back hr
  rw [filter_sum] at h2 h3
  have e1 := join_total hne c!"\\"
  have e2 := join_total (split_ne_nil Q c!"\\") c!"\\"
  rw [Verif.Adc.join_split] at e2
  have e3 := congrArg List.length hQ
  rw [List.length_append, List.length_replicate] at e3
  have e4 : l.length ≤ (split Q c!"\\").length := by rw [h1]; exact List.length_filter_le _ _
  obtain ⟨h4, h5⟩ := h3 (by omega)
  have hn : n = 0 := by omega
  subst hn
  simp only [List.replicate_zero, List.append_nil] at hQ
  refine ⟨by rw [hQ], ?_⟩
  have h6 : (split Q c!"\\").filter (· ≠ []) = split Q c!"\\" := by
    apply List.filter_eq_self.mpr
    exact List.length_filter_eq_length_iff.mp (by rw [← h1]; omega)
  have h7 := h4
  rw [h6, ← hQ] at h4
  intro s hs
  have := split_back.mp h4.symm
  refine ⟨?_, this.2 s hs, h5 s (by rw [← h7]; exact hs)⟩
  rw [h7] at hs
  simpa using (List.mem_filter.mp hs).2

/-! ## Search results -/

omit [HtmlEntities] in
theorem utf8_cons {x : Byte} {s : Bytes} (hx : x.toNat < 0x80) : IsUtf8 (x :: s) ↔ IsUtf8 s := by
  constructor
  · rintro ⟨rs, hrs, h⟩
    cases rs with
    | nil => cases h
    | cons r rs =>
      rw [List.flatMap_cons] at h
      by_cases hr : r < 0x80
      · have e : utf8 r = [UInt8.ofNat r] := by unfold utf8; rw [if_pos hr]
        rw [e] at h
        simp only [List.cons_append, List.nil_append, List.cons.injEq] at h
        exact ⟨rs, fun y hy => hrs y (by simp [hy]), h.2⟩
      · have h1 := utf8_high (by omega) (hrs r (by simp))
        cases hu : utf8 r with
        | nil => exact absurd hu (utf8_ne_nil r)
        | cons b u =>
          rw [hu] at h h1
          simp only [List.cons_append, List.cons.injEq] at h
          have := h1 b (by simp)
          rw [← h.1] at this
          omega
  · intro h
    exact isUtf8_append (s := [x]) (isUtf8_ascii (by simpa using hx)) h

omit [HtmlEntities] in
theorem utf8_skip {k s : Bytes} (hk : ∀ b ∈ k, b.toNat < 0x80) : IsUtf8 (k ++ s) ↔ IsUtf8 s := by
  induction k with
  | nil => rfl
  | cons x k ih => rw [List.cons_append, utf8_cons (hk x (by simp)), ih (fun b hb => hk b (by simp [hb]))]

omit [HtmlEntities] in
theorem codes_ascii : ∀ e ∈ legacyCodes, (∀ b ∈ e.1, b.toNat < 0x80) ∧ e.2.toNat < 0x80 ∧ e.1 ≠ [] := by decide

omit [HtmlEntities] in
theorem legacy_high {v d t : Bytes} (hv : ∀ b ∈ v, 0x80 ≤ b.toNat) (h : Legacy (v ++ d) t) : ∃ t', t = v ++ t' ∧ Legacy d t' := by
  induction v generalizing t with
  | nil => exact ⟨t, rfl, h⟩
  | cons x v ih =>
    generalize hz : x :: v ++ d = z at h
    cases h with
    | nil => cases hz
    | @code k c s t he h =>
      exfalso
      obtain ⟨h1, -, h3⟩ := codes_ascii _ he
      cases k with
      | nil => exact h3 rfl
      | cons y k =>
        simp only [List.cons_append, List.cons.injEq] at hz
        have := hv x (by simp)
        have := h1 y (by simp)
        rw [hz.1] at *
        omega
    | other hc h =>
      simp only [List.cons_append, List.cons.injEq] at hz
      obtain ⟨rfl, rfl⟩ := hz
      obtain ⟨t', rfl, h'⟩ := ih (fun b hb => hv b (by simp [hb])) h
      exact ⟨t', rfl, h'⟩

omit [HtmlEntities] in
theorem legacy_high_back {v d t : Bytes} (hv : ∀ b ∈ v, 0x80 ≤ b.toNat) (h : Legacy d (v ++ t)) : ∃ d', d = v ++ d' ∧ Legacy d' t := by
  induction v generalizing d with
  | nil => exact ⟨d, rfl, h⟩
  | cons x v ih =>
    generalize hz : x :: v ++ t = z at h
    cases h with
    | nil => cases hz
    | @code k c s t he h =>
      exfalso
      obtain ⟨-, h2, -⟩ := codes_ascii _ he
      simp only [List.cons_append, List.cons.injEq] at hz
      have := hv x (by simp)
      rw [hz.1] at this
      simp only at h2
      omega
    | other hc h =>
      simp only [List.cons_append, List.cons.injEq] at hz
      obtain ⟨rfl, rfl⟩ := hz
      obtain ⟨t', rfl, h'⟩ := ih (fun b hb => hv b (by simp [hb])) h
      exact ⟨t', rfl, h'⟩

omit [HtmlEntities] in
/-- Replacing the old escapes does not change whether a text is UTF-8. -/
theorem legacy_utf8 {d t : Bytes} (h : Legacy d t) : IsUtf8 t ↔ IsUtf8 d := by
  constructor
  · intro ht
    induction hn : t.length using Nat.strongRecOn generalizing d t with
    | _ n ih =>
      subst hn
      cases h with
      | nil => exact ht
      | @code k c s t he h =>
        obtain ⟨h1, h2, h3⟩ := codes_ascii _ he
        rw [utf8_skip h1]
        exact ih t.length (by simp) h ((utf8_cons h2).mp ht) rfl
      | @other c s t hc h =>
        by_cases hx : c.toNat < 0x80
        · rw [utf8_cons hx]
          exact ih t.length (by simp) h ((utf8_cons hx).mp ht) rfl
        · have hh : Legacy (c :: s) (c :: t) := .other hc h
          obtain ⟨rs, hrs, e⟩ := ht
          cases rs with
          | nil => cases e
          | cons r rs =>
            rw [List.flatMap_cons] at e
            have hr : 0x80 ≤ r := by
              rcases Nat.lt_or_ge r 0x80 with h' | h'
              · have e1 : utf8 r = [UInt8.ofNat r] := by unfold utf8; rw [if_pos h']
                rw [e1] at e
                simp only [List.cons_append, List.nil_append, List.cons.injEq] at e
                rw [e.1, UInt8.toNat_ofNat'] at hx
                omega
              · exact h'
            rw [e] at hh
            obtain ⟨d', e2, h'⟩ := legacy_high_back (utf8_high hr (hrs r (by simp))) hh
            rw [e2]
            have hl := congrArg List.length e
            have := utf8_ne_nil r
            have : 0 < (utf8 r).length := List.length_pos_iff.mpr this
            simp only [List.length_cons, List.length_append] at hl
            exact isUtf8_append ⟨[r], by simpa using hrs r (by simp), by simp⟩
              (ih (rs.flatMap utf8).length (by simp only [List.length_cons]; omega) h' ⟨rs, fun y hy => hrs y (by simp [hy]), rfl⟩ rfl)
  · intro ht
    induction hn : d.length using Nat.strongRecOn generalizing d t with
    | _ n ih =>
      subst hn
      cases h with
      | nil => exact ht
      | @code k c s t he h =>
        obtain ⟨h1, h2, h3⟩ := codes_ascii _ he
        rw [utf8_cons h2]
        have : 0 < k.length := List.length_pos_iff.mpr h3
        exact ih s.length (by simp only [List.length_append]; omega) h ((utf8_skip h1).mp ht) rfl
      | @other c s t hc h =>
        by_cases hx : c.toNat < 0x80
        · rw [utf8_cons hx]
          exact ih s.length (by simp) h ((utf8_cons hx).mp ht) rfl
        · have hh : Legacy (c :: s) (c :: t) := .other hc h
          obtain ⟨rs, hrs, e⟩ := ht
          cases rs with
          | nil => cases e
          | cons r rs =>
            rw [List.flatMap_cons] at e
            have hr : 0x80 ≤ r := by
              rcases Nat.lt_or_ge r 0x80 with h' | h'
              · have e1 : utf8 r = [UInt8.ofNat r] := by unfold utf8; rw [if_pos h']
                rw [e1] at e
                simp only [List.cons_append, List.nil_append, List.cons.injEq] at e
                rw [e.1, UInt8.toNat_ofNat'] at hx
                omega
              · exact h'
            rw [e] at hh
            obtain ⟨d', e2, h'⟩ := legacy_high (utf8_high hr (hrs r (by simp))) hh
            rw [e2]
            have hl := congrArg List.length e
            have := utf8_ne_nil r
            have : 0 < (utf8 r).length := List.length_pos_iff.mpr this
            simp only [List.length_cons, List.length_append] at hl
            exact isUtf8_append ⟨[r], by simpa using hrs r (by simp), by simp⟩
              (ih (rs.flatMap utf8).length (by simp only [List.length_cons]; omega) h' ⟨rs, fun y hy => hrs y (by simp [hy]), rfl⟩ rfl)

/-- Some text is read from an escaped text if it is UTF-8. -/
theorem some_text {s : Bytes} (h0 : (0 : Byte) ∉ s) : (∃ t, ReadsText none (escText s) t) ↔ IsUtf8 s := by
  constructor
  · rintro ⟨t, ht⟩
    obtain ⟨h1, h2⟩ := decoded_text.mp ht.2
    exact (legacy_utf8 h1).mp h2
  · intro h
    have h1 := legacy_total s
    refine ⟨_, ?_, decoded_text.mpr ⟨h1, (legacy_utf8 h1).mpr h⟩⟩
    rwa [mem_escText (by decide) (by decide)]

omit [HtmlEntities] in
theorem escText_same {s : Bytes} : escText s = s ↔ ∀ b ∈ s, b ∉ b!"&$|" := by
  constructor
  · intro h
    induction s with
    | nil => simp
    | cons b s ih =>
      rw [escText_cons] at h
      have hb : b ∉ b!"&$|" := by
        intro hm
        have h1 : ∀ b ∈ b!"&$|", 1 < ((escapeCharString b).getD [b]).length := by decide
        have h2 := h1 b hm
        have hl := congrArg List.length h
        have h3 : s.length ≤ (escText s).length := by
          clear h hl ih
          induction s with
          | nil => simp
          | cons c s ih =>
            rw [escText_cons, List.length_append, List.length_cons]
            have : ∀ b : Byte, 1 ≤ ((escapeCharString b).getD [b]).length := by apply forall_byte; decide +kernel
            have := this c
            omega
        simp only [List.length_append, List.length_cons] at hl
        omega
      have hn : ∀ b : Byte, b ∉ b!"&$|" → escapeCharString b = none := by apply forall_byte; decide +kernel
      rw [hn b hb] at h
      simp only [Option.getD_none, List.cons_append, List.nil_append, List.cons.injEq, true_and] at h
      intro x hx
      rcases List.mem_cons.mp hx with rfl | hx
      · exact hb
      · exact ih h x hx
  · intro h
    induction s with
    | nil => rfl
    | cons b s ih =>
      have hn : ∀ b : Byte, b ∉ b!"&$|" → escapeCharString b = none := by apply forall_byte; decide +kernel
      rw [escText_cons, hn b (h b (by simp)), ih (fun x hx => h x (by simp [hx]))]
      rfl

/-! ## Descriptions -/

/-- As `legacy_escaped`, with more after it. -/
theorem legacy_more {tbl : Byte → Option Bytes} (ht : GoodTable tbl) (hn : ∀ b ∈ b!"/%DCN0123456789", tbl b = none) {s t x y : Bytes}
    (h : Legacy s t) (hx : Legacy x y) : ∃ u, Legacy (escWith tbl s ++ c!"<" :: x) (u ++ c!"<" :: y) ∧ ∀ z, htmlUnescape (u ++ z) = t ++ htmlUnescape z := by
  induction h with
  | nil => exact ⟨[], legacy_skip (v := b!"<") (by decide) hx, fun z => rfl⟩
  | @code k c s t he _ ih =>
    obtain ⟨u, h1, h2⟩ := ih
    have hk : escWith tbl k = k := by
      have hk : ∀ e ∈ legacyCodes, ∀ b ∈ e.1, b ∈ b!"/%DCN0123456789" := by decide
      have hk := hk _ he
      generalize k = k at hk
      induction k with
      | nil => rfl
      | cons x k ihk =>
        rw [escWith_cons, hn x (hk x (by simp)), ihk (fun b hb => hk b (by simp [hb]))]
        rfl
    have hc : c ≠ c!"&" := by
      have : ∀ e ∈ legacyCodes, e.2 ≠ c!"&" := by decide
      exact this _ he
    refine ⟨c :: u, ?_, fun z => by rw [List.cons_append, htmlUnescape_cons hc, h2, List.cons_append]⟩
    rw [escWith_append, hk, List.append_assoc]
    exact .code he h1
  | @other c s t hc _ ih =>
    obtain ⟨u, h1, h2⟩ := ih
    rw [escWith_cons]
    cases htb : tbl c with
    | none =>
      have hb : c ≠ c!"&" := by rintro rfl; exact ht.amp htb
      refine ⟨c :: u, .other (fun e he hp => hc e he ?_) h1, fun z => by rw [List.cons_append, htmlUnescape_cons hb, h2, List.cons_append]⟩
      have hamp : ∀ e ∈ legacyCodes, c!"&" ∉ e.1 ∧ c!"<" ∉ e.1 := by decide
      have : e.1 <+: escWith tbl (c :: s) := by
        obtain ⟨r, hr⟩ := hp
        have hr : escWith tbl (c :: s) ++ c!"<" :: x = e.1 ++ r := by rw [escWith_cons, htb]; exact hr
        rcases List.append_eq_append_iff.mp hr with ⟨z, h1, h2⟩ | ⟨z, h1, h2⟩
        · cases z with
          | nil => exact ⟨[], by simpa using h1⟩
          | cons w z =>
            exfalso
            simp only [List.cons_append, List.cons.injEq] at h2
            exact (hamp e he).2 (by rw [h1, ← h2.1]; simp)
        · exact ⟨z, h1.symm⟩
      obtain ⟨r, hr⟩ := prefix_escWith ht (hamp e he).1 this
      exact ⟨r, hr.symm⟩
    | some v =>
      refine ⟨v ++ u, ?_, fun z => ?_⟩
      · rw [Option.getD_some, List.append_assoc, List.append_assoc]
        exact legacy_skip (ht.noSlash c v htb) h1
      · rw [List.append_assoc, ht.unescape c v htb, h2, List.cons_append]

omit [HtmlEntities] in
theorem legacy_no_prefix {s t y : Bytes} {c : Byte} (h : Legacy s t) : s ≠ t ++ c :: y := by
  induction h with
  | nil => simp
  | @code k c' s t he _ _ =>
    intro h
    have : ∀ e ∈ legacyCodes, e.1.head? = some c!"/" ∧ e.2 ≠ c!"/" := by decide
    obtain ⟨h1, h2⟩ := this _ he
    have h3 := congrArg List.head? h
    simp only at h1 h2
    rw [List.head?_append, h1] at h3
    simp only [Option.some_or, List.cons_append, List.head?_cons, Option.some.injEq] at h3
    exact h2 h3.symm
  | other hc _ ih => intro h; simp only [List.cons_append, List.cons.injEq, true_and] at h; exact ih h

/-- What is after `<` cannot be part of a description. -/
theorem text_more {s x : Bytes} : ¬ Decoded none (escText s ++ c!"<" :: x) s := by
  intro h
  rw [escText_eq] at h
  obtain ⟨u, h1, h2⟩ := legacy_more goodString (by decide) (legacy_total s) (legacy_total x)
  unfold Decoded Recoded at h
  simp only at h
  obtain ⟨t, h3, h4, -⟩ := h
  have : t = u ++ c!"<" :: legacyReplace x := by rw [legacy_iff] at h1 h3; rw [← h3, ← h1]
  subst this
  rw [h2, htmlUnescape_cons (by decide)] at h4
  exact legacy_no_prefix (legacy_total s) h4

end

end Verif.Nmdc
