import Verif.Spec.AdcBack
import Verif.Props.AdcWire

/-!
# Lemmas on which ADC messages come back
-/

namespace Verif.Adc

open Verif.Go Verif.Tiger Verif.Spec Verif.Spec.AdcWire Verif.Spec.AdcBack Verif.Props.AdcText Verif.Props.AdcMessages

/-- What every value that was read satisfies. -/
def Got : (k : Kind) → k.T → Prop
  | .sid, v => IdBack v
  | .feats, v => FeaturesBack v
  | .path, v => PathBack v
  | .ptr k, v => ∀ x, v = some x → Got k x
  | _, _ => True

/-- The same for all fields. -/
def GotRow : (fs : List Fld) → Row fs → Prop
  | [], _ => True
  | f :: fs, (v, row) => Got f.kind v ∧ GotRow fs row

/-- The combinations of types and tags that occur. -/
def fieldCheck (f : Fld) : Bool :=
  match f.kind with
  | .bool => f.omit
  | .ptr .sid => f.omit
  | .ptr .cid => f.omit
  | .ptr .tth => f.omit
  | .ptr _ => false
  | .slice .str => f.tag != b!"#"
  | .slice _ => false
  | .path => f.tag == b!"#"
  | _ => true

theorem fields_checked (t : StructType) : t.fields.all fieldCheck = true := by cases t <;> decide +kernel

theorem mem_intercalate {sep c : Byte} {ps : List Bytes} {p : Bytes} (hp : p ∈ ps) (hc : c ∈ p) : c ∈ [sep].intercalate ps := by
  induction ps with
  | nil => simp at hp
  | cons q ps ih =>
    cases ps with
    | nil => simp at hp; subst hp; simpa [List.intercalate] using hc
    | cons r ps =>
      rw [intercalate_cons]
      rcases List.mem_cons.mp hp with rfl | hp
      · simp [hc]
      · have := ih hp
        simp [this]

theorem unescapes_slash {s t : Bytes} (h : Unescapes s t) (hs : c!"/" ∉ s) : c!"/" ∉ t := by
  induction h with
  | nil => exact hs
  | space _ ih => simp only [List.mem_cons, not_or] at hs ⊢; exact ⟨by decide, ih hs.2.2⟩
  | newline _ ih => simp only [List.mem_cons, not_or] at hs ⊢; exact ⟨by decide, ih hs.2.2⟩
  | backslash _ ih => simp only [List.mem_cons, not_or] at hs ⊢; exact ⟨by decide, ih hs.2.2⟩
  | other _ _ ih => simp only [List.mem_cons, not_or] at hs ⊢; exact ⟨hs.1, ih hs.2⟩

variable [ParseFloat]

theorem reads_got (s : Bytes) (hs : c!" " ∉ s) : ∀ (k : Kind) (v : k.T), Reads k k.zero s v → Got k v := by
  intro k
  induction k with
  | sid => intro v h; show c!" " ∉ SID.bytes v; rw [← (show s = SID.bytes v from h)]; exact hs
  | feats =>
    intro v h
    have h : ReadsFeats ([] : List Feature) s v := h
    show FeaturesBack v
    intro f hf
    unfold ReadsFeats at h
    split at h
    · rw [h] at hf; simp at hf
    · obtain ⟨_, h2, h3⟩ := h
      have hm : f.bytes ∈ List.map Feature.bytes v := List.mem_map_of_mem hf
      exact ⟨fun hc => hs (h3 ▸ mem_intercalate hm hc), h2 _ hm⟩
  | path =>
    intro v h
    have h : ReadsPath ([] : List Bytes) s v := h
    obtain ⟨es, ⟨h1, h2, h3⟩, h4, h5⟩ := h
    show PathBack v
    have h5 : v = es.map (·.2) := h5
    rw [h5]
    refine ⟨by simpa using h1, ?_⟩
    intro e he
    obtain ⟨x, hx, rfl⟩ := List.mem_map.mp he
    exact unescapes_slash (h4 x hx) (h2 _ (List.mem_map_of_mem hx))
  | ptr k ih =>
    intro v h
    simp only [Reads] at h
    show ∀ x, v = some x → Got k x
    intro x hx
    split at h
    · rw [h] at hx; cases hx
    · obtain ⟨y, h1, h2⟩ := h
      rw [h1] at hx
      cases hx
      exact ih _ h2
  | _ => intros; trivial

omit [ParseFloat] in
theorem got_zero (k : Kind) (h : k ≠ .path) : Got k k.zero := by
  cases k with
  | path => exact absurd rfl h
  | sid => show c!" " ∉ _; decide
  | feats => intro f hf; cases hf
  | ptr k => intro x hx; cases hx
  | _ => trivial

theorem readsField_got (k : Kind) (hk : k ≠ .path) (vals : List Bytes) (hv : ∀ s ∈ vals, c!" " ∉ s) (v : k.T)
    (h : ReadsField k k.zero vals v) : Got k v := by
  cases vals with
  | nil =>
    have : v = k.zero := by cases k <;> exact h
    rw [this]; exact got_zero k hk
  | cons s ss =>
    cases k with
    | slice k => trivial
    | path => exact absurd rfl hk
    | _ => exact reads_got s (hv s (by simp)) _ v h.2

omit [ParseFloat] in
theorem mem_valuesOf {tag s : Bytes} {ps : List Bytes} (h : s ∈ valuesOf tag ps) : ∃ p ∈ ps, s = p.drop 2 := by
  obtain ⟨p, hp, rfl⟩ := List.mem_map.mp h
  exact ⟨p, (List.mem_filter.mp hp).1, rfl⟩

theorem readsRow_got : ∀ (fs : List Fld) (pos named : List Bytes) (row : Row fs), fs.all fieldCheck = true →
    (∀ s ∈ pos, c!" " ∉ s) → (∀ s ∈ named, c!" " ∉ s) → ReadsRow fs pos named (Row.zero fs) row → GotRow fs row := by
  intro fs
  induction fs with
  | nil => intros; trivial
  | cons f fs ih =>
    rintro pos named ⟨v, row⟩ hc hp hn h
    rw [List.all_cons, Bool.and_eq_true] at hc
    simp only [Row.zero, ReadsRow] at h
    have tagged : f.tag ≠ b!"#" → ReadsField f.kind f.kind.zero (valuesOf f.tag named) v ∧ ReadsRow fs pos named (Row.zero fs) row →
        GotRow (f :: fs) (v, row) := by
      intro ht h
      refine ⟨readsField_got f.kind ?_ _ ?_ v h.1, ih pos named row hc.2 hp hn h.2⟩
      · intro hk
        have := hc.1
        unfold fieldCheck at this
        rw [hk] at this
        exact ht (by simpa using this)
      · intro s hs
        obtain ⟨p, hp, rfl⟩ := mem_valuesOf hs
        exact fun hm => hn p hp (List.mem_of_mem_drop hm)
    by_cases ht : f.tag = b!"#"
    · have e : presence f = .positional := by simp [presence, ht]
      rw [e] at h
      obtain ⟨s, rest, rfl, h1, h2⟩ := h
      exact ⟨reads_got s (hp s (by simp)) _ v h1, ih rest named row hc.2 (fun x hx => hp x (by simp [hx])) hn h2⟩
    · refine tagged ht ?_
      cases hr : f.req with
      | true => have e : presence f = .always := by simp [presence, ht, hr]
                rw [e] at h; exact h
      | false => have e : presence f = .optional := by simp [presence, ht, hr]
                 rw [e] at h; exact h

omit [ParseFloat] in
theorem fieldOk_of (f : Fld) (v : f.kind.T) (hc : fieldCheck f = true) (hg : Got f.kind v) (hh : Holds f.kind v) : FieldOk f v := by
  obtain ⟨name, tag, req, k⟩ := f
  cases k with
  | str => exact .inr trivial
  | int => exact .inr hh
  | bool =>
    cases v with
    | false => exact .inl ⟨hc, rfl⟩
    | true => exact .inr rfl
  | sid => exact .inr hg
  | cid => exact .inr trivial
  | tth => exact .inr trivial
  | feats => exact .inr (fun g hg' => ⟨(hg g hg').2, (hg g hg').1⟩)
  | path => exact .inr hg
  | ptr k =>
    cases v with
    | none =>
      refine .inl ⟨?_, rfl⟩
      cases k <;> first | exact hc | cases hc
    | some x =>
      refine .inr ⟨x, rfl, ?_, ?_⟩
      · cases k <;> first | exact hg x rfl | trivial | cases hc
      · cases k with
        | sid =>
          intro h
          have h : Res.ok (SID.bytes x) = .ok [] := h
          have := SID.size x
          rw [Res.ok.inj h] at this
          cases this
        | cid =>
          intro h
          have h : Res.ok (Hash.base32 x) = .ok [] := h
          have := Hash.base32_length x
          rw [Res.ok.inj h] at this
          cases this
        | tth =>
          intro h
          have h : Res.ok (Hash.base32 x) = .ok [] := h
          have := Hash.base32_length x
          rw [Res.ok.inj h] at this
          cases this
        | _ => cases hc
  | slice k =>
    cases k with
    | str => exact .inr (fun _ _ => trivial)
    | _ => cases hc

omit [ParseFloat] in
theorem rowOk_of : ∀ (fs : List Fld) (row : Row fs), fs.all fieldCheck = true → GotRow fs row → HoldsRow fs row → RowOk fs row := by
  intro fs
  induction fs with
  | nil => intros; trivial
  | cons f fs ih =>
    rintro ⟨v, row⟩ hc hg hh
    rw [List.all_cons, Bool.and_eq_true] at hc
    exact ⟨fieldOk_of f v hc.1 hg.1 hh.1, ih row hc.2 hg.2 hh.2⟩

omit [ParseFloat] in
theorem gotRow_iff (t : StructType) (row : Row t.fields) : GotRow t.fields row ↔ StructBack t row := by
  cases t with
  | chat => obtain ⟨a, b, r⟩ := row; exact ⟨fun h => h.2.1, fun h => ⟨trivial, h, trivial, trivial, trivial⟩⟩
  | userCommand => obtain ⟨a, r⟩ := row; exact ⟨fun h => h.1, fun h => ⟨h, trivial, trivial, trivial, trivial, trivial, trivial⟩⟩
  | disconnect =>
    obtain ⟨a, b, c, r⟩ := row
    exact ⟨fun h => ⟨h.1, h.2.2.1⟩, fun h => ⟨h.1, trivial, h.2, trivial, trivial, trivial⟩⟩
  | userInfo =>
    obtain ⟨x1, x2, x3, x4, x5, x6, x7, x8, x9, x10, x11, x12, x13, x14, x15, x16, x17, x18, x19, x20, x21, x22, x23, x24, x25, fe, r⟩ := row
    constructor
    · intro h
      exact h.2.2.2.2.2.2.2.2.2.2.2.2.2.2.2.2.2.2.2.2.2.2.2.2.2.1
    · intro h
      iterate 25 refine ⟨by first | trivial | exact fun _ _ => trivial, ?_⟩
      exact ⟨h, trivial, trivial, trivial⟩
  | _ =>
    refine ⟨fun _ => trivial, fun _ => ?_⟩
    repeat first | exact trivial | exact fun _ _ => trivial | refine ⟨?_, ?_⟩

/-! ## Escape sequences -/

/-- No escape sequence occurs. -/
def NoEsc (s : Bytes) : Prop := ∀ a b e, s ≠ a ++ c!"\\" :: e :: b ∨ (e ≠ c!"s" ∧ e ≠ c!"n" ∧ e ≠ c!"\\")

omit [ParseFloat] in
theorem noEsc_tail {c : Byte} {s : Bytes} (h : NoEsc (c :: s)) : NoEsc s := by
  intro a b e
  rcases h (c :: a) b e with h | h
  · exact .inl (fun hs => h (by rw [hs]; rfl))
  · exact .inr h

omit [ParseFloat] in
theorem unescapes_of_noEsc {s : Bytes} (h : NoEsc s) : Unescapes s s := by
  induction s with
  | nil => exact .nil
  | cons c s ih =>
    refine .other ?_ (ih (noEsc_tail h))
    rintro rfl d hd
    cases s with
    | nil => cases hd
    | cons x s =>
      cases hd
      rcases h [] s d with h | h
      · exact absurd rfl h
      · exact h

omit [ParseFloat] in
theorem unescapes_length {s t : Bytes} (h : Unescapes s t) : t.length ≤ s.length ∧ (t.length = s.length → t = s ∧ NoEsc s) := by
  induction h with
  | nil =>
    refine ⟨Nat.le_refl _, fun _ => ⟨rfl, ?_⟩⟩
    intro a b e
    exact .inl (by simp)
  | space _ ih => simp only [List.length_cons]; omega
  | newline _ ih => simp only [List.length_cons]; omega
  | backslash _ ih => simp only [List.length_cons]; omega
  | @other c s t hc _ ih =>
    refine ⟨by simpa using ih.1, fun hl => ?_⟩
    obtain ⟨rfl, h2⟩ := ih.2 (by simpa using hl)
    refine ⟨rfl, ?_⟩
    intro a b e
    cases a with
    | nil =>
      by_cases he : c :: t = c!"\\" :: e :: b
      · simp only [List.cons.injEq] at he
        exact .inr (hc he.1 e (by rw [he.2]; rfl))
      · exact .inl he
    | cons x a =>
      rcases h2 a b e with h | h
      · exact .inl (fun hs => h (by simp at hs; exact hs.2))
      · exact .inr h

/-! ## Feature maps -/

theorem split_both (a b : Bytes) (sep : Byte) : split (a ++ sep :: b) sep = split a sep ++ split b sep := by
  generalize hn : a.length = n
  induction n using Nat.strongRecOn generalizing a with
  | ind n ih =>
    rcases Verif.Props.AdcWire.cut_cases a sep with ⟨h, _⟩ | ⟨x, y, h, rfl, _⟩
    · rw [split_append h, split_of_not_mem h]; rfl
    · rw [List.append_assoc, List.cons_append, split_append h, split_append h, ih y.length (by simp at hn; omega) y rfl]
      rfl

/-- What is before the first separator of a part is a part of the whole. -/
theorem first_piece {ps : List Bytes} {p : Bytes} {sep : Byte} (hp : p ∈ ps) :
    ∃ x y, p = x ++ y ∧ sep ∉ x ∧ (y = [] ∨ ∃ z, y = sep :: z) ∧ x ∈ split (join ps sep) sep := by
  have first : ∃ x y, p = x ++ y ∧ sep ∉ x ∧ (y = [] ∨ ∃ z, y = sep :: z) ∧ x ∈ split p sep := by
    rcases Verif.Props.AdcWire.cut_cases p sep with ⟨h, _⟩ | ⟨x, y, h, rfl, _⟩
    · exact ⟨p, [], by simp, h, .inl rfl, by rw [split_of_not_mem h]; simp⟩
    · exact ⟨x, _, rfl, h, .inr ⟨y, rfl⟩, by rw [split_append h]; simp⟩
  obtain ⟨x, y, h1, h2, h3, h4⟩ := first
  refine ⟨x, y, h1, h2, h3, ?_⟩
  clear h1 h3
  induction ps with
  | nil => simp at hp
  | cons q ps ih =>
    cases ps with
    | nil =>
      simp at hp; subst hp
      simpa [join] using h4
    | cons r ps =>
      rw [join, split_both, List.mem_append]
      · rcases List.mem_cons.mp hp with rfl | hp
        · exact .inl h4
        · exact .inr (ih hp)
      · simp

omit [ParseFloat] in
theorem modAssign_sizes {ns : List Bytes} {m m' : FeaList} {st : Bool} (h : modAssign m st ns = .ok m') : ∀ n ∈ ns, n.length = 4 := by
  induction ns generalizing m with
  | nil => simp
  | cons n ns ih =>
    rw [modAssign, Res.bind_eq_ok] at h
    obtain ⟨fea, h1, h2⟩ := h
    intro x hx
    rcases List.mem_cons.mp hx with rfl | hx
    · unfold Feature.unmarshal at h1
      split at h1
      · assumption
      · cases h1
    · exact ih h2 x hx

theorem slice_mem {ss vs : List Bytes} (h : ReadsAll .str ss vs) : ∀ s ∈ ss, ∃ v ∈ vs, Unescapes s v := by
  induction ss generalizing vs with
  | nil => simp
  | cons s ss ih =>
    obtain ⟨x, xs, rfl, h1, h2⟩ := h
    intro y hy
    rcases List.mem_cons.mp hy with rfl | hy
    · exact ⟨x, List.mem_cons_self, h1⟩
    · obtain ⟨v, hv, h⟩ := ih h2 y hy
      exact ⟨v, List.mem_cons_of_mem _ hv, h⟩

theorem tagged_mem {ss vs : List Bytes} (h : unmarshalTagged ss (.slice .str) ([] : List Bytes) = .ok vs) :
    ∀ s ∈ ss, ∃ v ∈ vs, Unescapes s v := by
  cases ss with
  | nil => simp
  | cons s ss => exact slice_mem ((readsAll_iff .str _ _).mp h)

open Verif.Props.AdcFeatures in
/-- A feature map that can be read at all has only features that come back. -/
theorem features_clean {f : ModFeatures} {cur m : ModFeatures} (h : ModFeatures.unmarshal f.marshal cur = .ok m) :
    ∀ e ∈ f.entries, KeyBack e.1 := by
  rw [ModFeatures.unmarshal, Res.bind_eq_ok] at h
  obtain ⟨⟨adds, rms, u⟩, h1, h⟩ := h
  rw [Res.bind_eq_ok] at h
  obtain ⟨m1, h2, h⟩ := h
  rw [Res.bind_eq_ok] at h
  obtain ⟨m2, h3, h⟩ := h
  have s1 := modAssign_sizes h2
  have s2 := modAssign_sizes h3
  have h1 : (unmarshalTagged (taggedVals b!"AD" (split f.marshal c!" ")) (.slice .str) ([] : List Bytes) >>= fun x =>
      (unmarshalTagged (taggedVals b!"RM" (split f.marshal c!" ")) (.slice .str) ([] : List Bytes) >>= fun y => Res.ok (y, ())) >>= fun r =>
        Res.ok (x, r)) = .ok (adds, rms, u) := h1
  rw [Res.bind_eq_ok] at h1
  obtain ⟨x, hx, h1⟩ := h1
  simp only [Res.bind_eq_ok] at h1
  obtain ⟨r, ⟨y, hy, h1⟩, h4⟩ := h1
  cases h1
  cases h4
  have hj : f.marshal = join (f.entries.map (fun e => tagOf e.2 ++ e.1.bytes)) c!" " := by
    rw [ModFeatures.marshal, modMarshal_eq, glue_join]
  have all : ∀ st, ∀ s ∈ taggedVals (tagOf st) (split f.marshal c!" "), ∃ v : Bytes, v.length = 4 ∧ Unescapes s v := by
    intro st s hs
    cases st with
    | true => obtain ⟨v, hv, h⟩ := tagged_mem hx s hs; exact ⟨v, s2 v hv, h⟩
    | false => obtain ⟨v, hv, h⟩ := tagged_mem hy s hs; exact ⟨v, s1 v hv, h⟩
  rintro ⟨k, st⟩ he
  obtain ⟨p, q, e1, e2, e3, e4⟩ := first_piece (sep := c!" ") (List.mem_map_of_mem (f := fun e : Feature × Bool => tagOf e.2 ++ e.1.bytes) he)
  simp only at e1 e3
  have ht : c!" " ∉ tagOf st := by cases st <;> decide
  have hl : (tagOf st).length = 2 := by cases st <;> rfl
  -- the piece has the tag
  have hp : ∃ z, p = tagOf st ++ z ∧ k.bytes = z ++ q := by
    rcases List.append_eq_append_iff.mp e1 with ⟨z, h1, h2⟩ | ⟨z, h1, h2⟩
    · exact ⟨z, h1, h2⟩
    · cases z with
      | nil => exact ⟨[], by simpa using h1.symm, by simpa using h2.symm⟩
      | cons c z =>
        exfalso
        rcases e3 with rfl | ⟨w, rfl⟩
        · cases h2
        · simp only [List.cons_append, List.cons.injEq] at h2
          exact ht (by rw [h1, ← h2.1]; simp)
  obtain ⟨z, rfl, hz⟩ := hp
  have hmem : z ∈ taggedVals (tagOf st) (split f.marshal c!" ") := by
    rw [taggedVals_eq _ hl, hj]
    refine List.mem_map.mpr ⟨tagOf st ++ z, List.mem_filter.mpr ⟨e4, by simp⟩, ?_⟩
    rw [List.drop_left' hl]
  obtain ⟨v, hv, hu⟩ := all st z hmem
  have hlen := unescapes_length hu
  have hk := k.size
  rw [hz, List.length_append] at hk
  have hq : q = [] := List.eq_nil_of_length_eq_zero (by omega)
  subst hq
  rw [List.append_nil] at hz
  refine ⟨by rw [hz]; intro hm; exact e2 (by simp [hm]), ?_⟩
  rw [hz]
  exact (hlen.2 (by omega)).2

open Verif.Props.AdcFeatures in
/-- Feature maps come back exactly if all their features do. -/
theorem features_back (f : ModFeatures) (hf : f.Wf) :
    (∃ m, ModFeatures.unmarshal f.marshal none = .ok m ∧ ∀ k, f.get k = m.get k) ↔ ∀ k, f.get k ≠ none → KeyBack k := by
  have mem : ∀ k, f.get k ≠ none ↔ ∃ v, (k, v) ∈ f.entries := by
    intro k
    cases h : f.get k with
    | none =>
      refine ⟨fun h => absurd rfl h, ?_⟩
      rintro ⟨v, hv⟩
      have := (get_of_mem hf).mpr hv
      rw [ModFeatures.get] at h
      rw [h] at this; cases this
    | some v => exact ⟨fun _ => ⟨v, (get_of_mem hf).mp h⟩, fun _ h => by cases h⟩
  constructor
  · rintro ⟨m, h, _⟩ k hk
    obtain ⟨v, hv⟩ := (mem k).mp hk
    exact features_clean h _ hv
  · intro h
    obtain ⟨m, h1, _, h3⟩ := feature_map_clean f none hf List.nodup_nil (by
      rintro ⟨k, v⟩ he
      have := h k ((mem k).mpr ⟨v, he⟩)
      exact ⟨this.1, (unescapes_iff _ _).mp (unescapes_of_noEsc this.2)⟩)
    refine ⟨some m, h1, fun k => ?_⟩
    have := h3 k
    have e : ModFeatures.get none k = none := rfl
    rw [e, Option.or_none] at this
    exact this.symm

/-! ## Parameters -/

omit [ParseFloat] in
theorem escape_same {s : Bytes} : escape s = s ↔ c!" " ∉ s ∧ c!"\n" ∉ s ∧ c!"\\" ∉ s := by
  constructor
  · intro h
    have hc := escape_clean s
    rw [h] at hc
    refine ⟨hc.1, hc.2, ?_⟩
    intro hm
    obtain ⟨a, b, rfl⟩ := List.append_of_mem hm
    have hu := unescapes_self (a ++ c!"\\" :: b)
    have e : unescape (a ++ c!"\\" :: b) = a ++ c!"\\" :: b := by
      have := unescape_escape (a ++ c!"\\" :: b)
      rwa [h] at this
    rw [e] at hu
    have hn := ((unescapes_length hu).2 rfl).2
    have e2 : a ++ c!"\\" :: b = esc a ++ c!"\\" :: c!"\\" :: esc b := by
      rw [← h, escape_eq]
      simp [esc]
    rw [e2] at hn
    rcases hn (esc a) (esc b) c!"\\" with h | h
    · exact h rfl
    · exact h.2.2 rfl
  · rintro ⟨h1, h2, h3⟩
    exact (plain_text s).2 h3 h1 h2

theorem params_back (f : Fields) : Fields.unmarshal f.marshal = .ok f ↔ ∀ x ∈ f, ParamBack x := by
  constructor
  · intro h x hx
    have ht : ∀ x ∈ f, c!" " ∉ x.tag := by
      have := h
      rw [Verif.Props.AdcWire.fields_reads] at this
      split at this
      · rw [this]; simp
      · intro y hy hm
        exact this.2.1 _ (List.mem_map_of_mem hy) (by simp [hm])
    exact ⟨ht x hx, escape_same.mp ((fields_roundtrip_iff f ht).mp h x hx)⟩
  · intro h
    exact (fields_roundtrip_iff f (fun x hx => (h x hx).1)).mpr (fun x hx => escape_same.mpr (h x hx).2)

/-! ## Status messages -/

set_option linter.unusedSectionVars false

theorem signed_no_inner_minus {a b : Bytes} {n : Int} (ha : a ≠ []) (h : SignedNumeral (a ++ c!"-" :: b) n) : False := by
  have key : ∀ {d x y : Bytes}, IsNumeral d → d = x ++ c!"-" :: y → False := by
    rintro d x y ⟨_, h⟩ rfl
    exact absurd (h c!"-" (by simp)) (by decide)
  cases a with
  | nil => exact ha rfl
  | cons c a =>
    generalize hs : c :: a ++ c!"-" :: b = s at h
    cases h with
    | plain h => exact key h hs.symm
    | plus h => simp at hs; exact key h hs.2.symm
    | minus h => simp at hs; exact key h hs.2.symm

theorem itoa_neg {n : Int} (h : n < 0) : ∃ d, itoa n = c!"-" :: d ∧ IsNumeral d ∧ (value d : Int) = -n := by
  have := itoa_signed n
  generalize hs : itoa n = s at this
  cases this with
  | plain => omega
  | plus => omega
  | minus hd => rename_i d; exact ⟨d, rfl, hd, by omega⟩

theorem status_text (s : Status) : s.marshal = (itoa s.sev ++ pad2 s.code) ++ c!" " :: escape s.msg := by simp [Status.marshal]

theorem head_no_space (s : Status) : c!" " ∉ itoa s.sev ++ pad2 s.code := by
  have h := itoa_no_space
  simp only [List.mem_append, not_or, pad2]
  refine ⟨h _, ?_⟩
  split
  · simp [h]
  · exact h _

theorem status_back (s : Status) : Status.unmarshal s.marshal = .ok s ↔ StatusBack s := by
  constructor
  · intro h
    rw [Verif.Props.AdcWire.status_reads] at h
    obtain ⟨c, n, hc, ⟨hn, hf⟩, h1, h2, h3⟩ := h
    have hcut : c = itoa s.sev ++ pad2 s.code := by
      rw [status_text] at h3
      rcases h3 with ⟨rfl, _⟩ | ⟨m, e, _⟩
      · simp at hc
      · exact (Verif.Props.AdcWire.append_cut (head_no_space s) hc e).1.symm
    have hd := Int.mul_tdiv_add_tmod n 100
    rw [← h1, ← h2] at hd
    have hm := Int.tmod_lt_of_pos n (b := 100) (by omega)
    rw [← h2] at hm
    by_cases hn0 : 0 ≤ n
    · have a := Int.tdiv_nonneg hn0 (b := 100) (by omega)
      have b := Int.tmod_nonneg (b := 100) (a := n) hn0
      rw [← h1] at a
      rw [← h2] at b
      exact ⟨.inl a, b, hm, by rw [hd]; exact hf⟩
    · have b := Int.tmod_nonneg (b := 100) (a := -n) (by omega)
      rw [Int.neg_tmod, ← h2] at b
      by_cases hz : s.code = 0
      · exact ⟨.inr hz, by omega, by omega, by rw [hd]; exact hf⟩
      · exfalso
        obtain ⟨d, e, hd2, _⟩ := itoa_neg (n := s.code) (by omega)
        have : pad2 s.code = c!"-" :: d := by
          rw [pad2, e, if_neg]
          have := List.length_pos_iff.mpr hd2.1
          simp only [List.length_cons]; omega
        rw [this] at hcut
        rw [hcut] at hn
        exact signed_no_inner_minus (itoa_ne_nil _) hn
  · rintro ⟨h1, h2, h3, h4⟩
    by_cases hs : 0 ≤ s.sev
    · exact status_roundtrip_partial s hs h2 h3 h4.2
    · have hz : s.code = 0 := by omega
      obtain ⟨sev, code, msg⟩ := s
      simp only [Fits] at h1 h2 h3 h4 hs hz
      subst hz
      rw [Verif.Props.AdcWire.status_reads]
      have e0 : pad2 0 = b!"00" := by decide +kernel
      obtain ⟨d, e, hd, hv⟩ := itoa_neg (n := sev) (by omega)
      refine ⟨itoa sev ++ b!"00", 100 * sev, ?_, ⟨?_, by omega, by omega⟩, ?_, ?_, .inr ⟨escape msg, ?_, ?_⟩⟩
      · exact e0 ▸ head_no_space ⟨sev, 0, msg⟩
      · have : (100 * sev : Int) = -(value (d ++ b!"00") : Int) := by
          rw [value_append]
          have e2 : value b!"00" = 0 := rfl
          rw [e2]; simp only [List.length_cons, List.length_nil]; omega
        rw [this, e]
        refine .minus ⟨by simp, ?_⟩
        intro b hb
        rcases List.mem_append.mp hb with hb | hb
        · exact hd.2 b hb
        · simp at hb; subst hb; decide
      · show sev = _
        simp
      · show (0 : Int) = _
        simp
      · exact e0 ▸ status_text ⟨sev, 0, msg⟩
      · rw [unescapes_iff, Verif.Props.AdcText.unescape_escape]


/-! ## Structs -/

theorem struct_back (t : StructType) (row : Row t.fields) (hv : HoldsRow t.fields row) :
    (∃ b, (Msg.struct t row).marshal = .ok b ∧ (t.new).unmarshalTo b = .ok (.struct t row)) ↔ StructBack t row := by
  constructor
  · rintro ⟨b, _, h⟩
    obtain ⟨pos, named, ⟨_, hp, _⟩, h⟩ := (Verif.Props.AdcWire.struct_reads t b (Row.zero _) row).mp h
    exact (gotRow_iff t row).mp (readsRow_got t.fields pos named row (fields_checked t) (fun s hs => hp s (by simp [hs]))
      (fun s hs => hp s (by simp [hs])) h)
  · intro h
    exact struct_roundtrip t row (rowOk_of t.fields row (fields_checked t) ((gotRow_iff t row).mpr h) hv)

/-! ## What was received -/

theorem reads_holds (hp : ∀ s v, ParseFloat.run s = .whole v → Fits v) (s : Bytes) :
    ∀ (k : Kind) (v : k.T), Reads k k.zero s v → Holds k v := by
  intro k
  induction k with
  | int =>
    intro v h
    have h : ReadsInt 0 s v := h
    show Fits v
    unfold ReadsInt at h
    split at h
    · rw [h]; unfold Fits; omega
    · rcases h with h | ⟨_, h | ⟨_, h⟩⟩
      · exact h.2
      · exact hp s v h
      · rw [h]; unfold Fits; omega
  | ptr k ih =>
    intro v h
    simp only [Reads] at h
    show ∀ x, v = some x → Holds k x
    intro x hx
    split at h
    · rw [h] at hx; cases hx
    · obtain ⟨y, h1, h2⟩ := h
      rw [h1] at hx
      cases hx
      exact ih _ h2
  | slice k _ =>
    intro v h x hx
    have e : v = [] := h.2
    subst e
    cases hx
  | _ => intros; trivial

omit [ParseFloat] in
theorem holds_zero (k : Kind) : Holds k k.zero := by
  cases k with
  | int => show Fits 0; unfold Fits; omega
  | ptr k => intro x hx; cases hx
  | slice k => intro x hx; cases hx
  | _ => trivial

theorem readsField_holds (hp : ∀ s v, ParseFloat.run s = .whole v → Fits v) (k : Kind) (vals : List Bytes) (v : k.T)
    (h : ReadsField k k.zero vals v) : Holds k v := by
  cases vals with
  | nil =>
    have : v = k.zero := by cases k <;> exact h
    rw [this]; exact holds_zero k
  | cons s ss =>
    cases k with
    | slice k =>
      have h0 : ReadsAll k (s :: ss) v := h
      clear h
      have h := h0
      clear h0
      show ∀ x : k.T, List.Mem x v → Holds k x
      generalize s :: ss = l at h
      induction l generalizing v with
      | nil => rw [show v = [] from h]; intro x hx; cases hx
      | cons s ss ih =>
        obtain ⟨y, ys, e, h1, h2⟩ := h
        rw [e]
        intro x hx
        cases hx with
        | head => exact reads_holds hp s k _ h1
        | tail _ hx => exact ih ys h2 x hx
    | _ => exact reads_holds hp s _ v h.2

theorem readsRow_holds (hp : ∀ s v, ParseFloat.run s = .whole v → Fits v) : ∀ (fs : List Fld) (pos named : List Bytes) (row : Row fs),
    ReadsRow fs pos named (Row.zero fs) row → HoldsRow fs row := by
  intro fs
  induction fs with
  | nil => intros; trivial
  | cons f fs ih =>
    rintro pos named ⟨v, row⟩ h
    simp only [Row.zero, ReadsRow] at h
    cases e : presence f with
    | positional =>
      rw [e] at h
      obtain ⟨s, rest, rfl, h1, h2⟩ := h
      exact ⟨reads_holds hp s _ v h1, ih rest named row h2⟩
    | always => rw [e] at h; exact ⟨readsField_holds hp _ _ v h.1, ih pos named row h.2⟩
    | optional => rw [e] at h; exact ⟨readsField_holds hp _ _ v h.1, ih pos named row h.2⟩

theorem struct_received (t : StructType) (data : Bytes) (row : Row t.fields) (h : t.new.unmarshalTo data = .ok (.struct t row)) :
    StructBack t row ∧ ((∀ s v, ParseFloat.run s = .whole v → Fits v) → HoldsRow t.fields row) := by
  obtain ⟨pos, named, ⟨_, hp, _⟩, h⟩ := (Verif.Props.AdcWire.struct_reads t data (Row.zero _) row).mp h
  exact ⟨(gotRow_iff t row).mp (readsRow_got t.fields pos named row (fields_checked t) (fun s hs => hp s (by simp [hs]))
    (fun s hs => hp s (by simp [hs])) h), fun hf => readsRow_holds hf t.fields pos named row h⟩

end Verif.Adc
