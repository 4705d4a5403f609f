import Verif.Spec.AdcWire
import Verif.Adc.MarshalLemmas
import Verif.Props.AdcLines
import Verif.Props.Identifiers

/-!
# Lemmas on the text of ADC messages
-/

namespace Verif.Adc

open Verif.Go Verif.Tiger Verif.Spec Verif.Spec.AdcWire Verif.Props.AdcText Verif.Props.AdcLines

/-! ## Separators -/

theorem intercalate_cons (sep p q : Bytes) (ps : List Bytes) :
    sep.intercalate (p :: q :: ps) = p ++ (sep ++ sep.intercalate (q :: ps)) := by
  simp [List.intercalate]

theorem join_eq (ps : List Bytes) (sep : Byte) : join ps sep = [sep].intercalate ps := by
  induction ps with
  | nil => simp [join, List.intercalate]
  | cons p ps ih =>
    cases ps with
    | nil => simp [join, List.intercalate]
    | cons q ps =>
      rw [intercalate_cons, ← ih]
      simp [join]

theorem split_free (s : Bytes) (sep : Byte) : ∀ p ∈ split s sep, sep ∉ p := by
  induction s with
  | nil => simp [split]
  | cons b s ih =>
    rw [split]
    split
    · intro p hp
      rcases List.mem_cons.mp hp with rfl | hp
      · simp
      · exact ih p hp
    · rename_i hb
      split
      · intro p hp
        rw [List.mem_singleton] at hp; subst hp
        simpa using fun h => hb h.symm
      · rename_i q qs hq
        rw [hq] at ih
        intro p hp
        rcases List.mem_cons.mp hp with rfl | hp
        · rw [List.mem_cons, not_or]
          exact ⟨fun h => hb h.symm, ih q (by simp)⟩
        · exact ih p (by simp [hp])

theorem join_split (s : Bytes) (sep : Byte) : join (split s sep) sep = s := by
  induction s with
  | nil => simp [split, join]
  | cons b s ih =>
    rw [split]
    have hne := split_ne_nil s sep
    split
    · rename_i hb
      cases h : split s sep with
      | nil => exact absurd h hne
      | cons q qs => rw [h] at ih; simp [join, ih, hb]
    · cases h : split s sep with
      | nil => exact absurd h hne
      | cons q qs =>
        rw [h] at ih
        cases qs with
        | nil => simp [join] at ih ⊢; exact ih
        | cons r rs => simp only [join] at ih ⊢; simp [ih]

theorem parts_iff (sep : Byte) (s : Bytes) (ps : List Bytes) : Parts sep s ps ↔ split s sep = ps := by
  constructor
  · rintro ⟨h1, h2, h3⟩
    rw [h3, ← join_eq, split_join h1 h2]
  · rintro rfl
    exact ⟨split_ne_nil s sep, split_free s sep, by rw [← join_eq, join_split]⟩

/-! ## Texts -/

theorem escape_eq (s : Bytes) : escape s = esc s := by
  induction s with
  | nil => rfl
  | cons c s ih =>
    rw [escape, ih, esc, esc, List.flatMap_cons]
    congr 1
    unfold escapeByte
    by_cases h1 : c = c!"\\"
    · subst h1; decide
    · rw [if_neg h1]
      by_cases h2 : c = c!" "
      · rw [if_pos h2, if_pos h2]
      · rw [if_neg h2, if_neg h2]
        by_cases h3 : c = c!"\n"
        · rw [if_pos h3, if_pos h3]
        · rw [if_neg h3, if_neg h3, if_neg h1]

theorem unescapes_self (s : Bytes) : Unescapes s (unescape s) := by
  fun_induction unescape s with
  | case1 => exact .nil
  | case2 c => exact .other (by simp) .nil
  | case3 c d s h ih => obtain ⟨rfl, rfl⟩ := h; exact .space ih
  | case4 c d s _ h ih => obtain ⟨rfl, rfl⟩ := h; exact .newline ih
  | case5 c d s _ _ h ih => obtain ⟨rfl, rfl⟩ := h; exact .backslash ih
  | case6 c d s h1 h2 h3 ih =>
    refine .other ?_ ih
    intro hc e he
    simp only [List.head?_cons, Option.mem_some_iff] at he
    subst he
    exact ⟨fun h => h1 ⟨hc, h⟩, fun h => h2 ⟨hc, h⟩, fun h => h3 ⟨hc, h⟩⟩

theorem unescapes_iff (s t : Bytes) : Unescapes s t ↔ unescape s = t := by
  constructor
  · intro h
    induction h with
    | nil => rfl
    | space _ ih => simp [unescape, ih]
    | newline _ ih => simp [unescape, ih]
    | backslash _ ih => simp [unescape, ih]
    | @other c s t hc _ ih =>
      cases s with
      | nil => rw [← ih]; simp [unescape]
      | cons d s =>
        by_cases h : c = c!"\\"
        · have := hc h d (by simp)
          rw [unescape, if_neg (fun e => this.1 e.2), if_neg (fun e => this.2.1 e.2), if_neg (fun e => this.2.2 e.2), ih]
        · rw [unescape_cons h, ih]
  · rintro rfl; exact unescapes_self s

/-! ## Writing -/

theorem base32_eq (h : Hash) : h.base32 = Base32.text h.bytes := Verif.Props.Identifiers.encode_is_base32 h.bytes

theorem marshalValue_plain (k : Kind) (h : plainKind k = true) (v : k.T) : marshalValue k v = .ok (AdcWire.text k v) := by
  cases k with
  | ptr => cases h
  | slice => cases h
  | str => exact congrArg Res.ok (escape_eq v)
  | int => exact congrArg Res.ok (itoa_decimal v)
  | bool => cases v <;> rfl
  | sid => rfl
  | cid => exact congrArg Res.ok (base32_eq v)
  | tth => exact congrArg Res.ok (base32_eq v)
  | feats => exact congrArg Res.ok ((feats_marshal_eq v).trans (join_eq _ _))
  | path =>
    refine congrArg Res.ok ((path_marshal_eq v).trans ((join_eq _ _).trans ?_))
    have : escape = esc := funext escape_eq
    rw [this]
    rfl

theorem marshalSlice_plain (tag : Bytes) (htag : tag ≠ b!"#") (k : Kind) (h : plainKind k = true) (vs : List k.T) (first : Bool) :
    marshalSlice tag k first vs = .ok (glue first ((vs.map (AdcWire.text k)).map (tag ++ ·)), if vs.map (AdcWire.text k) = [] then first else false) := by
  induction vs generalizing first with
  | nil => simp [marshalSlice, glue]
  | cons v vs ih =>
    simp only [marshalSlice, marshalValue_plain k h, ih, Res.ok_bind]
    rw [writeTag_ne htag]
    simp [glue]

theorem isZero_iff {k : Kind} {v : k.T} : isZero k v = true ↔ v = k.zero := by
  refine ⟨isZero_eq, ?_⟩
  rintro rfl
  cases k <;> first | rfl | decide +kernel

theorem marshalFields_parts : ∀ (fs : List Fld) (row : Row fs) (first : Bool), (∀ f ∈ fs, writable f = true) →
    marshalFields fs first row = .ok (glue first (rowParts fs row)) := by
  intro fs
  induction fs with
  | nil => intro row first _; rfl
  | cons f fs ih =>
    rintro ⟨v, row⟩ first hw
    have ih := fun fi => ih row fi (fun g hg => hw g (by simp [hg]))
    have hf := hw f (by simp)
    simp only [marshalFields, rowParts]
    obtain ⟨name, tag, req, k⟩ := f
    simp only at v ⊢
    by_cases hc : (Fld.omit ⟨name, tag, req, k⟩ && isZero k v) = true
    · rw [if_pos hc, ih]
      rw [Bool.and_eq_true] at hc
      have hz := isZero_iff.mp hc.2
      have ho := hc.1
      have hp : presence ⟨name, tag, req, k⟩ = .optional := by
        simp only [Fld.omit] at ho
        simp only [presence]
        cases req with
        | true => simp at ho
        | false => simpa using ho
      simp only [fieldParts, hp, hz, if_true, List.nil_append]
    · rw [if_neg hc]
      -- the parts of the field
      have hparts : fieldParts ⟨name, tag, req, k⟩ v = (texts k v).map (fun t => (if tag = b!"#" then [] else tag) ++ t) := by
        unfold fieldParts
        by_cases ht : tag = b!"#"
        · simp [presence, ht]
        · cases req with
          | true => simp [presence, ht]
          | false =>
            have : v ≠ k.zero := by
              intro hz
              apply hc
              rw [isZero_iff.mpr hz]
              simp [Fld.omit, ht]
            simp [presence, ht, this]
      have hfield : ∃ fi, marshalField tag first k v = .ok (glue first (fieldParts ⟨name, tag, req, k⟩ v), fi) ∧
          fi = (if fieldParts ⟨name, tag, req, k⟩ v = [] then first else false) := by
        rw [hparts]
        by_cases hs : ∃ k', k = .slice k'
        · obtain ⟨k', rfl⟩ := hs
          have hk : plainKind k' = true ∧ tag ≠ b!"#" := by simpa [writable] using hf
          refine ⟨_, ?_, rfl⟩
          simp only [marshalField, if_pos hk.2, texts, if_neg hk.2, List.map_eq_nil_iff]
          exact marshalSlice_plain tag hk.2 k' hk.1 v first
        · have hs : ∀ k', k ≠ .slice k' := fun k' hk => hs ⟨k', hk⟩
          have ht : texts k v = [AdcWire.text k v] := by cases k <;> first | rfl | exact absurd rfl (hs _)
          refine ⟨false, ?_, by simp [ht]⟩
          have hm : marshalValue k v = .ok (AdcWire.text k v) := by
            by_cases hk : ∃ k', k = .ptr k'
            · obtain ⟨k', rfl⟩ := hk
              have hk : plainKind k' = true ∧ Fld.omit ⟨name, tag, req, .ptr k'⟩ = true := by simpa [writable] using hf
              cases v with
              | none => exact absurd (by rw [hk.2]; rfl) hc
              | some v => exact marshalValue_plain k' hk.1 v
            · refine marshalValue_plain k ?_ v
              cases k <;> first | rfl | exact absurd rfl (hs _) | exact absurd ⟨_, rfl⟩ hk
          rw [marshalField_single _ _ _ _ hs, hm, ht]
          simp [glue, writeTag]
      obtain ⟨fi, h1, h2⟩ := hfield
      rw [h1]
      simp only [Res.ok_bind, ih, glue_append, h2]

theorem marshalRow_parts (fs : List Fld) (row : Row fs) (hw : ∀ f ∈ fs, writable f = true) :
    marshalRow fs row = .ok (b!" ".intercalate (rowParts fs row)) := by
  rw [marshalRow, marshalFields_parts fs row true hw, glue_join, join_eq]

/-! ## Reading -/

section
variable [ParseFloat]

set_option linter.unusedSectionVars false

theorem readsInt_iff (s : Bytes) (cur v : Int) : (if s.length = 0 then Res.ok (0 : Int) else unmarshalInt s cur) = .ok v ↔ ReadsInt cur s v := by
  unfold ReadsInt
  by_cases hs : s = []
  · simp [hs, eq_comm]
  · rw [if_neg (by simpa using hs), if_neg hs, unmarshalInt]
    cases hp : parseInt s 64 with
    | panic => exact absurd hp (parseInt_ne_panic s 64)
    | ok n =>
      have hn := (parseInt_ok (by omega) (by omega)).mp hp
      simp only [Res.ok.injEq]
      constructor
      · rintro rfl; exact .inl hn
      · rintro (h | ⟨h, _⟩)
        · have := (parseInt_ok (bits := 64) (by omega) (by omega)).mpr h
          rw [hp, Res.ok.injEq] at this
          exact this
        · exact absurd ⟨n, hn⟩ h
    | err e =>
      have hno : ¬ ∃ n, SignedNumeral s n ∧ -(2 ^ 63 : Int) ≤ n ∧ n < 2 ^ 63 := by
        rintro ⟨n, hn⟩
        have := (parseInt_ok (bits := 64) (by omega) (by omega)).mpr hn
        rw [hp] at this; cases this
      have hno' : ¬ (SignedNumeral s v ∧ -(2 ^ 63 : Int) ≤ v ∧ v < 2 ^ 63) := fun h => hno ⟨v, h⟩
      simp only [hno', false_or, hno, not_false_eq_true, true_and]
      cases ParseFloat.run s <;> simp [eq_comm]

theorem readsFeature_loop (arr v : List Feature) (ps : List Bytes) :
    ExtFeatures.unmarshalLoop arr ps = .ok v ↔ ∃ fs : List Feature, v = arr ++ fs ∧ ps = fs.map Feature.bytes := by
  induction ps generalizing arr with
  | nil =>
    simp only [ExtFeatures.unmarshalLoop, Res.ok.injEq]
    constructor
    · rintro rfl; exact ⟨[], by simp, rfl⟩
    · rintro ⟨fs, rfl, h⟩
      cases fs with
      | nil => simp
      | cons => simp at h
  | cons p ps ih =>
    simp only [ExtFeatures.unmarshalLoop, Res.bind_eq_ok, ih]
    constructor
    · rintro ⟨f, hf, fs, rfl, rfl⟩
      refine ⟨f :: fs, by simp, ?_⟩
      unfold Feature.unmarshal at hf
      split at hf
      · cases hf; rfl
      · cases hf
    · rintro ⟨fs, rfl, h⟩
      cases fs with
      | nil => simp at h
      | cons f fs =>
        simp only [List.map_cons, List.cons.injEq] at h
        exact ⟨f, by rw [h.1]; exact feature_roundtrip f, fs, by simp, h.2⟩

theorem readsFeats_iff (s : Bytes) (cur v : List Feature) : ExtFeatures.unmarshal s cur = .ok v ↔ ReadsFeats cur s v := by
  unfold ExtFeatures.unmarshal ReadsFeats
  by_cases hs : s = []
  · simp [hs, eq_comm]
  · rw [if_neg (by have := List.length_pos_iff.mpr hs; omega), if_neg hs, readsFeature_loop, parts_iff]
    simp

theorem path_loop (cur : Path) (ps : List Bytes) : Path.unmarshalLoop cur ps = .ok (cur ++ ps.map unescape) := by
  induction ps generalizing cur with
  | nil => simp [Path.unmarshalLoop]
  | cons p ps ih => simp [Path.unmarshalLoop, String.unmarshal, ih]

theorem readsPath_iff (s : Bytes) (cur v : List Bytes) : Path.unmarshal s cur = .ok v ↔ ReadsPath cur s v := by
  unfold Path.unmarshal ReadsPath
  rw [path_loop]
  simp only [parts_iff, unescapes_iff, Res.ok.injEq]
  constructor
  · intro h
    refine ⟨(split s c!"/").map (fun p => (p, unescape p)), by rw [List.map_map]; exact (List.map_id _).symm, by simp, ?_⟩
    rw [← h]
    simp
  · rintro ⟨es, h1, h2, rfl⟩
    rw [h1, List.map_map]
    congr 1
    apply List.map_congr_left
    intro e he
    exact h2 e he

theorem readsStr_iff (s v : Bytes) : (if s.length = 0 then Res.ok ([] : Bytes) else .ok (unescape s)) = .ok v ↔ Unescapes s v := by
  rw [unescapes_iff]
  by_cases h : s = []
  · subst h; simp [unescape]
  · rw [if_neg (by simpa using h), Res.ok.injEq]

theorem readsBool_iff (s : Bytes) (v : Bool) :
    (if s.length = 0 then Res.ok false else if s.length ≠ 1 then .err (.other 102) else .ok (s != [0])) = .ok v ↔
      (s = [] ∧ v = false) ∨ (∃ b, s = [b] ∧ (v = true ↔ b ≠ 0)) := by
  match s with
  | [] => cases v <;> simp
  | [b] =>
    have e : ([b] != [0]) = !decide (b = 0) := by by_cases hb : b = 0 <;> simp [hb]
    simp only [List.length_singleton, Nat.one_ne_zero, if_false, ne_eq, not_true_eq_false, Res.ok.injEq, e]
    constructor
    · rintro rfl
      refine .inr ⟨b, rfl, ?_⟩
      by_cases hb : b = 0 <;> simp [hb]
    · rintro (⟨h, _⟩ | ⟨b', h, h2⟩)
      · simp at h
      · cases h
        by_cases hb : b = 0
        · cases v <;> simp_all
        · cases v <;> simp_all
  | b :: c :: s => simp

theorem readsPtr_iff (s : Bytes) (k : Kind) (ih : ∀ v : k.T, unmarshalValue s k k.zero = .ok v ↔ Reads k k.zero s v) (v : Option k.T) :
    (if s.length = 0 then Res.ok none else (unmarshalValue s k k.zero).bind (fun v => .ok (some v))) = .ok v ↔
      (if s = [] then v = none else ∃ x, v = some x ∧ Reads k k.zero s x) := by
  by_cases hs : s = []
  · simp only [hs, List.length_nil, if_true, Res.ok.injEq]
    exact eq_comm
  · rw [if_neg (by simpa using hs), if_neg hs]
    have : ((unmarshalValue s k k.zero).bind (fun v => .ok (some v)) = Res.ok v) ↔
        ∃ x, unmarshalValue s k k.zero = .ok x ∧ Res.ok (some x) = Res.ok v := Res.bind_eq_ok
    rw [this]
    simp only [ih, Res.ok.injEq]
    constructor
    · rintro ⟨x, h1, h2⟩; exact ⟨x, h2.symm, h1⟩
    · rintro ⟨x, h1, h2⟩; exact ⟨x, h2, h1.symm⟩

theorem readsNil_iff {α : Type} (s : Bytes) (v : List α) :
    (if s.length = 0 then Res.ok [] else .err (.other 103)) = .ok v ↔ s = [] ∧ v = [] := by
  by_cases hs : s = []
  · simp only [hs, List.length_nil, if_true, Res.ok.injEq, true_and]
    exact eq_comm
  · rw [if_neg (by simpa using hs)]
    simp [hs]

theorem reads_iff (s : Bytes) : ∀ (k : Kind) (cur v : k.T), unmarshalValue s k cur = .ok v ↔ Reads k cur s v := by
  intro k
  induction k with
  | str => intro cur v; exact readsStr_iff s v
  | int => intro cur v; exact readsInt_iff s cur v
  | bool => intro cur v; exact readsBool_iff s v
  | sid =>
    intro cur v
    show (if h : s.length = 4 then Res.ok (⟨s, h⟩ : SID) else .err (.other 78)) = .ok v ↔ s = SID.bytes v
    constructor
    · intro h
      split at h
      · cases h; rfl
      · cases h
    · rintro rfl
      rw [dif_pos (SID.size v)]
      rfl
  | cid => intro cur v; exact Verif.Props.Identifiers.hash_exact s v
  | tth => intro cur v; exact Verif.Props.Identifiers.hash_buffer_exact s v
  | feats => intro cur v; exact readsFeats_iff s cur v
  | path => intro cur v; exact readsPath_iff s cur v
  | ptr k ih => intro cur v; exact readsPtr_iff s k (ih k.zero) v
  | slice k _ => intro cur v; exact readsNil_iff s v

theorem readsAll_iff (k : Kind) (ss : List Bytes) (vs : List k.T) : unmarshalSlice k ss = .ok vs ↔ ReadsAll k ss vs := by
  induction ss generalizing vs with
  | nil => simp [unmarshalSlice, ReadsAll, eq_comm]
  | cons s ss ih =>
    simp only [unmarshalSlice, ReadsAll, Res.bind_eq_ok, reads_iff, Res.ok.injEq, ih]
    constructor
    · rintro ⟨x, h1, xs, h2, h3⟩; exact ⟨x, xs, h3.symm, h1, h2⟩
    · rintro ⟨x, xs, h3, h1, h2⟩; exact ⟨x, h1, xs, h2, h3.symm⟩

theorem custom_iff (k : Kind) : k.custom = true ↔ takesFirst k := by
  cases k <;> simp [Kind.custom, takesFirst]

theorem readsField_iff (k : Kind) (cur v : k.T) (vals : List Bytes) : unmarshalTagged vals k cur = .ok v ↔ ReadsField k cur vals v := by
  cases vals with
  | nil =>
    rw [unmarshalTagged_nil]
    simp only [ReadsField, Res.ok.injEq]
    exact eq_comm
  | cons s ss =>
    by_cases hs : ∃ k', k = .slice k'
    · obtain ⟨k', rfl⟩ := hs
      exact readsAll_iff k' (s :: ss) v
    · have hs : ∀ k', k ≠ .slice k' := fun k' hk => hs ⟨k', hk⟩
      have e1 : unmarshalTagged (s :: ss) k cur = if k.custom = true then unmarshalValue s k cur
          else if ss.length > 0 then .err (.other 104) else unmarshalValue s k cur := by
        cases k <;> first | rfl | exact absurd rfl (hs _)
      have e2 : ReadsField k cur (s :: ss) v = ((ss = [] ∨ takesFirst k) ∧ Reads k cur s v) := by
        cases k <;> first | rfl | exact absurd rfl (hs _)
      rw [e1, e2, ← custom_iff, ← reads_iff]
      by_cases hc : k.custom = true
      · simp [hc]
      · rw [if_neg hc]
        cases ss with
        | nil => simp
        | cons => simp [hc]

theorem taggedVals_eq (tag : Bytes) (h : tag.length = 2) (ps : List Bytes) : taggedVals tag ps = valuesOf tag ps := by
  induction ps with
  | nil => rfl
  | cons p ps ih =>
    rw [taggedVals, valuesOf, List.filter_cons]
    by_cases hp : tag <+: p
    · rw [if_pos (by rw [hasPrefix_iff]; exact hp), if_pos (by simpa using hp), List.map_cons, h, ih]; rfl
    · rw [if_neg (by rw [hasPrefix_iff]; exact hp), if_neg (by simpa using hp), ih]; rfl

/-- How many fields have positions. -/
def positions (fs : List Fld) : Nat := (fs.filter (fun f => f.tag = b!"#")).length

theorem unmarshalFields_pos (f : Fld) (fs : List Fld) (h : f.tag = b!"#") (s : Bytes) (ps : List Bytes) (cur v : f.kind.T)
    (curs row : Row fs) : unmarshalFields (f :: fs) (s :: ps) (cur, curs) = .ok (v, row) ↔
      unmarshalValue s f.kind cur = .ok v ∧ unmarshalFields fs ps curs = .ok row := by
  simp only [unmarshalFields]
  rw [if_pos h]
  constructor
  · intro e
    obtain ⟨x, h1, e⟩ := Res.bind_eq_ok.mp e
    obtain ⟨r, h2, e⟩ := Res.bind_eq_ok.mp e
    have e : (x, r) = (v, row) := Res.ok.inj e
    rw [Prod.mk.injEq] at e
    rw [← e.1, ← e.2]
    exact ⟨h1, h2⟩
  · rintro ⟨h1, h2⟩
    rw [h1, Res.ok_bind, h2, Res.ok_bind]

theorem unmarshalFields_none (f : Fld) (fs : List Fld) (h : f.tag = b!"#") (cur v : f.kind.T)
    (curs row : Row fs) : unmarshalFields (f :: fs) [] (cur, curs) ≠ .ok (v, row) := by
  simp only [unmarshalFields]
  rw [if_pos h]
  simp

theorem unmarshalFields_named (f : Fld) (fs : List Fld) (h : f.tag ≠ b!"#") (ps : List Bytes) (cur v : f.kind.T)
    (curs row : Row fs) : unmarshalFields (f :: fs) ps (cur, curs) = .ok (v, row) ↔
      unmarshalTagged (taggedVals f.tag ps) f.kind cur = .ok v ∧ unmarshalFields fs ps curs = .ok row := by
  simp only [unmarshalFields]
  rw [if_neg h]
  constructor
  · intro e
    obtain ⟨x, h1, e⟩ := Res.bind_eq_ok.mp e
    obtain ⟨r, h2, e⟩ := Res.bind_eq_ok.mp e
    have e : (x, r) = (v, row) := Res.ok.inj e
    rw [Prod.mk.injEq] at e
    rw [← e.1, ← e.2]
    exact ⟨h1, h2⟩
  · rintro ⟨h1, h2⟩
    rw [h1, Res.ok_bind, h2, Res.ok_bind]

theorem readsNamed_iff : ∀ (fs : List Fld) (named : List Bytes) (cur row : Row fs), (∀ f ∈ fs, f.tag.length = 2) →
    (unmarshalFields fs named cur = .ok row ↔ ReadsRow fs [] named cur row) := by
  intro fs
  induction fs with
  | nil => intro named cur row _; exact ⟨fun _ => rfl, fun _ => rfl⟩
  | cons f fs ih =>
    rintro named ⟨cur, curs⟩ ⟨v, row⟩ hlen
    have h2 := hlen f (by simp)
    have ht : f.tag ≠ b!"#" := by intro h; rw [h] at h2; simp at h2
    have hp : presence f = .always ∨ presence f = .optional := by
      unfold presence; rw [if_neg ht]; split <;> simp
    have e : ReadsRow (f :: fs) [] named (cur, curs) (v, row) =
        (ReadsField f.kind cur (valuesOf f.tag named) v ∧ ReadsRow fs [] named curs row) := by
      rcases hp with hp | hp <;> simp only [ReadsRow, hp]
    rw [e, unmarshalFields_named f fs ht, taggedVals_eq _ h2, readsField_iff, ih named _ _ (fun g hg => hlen g (by simp [hg]))]

theorem readsRow_pos : ∀ (fs : List Fld) (pos named : List Bytes) (cur row : Row fs), ReadsRow fs pos named cur row → pos.length = positions fs := by
  intro fs
  induction fs with
  | nil => intro pos named cur row h; rw [ReadsRow] at h; rw [h]; rfl
  | cons f fs ih =>
    rintro pos named ⟨cur, curs⟩ ⟨v, row⟩ h
    simp only [ReadsRow] at h
    by_cases ht : f.tag = b!"#"
    · have hp : presence f = .positional := by simp [presence, ht]
      rw [hp] at h
      obtain ⟨s, rest, rfl, -, h⟩ := h
      have := ih rest named curs row h
      simp [positions, ht] at this ⊢
      exact this
    · have hp : presence f = .always ∨ presence f = .optional := by
        unfold presence; rw [if_neg ht]; split <;> simp
      have h : ReadsRow fs pos named curs row := by
        rcases hp with hp | hp <;> rw [hp] at h <;> exact h.2
      have := ih pos named curs row h
      simp [positions, ht] at this ⊢
      exact this

theorem readsFields_iff : ∀ (fs : List Fld) (ps : List Bytes) (cur row : Row fs), goodTable fs = true →
    (unmarshalFields fs ps cur = .ok row ↔ ∃ pos named, ps = pos ++ named ∧ ReadsRow fs pos named cur row) := by
  intro fs
  induction fs with
  | nil =>
    intro ps cur row _
    exact ⟨fun _ => ⟨[], ps, rfl, rfl⟩, fun _ => rfl⟩
  | cons f fs ih =>
    rintro ps ⟨cur, curs⟩ ⟨v, row⟩ hg
    by_cases htag : f.tag = b!"#"
    · simp only [goodTable, htag, if_true, Bool.and_eq_true] at hg
      have hp : presence f = .positional := by simp [presence, htag]
      simp only [ReadsRow, hp]
      cases ps with
      | nil =>
        constructor
        · intro h; exact absurd h (unmarshalFields_none f fs htag _ _ _ _)
        · rintro ⟨pos, named, h1, s, rest, rfl, -⟩
          simp at h1
      | cons s ps =>
        rw [unmarshalFields_pos f fs htag, reads_iff, ih ps _ _ hg.2]
        constructor
        · rintro ⟨h1, pos, named, h2, h3⟩
          exact ⟨s :: pos, named, by rw [h2]; rfl, s, pos, rfl, h1, h3⟩
        · rintro ⟨pos, named, h1, s', rest, rfl, h2, h3⟩
          rw [List.cons_append, List.cons.injEq] at h1
          obtain ⟨rfl, h1⟩ := h1
          exact ⟨h2, rest, named, h1, h3⟩
    · simp only [goodTable, htag, if_false, Bool.and_eq_true, List.all_eq_true, decide_eq_true_eq] at hg
      have hlen : ∀ g ∈ f :: fs, g.tag.length = 2 := fun g hgm => (hg.1 g hgm).1
      refine (readsNamed_iff (f :: fs) ps (cur, curs) (v, row) hlen).trans ?_
      constructor
      · intro h; exact ⟨[], ps, rfl, h⟩
      · rintro ⟨pos, named, rfl, h⟩
        have h0 := readsRow_pos _ _ _ _ _ h
        have : positions (f :: fs) = 0 := by
          simp only [positions, List.length_eq_zero_iff, List.filter_eq_nil_iff]
          intro g hgm
          have := hlen g hgm
          intro h
          simp only [decide_eq_true_eq] at h
          rw [h] at this
          simp at this
        rw [this, List.length_eq_zero_iff] at h0
        subst h0
        exact h

end

end Verif.Adc
