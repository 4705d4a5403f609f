import Verif.Adc.Marshal
import Verif.Props.AdcText

/-!
# Lemmas on the reflection codec
-/

namespace Verif.Adc

open Verif.Go Verif.Tiger Verif.Spec Verif.Props.AdcText

/-- A 64-bit number. -/
def IntOk (v : Int) : Prop := -(2 ^ 63 : Int) ≤ v ∧ v < 2 ^ 63

/-- A list of features without separators in them. -/
def FeatsOk (v : List Feature) : Prop := ∀ f ∈ v, c!"," ∉ f.bytes ∧ c!" " ∉ f.bytes

/-- A path that is not empty, of elements without slash. -/
def PathOk (v : List Bytes) : Prop := v ≠ [] ∧ ∀ a ∈ v, c!"/" ∉ a

/-- Single values that come back from their text. -/
def ValOk : (k : Kind) → k.T → Prop
  | .str, _ => True
  | .int, v => IntOk v
  | .bool, v => v = true
  | .sid, v => c!" " ∉ SID.bytes v
  | .cid, _ => True
  | .tth, _ => True
  | .feats, v => FeatsOk v
  | .path, v => PathOk v
  | .ptr k, v => ∃ x, v = some x ∧ ValOk k x ∧ marshalValue k x ≠ .ok []
  | .slice _, _ => False

/-- All elements come back. -/
def AllOk (k : Kind) (v : List k.T) : Prop := ∀ x ∈ v, ValOk k x

/-- Values of fields that come back. -/
def KindOk : (k : Kind) → k.T → Prop
  | .slice k, v => AllOk k v
  | k, v => ValOk k v

/-- Fields that come back: a field left out, or a value as above. -/
def FieldOk (f : Fld) (v : f.kind.T) : Prop := (f.omit = true ∧ isZero f.kind v = true) ∨ KindOk f.kind v

/-- All fields come back. -/
def RowOk : (fs : List Fld) → Row fs → Prop
  | [], _ => True
  | f :: fs, (v, row) => FieldOk f v ∧ RowOk fs row

theorem eqZero_eq {α : Type} [DecidableEq α] {v z : α} (h : eqZero v z = true) : v = z := of_decide_eq_true h

theorem isZero_eq {k : Kind} {v : k.T} (h : isZero k v = true) : v = k.zero := by
  cases k with
  | feats => exact List.isEmpty_iff.mp h
  | path => exact List.isEmpty_iff.mp h
  | slice => exact List.isEmpty_iff.mp h
  | ptr => exact Option.isNone_iff_eq_none.mp h
  | str => exact eqZero_eq (α := Bytes) h
  | int => exact eqZero_eq (α := Int) h
  | bool => exact eqZero_eq (α := Bool) h
  | sid => exact eqZero_eq (α := SID) h
  | cid => exact eqZero_eq (α := Hash) h
  | tth => exact eqZero_eq (α := Hash) h

theorem mem_join {ps : List Bytes} {sep c : Byte} (h : c ∈ join ps sep) : c = sep ∨ ∃ p ∈ ps, c ∈ p := by
  induction ps with
  | nil => simp [join] at h
  | cons p ps ih =>
    cases ps with
    | nil => simp [join] at h; exact .inr ⟨p, by simp, h⟩
    | cons q ps =>
      rw [join, List.mem_append, List.mem_cons] at h
      rcases h with h | h | h
      · exact .inr ⟨p, by simp, h⟩
      · exact .inl h
      · rcases ih h with h | ⟨x, hx, h⟩
        · exact .inl h
        · exact .inr ⟨x, by simp [hx], h⟩
      · simp

theorem base32_not_mem {h : Hash} {c : Byte} (hc : ¬ ((c!"A" ≤ c ∧ c ≤ c!"Z") ∨ (c!"2" ≤ c ∧ c ≤ c!"7"))) : c ∉ h.base32 :=
  fun hm => hc (Hash.base32_alpha hm)

theorem itoa_not_mem {n : Int} {c : Byte} (h1 : ¬ IsDigit c) (h2 : c ≠ c!"-") : c ∉ itoa n := by
  intro hm
  rcases itoa_bytes hm with h | h
  · exact h1 h
  · exact h2 h

set_option linter.unusedSectionVars false

variable [ParseFloat]

theorem str_value (v : Bytes) : unmarshalValue (escape v) .str ([] : Bytes) = .ok v := by
  show (if (escape v).length = 0 then Res.ok ([] : Bytes) else .ok (unescape (escape v))) = .ok v
  split
  · rename_i h
    rw [List.length_eq_zero_iff] at h
    rw [escape_eq_nil.mp h]
  · rw [unescape_escape]

theorem int_value (v cur : Int) (h : IntOk v) : unmarshalValue (itoa v) .int cur = .ok v := by
  show (if (itoa v).length = 0 then Res.ok (0 : Int) else unmarshalInt (itoa v) cur) = .ok v
  rw [if_neg (by simpa using itoa_ne_nil v), unmarshalInt, parseInt_itoa h.1 h.2]

theorem feats_clean (v : ExtFeatures) (h : ∀ f ∈ v, c!" " ∉ f.bytes) : c!" " ∉ v.marshal := by
  rw [feats_marshal_eq]
  intro hm
  rcases mem_join hm with h1 | ⟨p, hp, h1⟩
  · exact absurd h1 (by decide)
  · obtain ⟨g, hg, rfl⟩ := List.mem_map.mp hp
    exact h g hg h1

theorem path_clean (v : Path) : c!" " ∉ v.marshal ∧ c!"\n" ∉ v.marshal := by
  rw [path_marshal_eq]
  constructor
  all_goals
    intro hm
    rcases mem_join hm with h1 | ⟨p, hp, h1⟩
    · exact absurd h1 (by decide)
    · obtain ⟨g, hg, rfl⟩ := List.mem_map.mp hp
      first | exact (escape_clean g).1 h1 | exact (escape_clean g).2 h1

/-- A value that is written and read again. -/
theorem value_roundtrip : ∀ (k : Kind) (v : k.T), ValOk k v →
    ∃ b, marshalValue k v = .ok b ∧ c!" " ∉ b ∧ unmarshalValue b k k.zero = .ok v := by
  intro k
  induction k with
  | str => intro v _; exact ⟨escape v, rfl, (escape_clean v).1, str_value v⟩
  | int => intro v h; exact ⟨itoa v, rfl, itoa_not_mem (by decide) (by decide), int_value v 0 h⟩
  | bool => intro v h; cases h; exact ⟨b!"1", rfl, by decide, rfl⟩
  | sid =>
    intro v h
    refine ⟨SID.bytes v, rfl, h, ?_⟩
    show (if h : (SID.bytes v).length = 4 then Res.ok (⟨SID.bytes v, h⟩ : SID) else .err (.other 78)) = .ok v
    rw [dif_pos (SID.size v)]
    rfl
  | cid => intro v _; exact ⟨_, rfl, base32_not_mem (by decide), Hash.from_base32 v⟩
  | tth => intro v _; exact ⟨_, rfl, base32_not_mem (by decide), Hash.unmarshal_base32 v⟩
  | feats =>
    intro v h
    exact ⟨_, rfl, feats_clean v (fun f hf => (h f hf).2), feats_roundtrip v (fun f hf => (h f hf).1)⟩
  | path => intro v h; exact ⟨_, rfl, (path_clean v).1, path_roundtrip_partial v [] h.1 h.2⟩
  | ptr k ih =>
    intro v h
    obtain ⟨x, rfl, hx, hne⟩ := h
    obtain ⟨b, h1, h2, h3⟩ := ih x hx
    refine ⟨b, h1, h2, ?_⟩
    have hb : b ≠ [] := fun hb => hne (hb ▸ h1)
    simp only [unmarshalValue]
    rw [if_neg (by simpa using hb), h3]
    rfl
  | slice k _ => intro v h; exact h.elim

/-! ## Parts and fields -/

/-- The parts of a message, with a space before each, or before each but the first. -/
def glue : Bool → List Bytes → Bytes
  | _, [] => []
  | first, t :: ts => (if first then [] else b!" ") ++ t ++ glue false ts

omit [ParseFloat] in
theorem glue_append (first : Bool) (a b : List Bytes) :
    glue first (a ++ b) = glue first a ++ glue (if a = [] then first else false) b := by
  cases a with
  | nil => simp [glue]
  | cons t ts =>
    simp only [List.cons_append, glue, reduceCtorEq, if_false, List.append_assoc]
    congr 2
    induction ts with
    | nil => simp [glue]
    | cons u ts ih => simp only [List.cons_append, glue, List.append_assoc, ih]

omit [ParseFloat] in
theorem glue_join (ts : List Bytes) : glue true ts = join ts c!" " := by
  cases ts with
  | nil => rfl
  | cons t ts =>
    induction ts generalizing t with
    | nil => simp [glue, join]
    | cons u ts ih =>
      have := ih u
      simp only [glue, if_true, List.nil_append, Bool.false_eq_true, if_false] at this ⊢
      rw [join, ← this]
      · simp
      · simp

/-- What the values with a tag are, if only the parts in the middle have it. -/
theorem taggedVals_append (tag : Bytes) (a b : List Bytes) : taggedVals tag (a ++ b) = taggedVals tag a ++ taggedVals tag b := by
  induction a with
  | nil => rfl
  | cons t a ih =>
    simp only [List.cons_append, taggedVals]
    split <;> simp [ih]

theorem taggedVals_none {tag : Bytes} {a : List Bytes} (h : ∀ t ∈ a, ¬ tag <+: t) : taggedVals tag a = [] := by
  induction a with
  | nil => rfl
  | cons t a ih =>
    rw [taggedVals, if_neg, ih (fun x hx => h x (by simp [hx]))]
    rw [hasPrefix_iff]; exact h t (by simp)

theorem taggedVals_map (tag : Bytes) (bs : List Bytes) : taggedVals tag (bs.map (tag ++ ·)) = bs := by
  induction bs with
  | nil => rfl
  | cons b bs ih =>
    rw [List.map_cons, taggedVals, if_pos, ih]
    · simp
    · rw [hasPrefix_iff]; exact List.prefix_append _ _

theorem prefix_tag {a b x : Bytes} (h : a.length = b.length) (hp : a <+: b ++ x) : a = b := by
  obtain ⟨y, hy⟩ := hp
  exact (List.append_inj hy h).1

omit [ParseFloat] in
theorem writeTag_ne {tag : Bytes} (h : tag ≠ b!"#") (first : Bool) : writeTag first tag = (if first then [] else b!" ") ++ tag := by
  simp [writeTag, h]

theorem marshalSlice_eq (tag : Bytes) (htag : tag ≠ b!"#") (k : Kind) (vs : List k.T) (h : AllOk k vs) :
    ∃ bs, (∀ first, marshalSlice tag k first vs = .ok (glue first (bs.map (tag ++ ·)), if bs = [] then first else false)) ∧
      (∀ b ∈ bs, c!" " ∉ b) ∧ unmarshalSlice k bs = .ok vs := by
  induction vs with
  | nil => exact ⟨[], by intro first; simp [marshalSlice, glue], by simp, rfl⟩
  | cons v vs ih =>
    obtain ⟨b, h1, h2, h3⟩ := value_roundtrip k v (h v (by simp))
    obtain ⟨bs, h4, h5, h6⟩ := ih (fun x hx => h x (by simp [hx]))
    refine ⟨b :: bs, ?_, ?_, ?_⟩
    · intro first
      simp only [marshalSlice, h1, h4, Res.ok_bind]
      rw [writeTag_ne htag]
      simp [glue]
    · intro x hx
      rcases List.mem_cons.mp hx with rfl | hx
      · exact h2
      · exact h5 x hx
    · simp only [unmarshalSlice, h3, h6, Res.ok_bind]

omit [ParseFloat] in
theorem marshalField_single (tag : Bytes) (first : Bool) (k : Kind) (v : k.T) (h : ∀ k', k ≠ .slice k') :
    marshalField tag first k v = (do let b ← marshalValue k v; .ok (writeTag first tag ++ b, false)) := by
  cases k <;> first | rfl | exact absurd rfl (h _)

theorem unmarshalTagged_single (v : Bytes) (k : Kind) (cur : k.T) (h : ∀ k', k ≠ .slice k') :
    unmarshalTagged [v] k cur = unmarshalValue v k cur := by
  cases k <;> first | exact absurd rfl (h _) | (simp [unmarshalTagged])

theorem unmarshalTagged_nil (k : Kind) (cur : k.T) : unmarshalTagged [] k cur = .ok cur := by
  cases k <;> simp [unmarshalTagged]

theorem kindOk_single {k : Kind} {v : k.T} (hs : ∀ k', k ≠ .slice k') (h : KindOk k v) : ValOk k v := by
  cases k <;> first | exact absurd rfl (hs _) | exact h

/-- A field with a tag: what it writes and what is read of it. -/
theorem field_roundtrip (f : Fld) (htag : f.tag ≠ b!"#") (v : f.kind.T) (h : KindOk f.kind v) :
    ∃ bs, (∀ first, marshalField f.tag first f.kind v = .ok (glue first (bs.map (f.tag ++ ·)), if bs = [] then first else false)) ∧
      (∀ b ∈ bs, c!" " ∉ b) ∧ unmarshalTagged bs f.kind f.kind.zero = .ok v := by
  obtain ⟨name, tag, req, k⟩ := f
  simp only at htag v h ⊢
  by_cases hs : ∃ k', k = .slice k'
  · obtain ⟨k', rfl⟩ := hs
    obtain ⟨bs, h1, h2, h3⟩ := marshalSlice_eq tag htag k' v h
    refine ⟨bs, ?_, h2, ?_⟩
    · intro first
      simp only [marshalField]
      rw [if_pos htag, h1]
    · cases bs with
      | nil => exact h3
      | cons => exact h3
  · have hs : ∀ k', k ≠ .slice k' := fun k' hk => hs ⟨k', hk⟩
    have hv : ValOk k v := kindOk_single hs h
    obtain ⟨b, h1, h2, h3⟩ := value_roundtrip k v hv
    refine ⟨[b], ?_, by simpa using h2, ?_⟩
    · intro first
      rw [marshalField_single _ _ _ _ hs, h1]
      simp [writeTag_ne htag, glue]
    · rw [unmarshalTagged_single _ _ _ hs, h3]

/-- The fields with tags. -/
theorem tagged_roundtrip : ∀ (fs : List Fld) (row : Row fs), RowOk fs row → (∀ f ∈ fs, f.tag.length = 2 ∧ c!" " ∉ f.tag) →
    (fs.map (·.tag)).Nodup →
    ∃ ts, (∀ first, marshalFields fs first row = .ok (glue first ts)) ∧ (∀ t ∈ ts, c!" " ∉ t) ∧
      (∀ t ∈ ts, ∃ f ∈ fs, f.tag <+: t) ∧
      ∀ pre, (∀ t ∈ pre, ∀ f ∈ fs, ¬ f.tag <+: t) → unmarshalFields fs (pre ++ ts) (Row.zero fs) = .ok row := by
  intro fs
  induction fs with
  | nil => intro row _ _ _; exact ⟨[], fun _ => rfl, by simp, by simp, fun _ _ => rfl⟩
  | cons f fs ih =>
    rintro ⟨v, row⟩ hok hlen hnd
    obtain ⟨hv, hrow⟩ := hok
    have hlen' : ∀ g ∈ fs, g.tag.length = 2 ∧ c!" " ∉ g.tag := fun g hg => hlen g (by simp [hg])
    rw [List.map_cons, List.nodup_cons] at hnd
    have htag : f.tag ≠ b!"#" := by
      intro h; have := (hlen f (by simp)).1; rw [h] at this; simp at this
    -- what the field writes
    have hf : ∃ bs, (∀ b ∈ bs, c!" " ∉ b) ∧ unmarshalTagged bs f.kind f.kind.zero = .ok v ∧
        ∀ rest, (∀ fi, marshalFields fs fi row = .ok (glue fi rest)) →
          ∀ first, marshalFields (f :: fs) first (v, row) = .ok (glue first (bs.map (f.tag ++ ·) ++ rest)) := by
      rcases hv with ⟨ho, hz⟩ | hv
      · refine ⟨[], by simp, ?_, ?_⟩
        · rw [unmarshalTagged_nil, isZero_eq hz]
        · intro rest hrest first
          simp only [marshalFields]
          rw [if_pos (by rw [ho, hz]; rfl), hrest]
          rfl
      · by_cases hc : (f.omit && isZero f.kind v) = true
        · have hz : isZero f.kind v = true := by rw [Bool.and_eq_true] at hc; exact hc.2
          refine ⟨[], by simp, ?_, ?_⟩
          · rw [unmarshalTagged_nil, isZero_eq hz]
          · intro rest hrest first
            simp only [marshalFields]
            rw [if_pos hc, hrest]
            rfl
        · obtain ⟨bs, h1, h2, h3⟩ := field_roundtrip f htag v hv
          refine ⟨bs, h2, h3, ?_⟩
          intro rest hrest first
          simp only [marshalFields]
          rw [if_neg hc, h1]
          simp only [Res.ok_bind, hrest, glue_append, List.map_eq_nil_iff]
    obtain ⟨bs, hb1, hb2, hb3⟩ := hf
    obtain ⟨ts, h1, h2, h3, h4⟩ := ih row hrow hlen' hnd.2
    refine ⟨bs.map (f.tag ++ ·) ++ ts, hb3 ts h1, ?_, ?_, ?_⟩
    · intro t ht
      rcases List.mem_append.mp ht with ht | ht
      · obtain ⟨b, hb, rfl⟩ := List.mem_map.mp ht
        simp only [List.mem_append, not_or]
        exact ⟨(hlen f (by simp)).2, hb1 b hb⟩
      · exact h2 t ht
    · intro t ht
      rcases List.mem_append.mp ht with ht | ht
      · obtain ⟨b, hb, rfl⟩ := List.mem_map.mp ht
        exact ⟨f, by simp, List.prefix_append _ _⟩
      · obtain ⟨g, hg, hp⟩ := h3 t ht
        exact ⟨g, by simp [hg], hp⟩
    · intro pre hpre
      have hts : ∀ t ∈ ts, ¬ f.tag <+: t := by
        intro t ht hp
        obtain ⟨g, hg, ⟨y, hy⟩⟩ := h3 t ht
        subst hy
        have := prefix_tag (by rw [(hlen f (by simp)).1, (hlen' g hg).1]) hp
        exact hnd.1 (this ▸ List.mem_map_of_mem hg)
      have hmid : ∀ t ∈ bs.map (f.tag ++ ·), ∀ g ∈ fs, ¬ g.tag <+: t := by
        intro t ht g hg hp
        obtain ⟨b, hb, rfl⟩ := List.mem_map.mp ht
        have := prefix_tag (by rw [(hlen f (by simp)).1, (hlen' g hg).1]) hp
        exact hnd.1 (this ▸ List.mem_map_of_mem hg)
      have hvals : taggedVals f.tag (pre ++ (bs.map (f.tag ++ ·) ++ ts)) = bs := by
        rw [taggedVals_append, taggedVals_append, taggedVals_none (fun t ht => hpre t ht f (by simp)), taggedVals_map,
          taggedVals_none hts]
        simp
      simp only [unmarshalFields, Row.zero]
      rw [if_neg htag, hvals, hb2]
      simp only [Res.ok_bind]
      have := h4 (pre ++ bs.map (f.tag ++ ·)) (by
        intro t ht g hg
        rcases List.mem_append.mp ht with ht | ht
        · exact hpre t ht g (by simp [hg])
        · exact hmid t ht g hg)
      rw [List.append_assoc] at this
      rw [this]
      rfl

/-- Tables of fields that can be read: those with a position first, then distinct tags of two bytes. -/
def goodTable : List Fld → Bool
  | [] => true
  | f :: fs =>
    if f.tag = b!"#" then (match f.kind with | .slice _ => false | _ => true) && goodTable fs
    else (f :: fs).all (fun g => g.tag.length = 2 && !g.tag.contains c!" ") && decide (((f :: fs).map (·.tag)).Nodup)

/-- All fields of a struct. -/
theorem fields_roundtrip : ∀ (fs : List Fld) (row : Row fs), RowOk fs row → goodTable fs = true →
    ∃ ts, (∀ first, marshalFields fs first row = .ok (glue first ts)) ∧ (∀ t ∈ ts, c!" " ∉ t) ∧
      unmarshalFields fs ts (Row.zero fs) = .ok row ∧ (ts = [] → unmarshalFields fs [[]] (Row.zero fs) = .ok row) := by
  intro fs
  induction fs with
  | nil => intro row _ _; exact ⟨[], fun _ => rfl, by simp, rfl, fun _ => rfl⟩
  | cons f fs ih =>
    rintro ⟨v, row⟩ hok hg
    by_cases htag : f.tag = b!"#"
    · simp only [goodTable, htag, if_true, Bool.and_eq_true] at hg
      have hs : ∀ k', f.kind ≠ .slice k' := by
        intro k' hk; rw [hk] at hg; simp at hg
      have hv : ValOk f.kind v := by
        rcases hok.1 with ⟨ho, _⟩ | hv
        · simp [Fld.omit, htag] at ho
        · exact kindOk_single hs hv
      obtain ⟨b, h1, h2, h3⟩ := value_roundtrip f.kind v hv
      obtain ⟨ts, h4, h5, h6, _⟩ := ih row hok.2 hg.2
      refine ⟨b :: ts, ?_, ?_, ?_, ?_⟩
      · intro first
        simp only [marshalFields]
        rw [if_neg (by simp [Fld.omit, htag]), marshalField_single _ _ _ _ hs, h1]
        simp only [Res.ok_bind, h4, glue]
        simp [writeTag, htag]
      · intro t ht
        rcases List.mem_cons.mp ht with rfl | ht
        · exact h2
        · exact h5 t ht
      · simp only [unmarshalFields, Row.zero]
        rw [if_pos htag, h3]
        simp only [Res.ok_bind, h6]
      · intro h; simp at h
    · simp only [goodTable, htag, if_false, Bool.and_eq_true, List.all_eq_true, decide_eq_true_eq, Bool.not_eq_true',
        List.contains_eq_mem, decide_eq_false_iff_not] at hg
      obtain ⟨ts, h1, h2, h3, h4⟩ := tagged_roundtrip (f :: fs) (v, row) hok hg.1 hg.2
      refine ⟨ts, h1, h2, h4 [] (by simp), ?_⟩
      rintro rfl
      refine h4 [[]] ?_
      intro t ht g hgm hp
      rw [List.mem_singleton] at ht
      subst ht
      have := (hg.1 g hgm).1
      rw [List.prefix_nil.mp hp] at this
      simp at this

/-- What `Marshal` writes of a struct is read back by `Unmarshal`. -/
theorem row_roundtrip (fs : List Fld) (hg : goodTable fs = true) (row : Row fs) (h : RowOk fs row) :
    ∃ b, marshalRow fs row = .ok b ∧ unmarshalRow fs b (Row.zero fs) = .ok row := by
  obtain ⟨ts, h1, h2, h3, h4⟩ := fields_roundtrip fs row h hg
  refine ⟨_, h1 true, ?_⟩
  rw [unmarshalRow, glue_join]
  by_cases hts : ts = []
  · subst hts; exact h4 rfl
  · rw [split_join hts h2]; exact h3

end Verif.Adc
