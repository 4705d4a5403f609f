import Verif.Adc.Messages

/-!
# C85: encoding of structs other packages define

Model: `Verif/Adc/Marshal.lean`.  The lists of fields are arbitrary here; the theorems are not about the messages of this package.
-/

namespace Verif.Props.AdcMarshalTotal

open Verif Verif.Go Verif.Adc

/-- Types of single values that can be encoded: no slices. -/
def Single : Kind → Prop
  | .ptr k => Single k
  | .slice _ => False
  | _ => True

/-- Fields that can be encoded: single values, and slices of single values if the field has a tag. -/
def Encodable (f : Fld) : Prop :=
  match f.kind with
  | .slice k => f.tag ≠ b!"#" ∧ Single k
  | k => Single k

/-- Types with an encoder of their own. -/
def Own (k : Kind) : Prop := k = .sid ∨ k = .cid ∨ k = .tth ∨ k = .feats ∨ k = .path

/-- The value is, or holds, a nil pointer to a type with an encoder of its own. -/
def NilOwn : (k : Kind) → k.T → Prop
  | .ptr k, v => match (show Option k.T from v) with | none => Own k | some v => NilOwn k v
  | .slice k, vs => ∃ v ∈ (show List k.T from vs), NilOwn k v
  | _, _ => False

/-- A nil pointer, an empty slice or the zero of any other type. -/
def Zero : (k : Kind) → k.T → Prop
  | .ptr k, v => (show Option k.T from v) = none
  | .slice k, v => (show List k.T from v) = []
  | .feats, v => (show List Feature from v) = []
  | .path, v => (show List Bytes from v) = []
  | k, v => v = k.zero

/-- Some field that is written has the property: it has no tag, is required or is not zero. -/
def SomeWritten (P : (k : Kind) → k.T → Prop) : (fs : List Fld) → Row fs → Prop
  | [], _ => False
  | f :: fs, (v, row) => ((f.tag = b!"#" ∨ f.req = true ∨ ¬ Zero f.kind v) ∧ P f.kind v) ∨ SomeWritten P fs row

theorem custom_iff (k : Kind) : k.custom = true ↔ Own k := by
  unfold Own; cases k <;> simp [Kind.custom]

theorem eqZero_iff {α : Type} [DecidableEq α] (v z : α) : eqZero v z = true ↔ v = z := decide_eq_true_iff

theorem isZero_iff (k : Kind) (v : k.T) : isZero k v = true ↔ Zero k v := by
  cases k with
  | ptr k => exact Option.isNone_iff_eq_none
  | slice k | feats | path => exact List.isEmpty_iff
  | _ => exact eqZero_iff _ _

theorem omit_iff (f : Fld) (v : f.kind.T) : (f.omit && isZero f.kind v) = false ↔ (f.tag = b!"#" ∨ f.req = true ∨ ¬ Zero f.kind v) := by
  rw [← isZero_iff, Fld.omit]
  cases f.req <;> cases h : isZero f.kind v <;> simp

/-- A value is encoded unless it is such a nil pointer. -/
theorem value_total (k : Kind) (hk : Single k) (v : k.T) :
    (NilOwn k v → marshalValue k v = .panic) ∧ (¬ NilOwn k v → ∃ b, marshalValue k v = .ok b) := by
  induction k with
  | ptr k ih =>
    cases v with
    | none =>
      simp only [NilOwn, marshalValue, ← custom_iff]
      cases k.custom <;> simp
    | some v => exact ih hk v
  | slice k => exact hk.elim
  | _ => exact ⟨fun h => h.elim, fun _ => ⟨_, rfl⟩⟩

theorem slice_total (tag : Bytes) (k : Kind) (hk : Single k) (first : Bool) (vs : List k.T) :
    ((∃ v ∈ vs, NilOwn k v) → marshalSlice tag k first vs = .panic) ∧
      ((¬ ∃ v ∈ vs, NilOwn k v) → ∃ b, marshalSlice tag k first vs = .ok b) := by
  induction vs generalizing first with
  | nil => exact ⟨fun ⟨_, h, _⟩ => by simp at h, fun _ => ⟨_, rfl⟩⟩
  | cons v vs ih =>
    obtain ⟨h1, h2⟩ := value_total k hk v
    obtain ⟨h3, h4⟩ := ih false
    by_cases hv : NilOwn k v
    · exact ⟨fun _ => by simp [marshalSlice, h1 hv], fun h => absurd ⟨v, by simp, hv⟩ h⟩
    · obtain ⟨b, hb⟩ := h2 hv
      constructor
      · rintro ⟨x, hx, hn⟩
        simp only [List.mem_cons] at hx
        rcases hx with rfl | hx
        · exact absurd hn hv
        · simp [marshalSlice, hb, h3 ⟨x, hx, hn⟩]
      · intro h
        obtain ⟨⟨bs, f⟩, hbs⟩ := h4 (fun ⟨x, hx, hn⟩ => h ⟨x, by simp [hx], hn⟩)
        exact ⟨_, by simp only [marshalSlice, hb, hbs]; rfl⟩

theorem field_total (f : Fld) (hf : Encodable f) (first : Bool) (v : f.kind.T) :
    (NilOwn f.kind v → marshalField f.tag first f.kind v = .panic) ∧
      (¬ NilOwn f.kind v → ∃ b, marshalField f.tag first f.kind v = .ok b) := by
  obtain ⟨name, tag, req, k⟩ := f
  cases k with
  | slice k =>
    simp only [Encodable] at hf
    simp only [marshalField, if_pos hf.1, NilOwn]
    exact slice_total tag k hf.2 first v
  | ptr k =>
    obtain ⟨h1, h2⟩ := value_total (.ptr k) hf v
    refine ⟨fun h => ?_, fun h => ?_⟩
    · simp only [marshalField]; rw [h1 h]; rfl
    · obtain ⟨b, hb⟩ := h2 h
      simp only [marshalField]; rw [hb]; exact ⟨_, rfl⟩
  | _ => exact ⟨fun h => h.elim, fun _ => ⟨_, rfl⟩⟩

/-- **C85.** Encoding a struct panics exactly when a field that is written is, or holds, a nil pointer to a type with an encoder of its
own; otherwise it succeeds. -/
theorem marshal_struct (fs : List Fld) (hf : ∀ f ∈ fs, Encodable f) (row : Row fs) :
    (marshalRow fs row = .panic ↔ SomeWritten NilOwn fs row) ∧
      ((∃ b, marshalRow fs row = .ok b) ↔ ¬ SomeWritten NilOwn fs row) := by
  have main : ∀ (fs : List Fld) (hf : ∀ f ∈ fs, Encodable f) (first : Bool) (row : Row fs),
      (SomeWritten NilOwn fs row → marshalFields fs first row = .panic) ∧
      (¬ SomeWritten NilOwn fs row → ∃ b, marshalFields fs first row = .ok b) := by
    intro fs
    induction fs with
    | nil => intro _ first row; exact ⟨fun h => h.elim, fun _ => ⟨_, rfl⟩⟩
    | cons f fs ih =>
      intro hf first row
      obtain ⟨v, row⟩ := row
      have hfs := fun g hg => hf g (List.mem_cons_of_mem f hg)
      simp only [SomeWritten, marshalFields]
      rw [← omit_iff]
      cases ho : f.omit && isZero f.kind v with
      | true => simpa using ih hfs first row
      | false =>
        obtain ⟨h1, h2⟩ := field_total f (hf f (by simp)) first v
        simp only [Bool.false_eq_true, if_false, true_and]
        by_cases hv : NilOwn f.kind v
        · exact ⟨fun _ => by rw [h1 hv]; rfl, fun h => absurd (.inl hv) h⟩
        · obtain ⟨⟨b, first'⟩, hb⟩ := h2 hv
          obtain ⟨h3, h4⟩ := ih hfs first' row
          refine ⟨fun h => ?_, fun h => ?_⟩
          · rw [hb]; show (marshalFields fs first' row >>= fun rest => Res.ok (b ++ rest)) = _; rw [h3 (h.resolve_left hv)]; rfl
          · obtain ⟨c, hc⟩ := h4 (fun h' => h (.inr h'))
            refine ⟨b ++ c, ?_⟩
            rw [hb]; show (marshalFields fs first' row >>= fun rest => Res.ok (b ++ rest)) = _; rw [hc]; rfl
  obtain ⟨h1, h2⟩ := main fs hf true row
  by_cases h : SomeWritten NilOwn fs row
  · have e := h1 h
    rw [marshalRow, e]; simp [h]
  · obtain ⟨b, e⟩ := h2 h
    rw [marshalRow, e]; simp [h]

/-- A field that cannot be encoded makes the whole struct fail or panic. -/
theorem unsupported (fs : List Fld) (f : Fld) (v : f.kind.T) (row : Row fs) (k : Kind) (hk : f.kind = .slice k) (ht : f.tag = b!"#") :
    marshalRow (f :: fs) (v, row) = .err (.other 105) := by
  obtain ⟨name, tag, req, kind⟩ := f
  subst hk; subst ht
  simp [marshalRow, marshalFields, Fld.omit, marshalField]

/-- A required pointer to a session identifier, and an optional one. -/
example : SomeWritten NilOwn [⟨"A", b!"AA", true, .ptr .sid⟩] (none, ()) ∧ ¬ SomeWritten NilOwn [⟨"A", b!"AA", false, .ptr .sid⟩] (none, ()) ∧
    Encodable ⟨"A", b!"AA", true, .ptr .sid⟩ := by
  simp [SomeWritten, NilOwn, Own, Zero, Encodable, Single]

example : marshalRow [⟨"A", b!"AA", true, .ptr .sid⟩] (none, ()) = .panic ∧ marshalRow [⟨"A", b!"AA", true, .ptr .int⟩] (none, ()) = .ok b!"AA" := by
  decide +kernel

end Verif.Props.AdcMarshalTotal
