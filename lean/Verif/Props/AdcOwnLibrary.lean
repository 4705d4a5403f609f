import Verif.Adc.Own
import Verif.Adc.LeftLemmas

/-!
# C110: the messages of the library are an instance

`Adc/Own` models `Unmarshal` for every type.  For the types of the fields of the library it does what `Adc/Left` and `Adc/Marshal` do, so
that the properties of the messages of the library are properties of the same function.
-/

namespace Verif.Props.AdcOwn

open Verif.Go Verif.Adc

section
variable [ParseFloat]

/-- The Go types of the fields of the library; those with methods are types with methods. -/
def goType : Kind → GoType
  | .str => .str
  | .int => .int .i64
  | .bool => .bool
  | .sid => .own SID default (fun s cur => fillValue s .sid cur)
  | .cid => .own CID Verif.Tiger.Hash.zero (fun s cur => fillValue s .cid cur)
  | .tth => .own Verif.Tiger.Hash Verif.Tiger.Hash.zero (fun s cur => fillValue s .tth cur)
  | .feats => .own ExtFeatures ([] : List Feature) (fun s cur => fillValue s .feats cur)
  | .path => .own Path ([] : List Bytes) (fun s cur => fillValue s .path cur)
  | .ptr k => .ptr (goType k)
  | .slice k => .slice (goType k)

/-- A value of the library as a value of the Go type. -/
def goVal : (k : Kind) → k.T → (goType k).T
  | .str, v | .int, v | .bool, v | .sid, v | .cid, v | .tth, v | .feats, v | .path, v => v
  | .ptr k, v => Option.map (goVal k) v
  | .slice k, v => List.map (goVal k) v

/-- The fields of a struct of the library; they are all exported. -/
def cells : (fs : List Fld) → Row fs → List Cell
  | [], _ => []
  | f :: fs, (v, row) => ⟨f.tag, true, goType f.kind, goVal f.kind v⟩ :: cells fs row

theorem zero_go : ∀ k : Kind, goVal k k.zero = (goType k).zero
  | .str | .int | .bool | .sid | .cid | .tth | .feats | .path | .ptr _ | .slice _ => rfl

variable [ParseFloat32]

/-- Floating point numbers are converted to numbers of 64 bits. -/
def FloatRange : Prop := ∀ s v, ParseFloat.run s = .whole v → -(2 ^ 63 : Int) ≤ v ∧ v < 2 ^ 63

omit [ParseFloat] [ParseFloat32] in
theorem set64 {v : Int} (h : -(2 ^ 63 : Int) ≤ v ∧ v < 2 ^ 63) : IntSize.set .i64 v = v := by
  unfold IntSize.set
  refine Int.bmod_eq_of_le ?_ ?_ <;> simp only [IntSize.stored] <;> omega

theorem int_go (hF : FloatRange) (s : Bytes) (cur : Int) : readInt .i64 s cur = assigned cur (unmarshalInt s cur) := by
  unfold readInt unmarshalInt
  simp only [IntSize.parsed, IntSize.float]
  cases h : parseInt s 64 with
  | ok v =>
    have hv := (parseInt_ok (by omega) (by omega)).mp h
    simp only [assigned]
    rw [set64 ⟨by have := hv.2.1; simpa using this, by have := hv.2.2; simpa using this⟩]
  | panic => rfl
  | err e =>
    cases hf : ParseFloat.run s with
    | bad => rfl
    | fraction => rfl
    | whole v =>
      simp only [assigned]
      rw [set64 (hF s v hf)]

/-- One value. -/
theorem value_go (hF : FloatRange) (s : Bytes) : ∀ (k : Kind) (cur : k.T),
    readValue s (goType k) (goVal k cur) = (goVal k (fillValue s k cur).1, (fillValue s k cur).2)
  | .sid, _ | .cid, _ | .tth, _ | .feats, _ | .path, _ => rfl
  | .str, cur => by
    by_cases h : s.length = 0
    · have h1 : fillValue s .str cur = (([] : Bytes), .ok ()) := congrArg (assigned (α := Bytes) cur) (if_pos h)
      rw [h1]
      exact if_pos h
    · have h1 : fillValue s .str cur = (unescape s, .ok ()) := congrArg (assigned (α := Bytes) cur) (if_neg h)
      rw [h1]
      exact if_neg h
  | .bool, cur => by
    by_cases h : s.length = 0
    · have h1 : fillValue s .bool cur = (false, .ok ()) := congrArg (assigned (α := Bool) cur) (if_pos h)
      rw [h1]
      exact if_pos h
    · by_cases h' : s.length ≠ 1
      · have h1 : fillValue s .bool cur = (cur, .err (.other 102)) := congrArg (assigned (α := Bool) cur) ((if_neg h).trans (if_pos h'))
        rw [h1]
        exact (if_neg h).trans (if_pos h')
      · have h1 : fillValue s .bool cur = (s != [0], .ok ()) := congrArg (assigned (α := Bool) cur) ((if_neg h).trans (if_neg h'))
        rw [h1]
        exact (if_neg h).trans (if_neg h')
  | .int, cur => by
    by_cases h : s.length = 0
    · have h1 : fillValue s .int cur = ((0 : Int), .ok ()) := congrArg (assigned (α := Int) cur) (if_pos h)
      rw [h1]
      exact if_pos h
    · have h1 : fillValue s .int cur = assigned (α := Int) cur (unmarshalInt s cur) := congrArg (assigned (α := Int) cur) (if_neg h)
      rw [h1]
      exact (if_neg h).trans (int_go hF s cur)
  | .slice k, cur => by
    by_cases h : s.length = 0
    · have h1 : fillValue s (.slice k) cur = (([] : List k.T), .ok ()) := congrArg (assigned (α := List k.T) cur) (if_pos h)
      rw [h1]
      exact if_pos h
    · have h1 : fillValue s (.slice k) cur = (cur, .err (.other 103)) := congrArg (assigned (α := List k.T) cur) (if_neg h)
      rw [h1]
      exact if_neg h
  | .ptr k, cur => by
    by_cases h : s.length = 0
    · have h1 : fillValue s (.ptr k) cur = ((none : Option k.T), .ok ()) := congrArg (assigned (α := Option k.T) cur) (if_pos h)
      rw [h1]
      exact if_pos h
    · have h1 : fillValue s (.ptr k) cur = assigned (α := Option k.T) cur ((unmarshalValue s k k.zero).bind (fun v => .ok (some v))) :=
        congrArg (assigned (α := Option k.T) cur) (if_neg h)
      rw [h1, ← fillValue_value]
      have ih := value_go hF s k k.zero
      rw [zero_go] at ih
      refine (if_neg h).trans ?_
      rw [ih]
      cases fillValue s k k.zero with
      | mk v r => cases r <;> rfl

theorem elems_go (hF : FloatRange) (k : Kind) : ∀ vals : List Bytes, readElems (goType k) vals =
    match unmarshalSlice k vals with
    | .ok vs => .ok (List.map (goVal k) vs)
    | .err e => .err e
    | .panic => .panic
  | [] => rfl
  | v :: vals => by
    unfold readElems unmarshalSlice
    have h1 := value_go hF v k k.zero
    rw [zero_go] at h1
    rw [h1, elems_go hF k vals, ← fillValue_value]
    cases fillValue v k k.zero with
    | mk x r =>
      cases r with
      | ok u => cases unmarshalSlice k vals <;> rfl
      | err e => rfl
      | panic => rfl

/-- A field with a tag. -/
theorem tagged_go (hF : FloatRange) (vals : List Bytes) (k : Kind) (cur : k.T) :
    readTagged (goType k) vals (goVal k cur) = (goVal k (fillTagged vals k cur).1, (fillTagged vals k cur).2) := by
  cases vals with
  | nil => cases k <;> rfl
  | cons v more =>
    have single : ∀ (t : k.T × Res Unit), t = (if more.length > 0 then (cur, .err (.other 104)) else fillValue v k cur) →
        (if more.length > 0 then (goVal k cur, .err (.other 104)) else readValue v (goType k) (goVal k cur)) = (goVal k t.1, t.2) := by
      rintro t rfl
      split
      · rfl
      · exact value_go hF v k cur
    cases k with
    | sid => rfl
    | cid => rfl
    | tth => rfl
    | feats => rfl
    | path => rfl
    | str => exact single _ rfl
    | bool => exact single _ rfl
    | int => exact single _ rfl
    | ptr k => exact single _ rfl
    | slice k =>
      have h1 : fillTagged (v :: more) (.slice k) cur = assigned (α := List k.T) cur (unmarshalSlice k (v :: more)) := rfl
      have h2 : readTagged (goType (.slice k)) (v :: more) (goVal (.slice k) cur) =
          assigned (α := List (goType k).T) (List.map (goVal k) cur) (readElems (goType k) (v :: more)) := rfl
      rw [h1, h2, elems_go hF]
      cases unmarshalSlice k (v :: more) <;> rfl

/-- A struct of the library: whatever the text is, `Unmarshal` does the same as in the model of the library, also if it fails. -/
theorem library_struct (hF : FloatRange) : ∀ (fs : List Fld) (parts : List Bytes) (cur : Row fs), (∀ f ∈ fs, f.tag ≠ [] ∧ f.tag ≠ b!"-") →
    readFields (cells fs cur) parts = (cells fs (fillFields fs parts cur).1, (fillFields fs parts cur).2)
  | [], _, _, _ => rfl
  | f :: fs, parts, (v, row), ht => by
    have ih := fun parts row => library_struct hF fs parts row (fun g hg => ht g (List.mem_cons_of_mem _ hg))
    have hf := ht f List.mem_cons_self
    simp only [cells, readFields, fillFields, Cell.read]
    rw [if_neg (by simp [hf])]
    by_cases h : f.tag = b!"#"
    · rw [if_pos h, if_pos h]
      cases parts with
      | nil => rfl
      | cons p parts =>
        simp only [if_true]
        rw [value_go hF]
        cases fillValue p f.kind v with
        | mk x r =>
          cases r with
          | ok u => simp only [Cell.put, ih, cells]
          | err e => rfl
          | panic => rfl
    · rw [if_neg h, if_neg h]
      by_cases h0 : (taggedVals f.tag parts).length = 0
      · rw [if_pos h0]
        have h1 : taggedVals f.tag parts = [] := by simpa using h0
        have h2 : ∀ (k : Kind) (v : k.T), fillTagged [] k v = (v, .ok ()) := by intro k v; cases k <;> rfl
        rw [h1, h2]
        simp only [ih, cells]
      · rw [if_neg h0]
        simp only [if_true]
        rw [tagged_go hF]
        cases fillTagged (taggedVals f.tag parts) f.kind v with
        | mk x r =>
          cases r with
          | ok u => simp only [Cell.put, ih, cells]
          | err e => rfl
          | panic => rfl

/-- All the structs that are messages of the library, and the value that is left behind the pointer. -/
theorem library_messages (hF : FloatRange) (t : StructType) (row : Row t.fields) (s : Bytes) :
    (Target.struct (cells t.fields row)).unmarshal s =
      (.struct (cells t.fields (fillRow t.fields s row).1), (fillRow t.fields s row).2) := by
  have ht : ∀ f ∈ t.fields, f.tag ≠ [] ∧ f.tag ≠ b!"-" := by
    cases t <;> decide +kernel
  unfold fillRow
  show (Target.struct (readFields (cells t.fields row) (split s c!" ")).1, (readFields (cells t.fields row) (split s c!" ")).2) = _
  rw [library_struct hF t.fields _ row ht]

end

/-- The hypothesis can be met. -/
example : @FloatRange ⟨fun _ => .whole 5⟩ := by
  intro s v h
  simp only [ParseFloat.run, FloatRes.whole.injEq] at h
  omega

end Verif.Props.AdcOwn
