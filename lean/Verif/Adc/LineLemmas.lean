import Verif.Props.AdcFeatures
import Verif.Props.AdcPackets

/-!
# What the encoder of ADC writes

`Verif/Props/AdcLines.lean` uses the lemmas below for two bytes: the newline, which ends a line, and the byte zero, which no
decoder accepts.
-/

namespace Verif.Adc

open Verif.Go Verif.Tiger Verif.Props.AdcText Verif.Props.AdcPackets

/-- The newline or zero. -/
def Ctl (c : Byte) : Prop := c = c!"\n" ∨ c = 0

/-- The byte is in no part of the value that is written as it is: identifiers and features for both bytes, and texts, whose newlines
are escaped, for zero. -/
def ValFree (c : Byte) : (k : Kind) → k.T → Prop
  | .str, v => c = c!"\n" ∨ c ∉ (show Bytes from v)
  | .sid, v => c ∉ SID.bytes v
  | .feats, v => ∀ f ∈ (show List Feature from v), c ∉ f.bytes
  | .path, v => c = c!"\n" ∨ ∀ a ∈ (show List Bytes from v), c ∉ a
  | .ptr k, v => ∀ x, (show Option k.T from v) = some x → ValFree c k x
  | .slice k, v => ∀ x ∈ (show List k.T from v), ValFree c k x
  | .int, _ => True
  | .bool, _ => True
  | .cid, _ => True
  | .tth, _ => True

/-- The same for all fields. -/
def RowFree (c : Byte) : (fs : List Fld) → Row fs → Prop
  | [], _ => True
  | f :: fs, (v, row) => ValFree c f.kind v ∧ RowFree c fs row

theorem escape_free {c : Byte} (hc : Ctl c) {v : Bytes} (h : c = c!"\n" ∨ c ∉ v) : c ∉ escape v := by
  rcases hc with rfl | rfl
  · exact (escape_clean v).2
  · have hv : (0 : Byte) ∉ v := by
      rcases h with h | h
      · exact absurd h (by decide)
      · exact h
    induction v with
    | nil => simp [escape]
    | cons b v ih =>
      rw [escape, List.mem_append, not_or]
      refine ⟨?_, ih (.inr (fun h => hv (by simp [h]))) (fun h => hv (by simp [h]))⟩
      have hb : (0 : Byte) ≠ b := fun h => hv (by simp [h])
      unfold escapeByte
      repeat' split
      all_goals simp [hb]

theorem ctl_alpha {c : Byte} (hc : Ctl c) : ¬ ((c!"A" ≤ c ∧ c ≤ c!"Z") ∨ (c!"2" ≤ c ∧ c ≤ c!"7")) := by
  rcases hc with rfl | rfl <;> decide

theorem ctl_itoa {c : Byte} (hc : Ctl c) (n : Int) : c ∉ itoa n := by
  rcases hc with rfl | rfl <;> exact itoa_not_mem (by decide) (by decide)

theorem ctl_ne {c b : Byte} (hc : Ctl c) (h1 : b ≠ c!"\n") (h2 : b ≠ 0) : c ≠ b := by
  rcases hc with rfl | rfl
  · exact Ne.symm h1
  · exact Ne.symm h2

theorem feats_free {c : Byte} (hc : Ctl c) (v : ExtFeatures) (h : ∀ f ∈ v, c ∉ f.bytes) : c ∉ v.marshal := by
  rw [feats_marshal_eq]
  intro hm
  rcases mem_join hm with h1 | ⟨p, hp, h1⟩
  · exact ctl_ne hc (by decide) (by decide) h1
  · obtain ⟨g, hg, rfl⟩ := List.mem_map.mp hp
    exact h g hg h1

theorem path_free {c : Byte} (hc : Ctl c) (v : Path) (h : c = c!"\n" ∨ ∀ a ∈ v, c ∉ a) : c ∉ v.marshal := by
  rw [path_marshal_eq]
  intro hm
  rcases mem_join hm with h1 | ⟨p, hp, h1⟩
  · exact ctl_ne hc (by decide) (by decide) h1
  · obtain ⟨g, hg, rfl⟩ := List.mem_map.mp hp
    refine escape_free hc ?_ h1
    rcases h with h | h
    · exact .inl h
    · exact .inr (h g hg)

theorem value_free {c : Byte} (hc : Ctl c) : ∀ (k : Kind) (v : k.T) (b : Bytes), marshalValue k v = .ok b → ValFree c k v → c ∉ b := by
  intro k
  induction k with
  | str => intro v b hb h; cases hb; exact escape_free hc h
  | int => intro v b hb _; cases hb; exact ctl_itoa hc _
  | bool =>
    intro v b hb _
    cases hb
    unfold BoolInt.marshal
    split
    · simpa using ctl_ne hc (b := c!"1") (by decide) (by decide)
    · simpa using ctl_ne hc (b := c!"0") (by decide) (by decide)
  | sid => intro v b hb h; cases hb; exact h
  | cid => intro v b hb _; cases hb; exact base32_not_mem (ctl_alpha hc)
  | tth => intro v b hb _; cases hb; exact base32_not_mem (ctl_alpha hc)
  | feats => intro v b hb h; cases hb; exact feats_free hc v h
  | path => intro v b hb h; cases hb; exact path_free hc v h
  | ptr k ih =>
    intro v b hb h
    revert hb h
    simp only [marshalValue]
    cases v with
    | none =>
      intro hb _
      simp only at hb
      split at hb
      · cases hb
      · cases hb; simp
    | some x => intro hb h; exact ih x b hb (h x rfl)
  | slice k _ => intro v b hb _; cases hb

theorem writeTag_free {c : Byte} (hc : Ctl c) (first : Bool) {tag : Bytes} (h : c ∉ tag) : c ∉ writeTag first tag := by
  unfold writeTag
  rw [List.mem_append, not_or]
  constructor
  · split
    · simp
    · simpa using ctl_ne hc (b := c!" ") (by decide) (by decide)
  · split
    · exact h
    · simp

theorem slice_free {c : Byte} (hc : Ctl c) {tag : Bytes} (ht : c ∉ tag) (k : Kind) : ∀ (vs : List k.T) (first : Bool) (r : Bytes × Bool),
    marshalSlice tag k first vs = .ok r → (∀ x ∈ vs, ValFree c k x) → c ∉ r.1 := by
  intro vs
  induction vs with
  | nil => intro first r h _; cases h; simp
  | cons v vs ih =>
    intro first r h hv
    rw [marshalSlice] at h
    obtain ⟨b, hb, h⟩ := Res.bind_eq_ok.mp h
    obtain ⟨q, hq, h⟩ := Res.bind_eq_ok.mp h
    cases h
    simp only [List.mem_append, not_or]
    exact ⟨⟨writeTag_free hc first ht, value_free hc k v b hb (hv v (by simp))⟩, ih false q hq (fun x hx => hv x (by simp [hx]))⟩

theorem field_free {c : Byte} (hc : Ctl c) {tag : Bytes} (ht : c ∉ tag) (k : Kind) (v : k.T) (first : Bool) (r : Bytes × Bool)
    (h : marshalField tag first k v = .ok r) (hv : ValFree c k v) : c ∉ r.1 := by
  by_cases hs : ∃ k', k = .slice k'
  · obtain ⟨k', rfl⟩ := hs
    rw [marshalField] at h
    split at h
    · exact slice_free hc ht k' v first r h hv
    · cases h
  · have e : marshalField tag first k v = (do let b ← marshalValue k v; .ok (writeTag first tag ++ b, false)) := by
      cases k <;> first | rfl | exact absurd ⟨_, rfl⟩ hs
    rw [e] at h
    obtain ⟨b, hb, h⟩ := Res.bind_eq_ok.mp h
    cases h
    simp only [List.mem_append, not_or]
    exact ⟨writeTag_free hc first ht, value_free hc k v b hb hv⟩

theorem fields_free {c : Byte} (hc : Ctl c) : ∀ (fs : List Fld) (row : Row fs) (first : Bool) (b : Bytes), (∀ f ∈ fs, c ∉ f.tag) →
    marshalFields fs first row = .ok b → RowFree c fs row → c ∉ b := by
  intro fs
  induction fs with
  | nil => intro row first b _ h _; cases h; simp
  | cons f fs ih =>
    intro ⟨v, row⟩ first b ht h hv
    rw [marshalFields] at h
    split at h
    · exact ih row first b (fun g hg => ht g (by simp [hg])) h hv.2
    · obtain ⟨q, hq, h⟩ := Res.bind_eq_ok.mp h
      obtain ⟨rest, hr, h⟩ := Res.bind_eq_ok.mp h
      cases h
      simp only [List.mem_append, not_or]
      exact ⟨field_free hc (ht f (by simp)) f.kind v first q hq hv.1, ih row _ rest (fun g hg => ht g (by simp [hg])) hr hv.2⟩

theorem fieldsText_free {c : Byte} (hc : Ctl c) : ∀ (fs : Fields) (first : Bool), (∀ f ∈ fs, c ∉ f.tag ∧ (c = c!"\n" ∨ c ∉ f.value)) →
    c ∉ Fields.marshalLoop first fs := by
  intro fs
  induction fs with
  | nil => intro first _; simp [Fields.marshalLoop]
  | cons f fs ih =>
    intro first h
    rw [Fields.marshalLoop]
    simp only [List.mem_append, not_or]
    refine ⟨⟨⟨?_, (h f (by simp)).1⟩, escape_free hc (h f (by simp)).2⟩, ih false (fun g hg => h g (by simp [hg]))⟩
    split
    · simp
    · simpa using ctl_ne hc (b := c!" ") (by decide) (by decide)

theorem mod_free {c : Byte} (hc : Ctl c) : ∀ (l : FeaList) (first : Bool), (∀ f ∈ l, c ∉ f.1.bytes) → c ∉ modMarshalLoop first l := by
  intro l
  induction l with
  | nil => intro first _; simp [modMarshalLoop]
  | cons f l ih =>
    intro first h
    obtain ⟨fea, st⟩ := f
    rw [modMarshalLoop]
    simp only [List.mem_append, not_or]
    refine ⟨⟨⟨?_, ?_⟩, h (fea, st) (by simp)⟩, ih false (fun g hg => h g (by simp [hg]))⟩
    · split
      · simpa using ctl_ne hc (b := c!" ") (by decide) (by decide)
      · simp
    · rcases hc with rfl | rfl <;> split <;> decide

end Verif.Adc
