import Verif.Props.AdcMessages
import Verif.Props.AdcFeatures

/-!
# C82: application and version of a user; C83: classes of statuses; and more of C40 and C48

Models: `Verif/Adc/Messages.lean`, `Verif/Adc/Ids.lean`, `Verif/Adc/Values.lean`.
-/

namespace Verif.Props.AdcSmall

open Verif Verif.Go Verif.Adc Verif.Spec

/-! ## C82 -/

/-- **C82.** Without an application, the version is split at its last space. -/
theorem normalize_split (a b : Bytes) (h : c!" " ∉ b) : normalizeInfo [] (a ++ c!" " :: b) = (a, b) := by
  simp [normalizeInfo, lastIndexByte_append h]

/-- **C82.** All other pairs of application and version stay as they are. -/
theorem normalize_same (app ver : Bytes) (h : app ≠ [] ∨ c!" " ∉ ver) : normalizeInfo app ver = (app, ver) := by
  unfold normalizeInfo
  split
  · next h0 =>
    have := lastIndexByte_none.mpr (h.resolve_left (by simp [h0]))
    simp [this]
  · rfl

/-- The two cases are all there are. -/
theorem normalize_cases (app ver : Bytes) :
    (app = [] ∧ ∃ a b, ver = a ++ c!" " :: b ∧ c!" " ∉ b ∧ normalizeInfo app ver = (a, b)) ∨
      ((app ≠ [] ∨ c!" " ∉ ver) ∧ normalizeInfo app ver = (app, ver)) := by
  by_cases h : app ≠ [] ∨ c!" " ∉ ver
  · exact .inr ⟨h, normalize_same app ver h⟩
  · simp only [not_or, Decidable.not_not] at h
    obtain ⟨rfl, h⟩ := h
    refine .inl ⟨rfl, ?_⟩
    cases hl : lastIndexByte ver c!" " with
    | none => exact absurd h (lastIndexByte_none.mp hl)
    | some i =>
      obtain ⟨a, b, rfl, hb, -⟩ := lastIndexByte_some hl
      exact ⟨a, b, rfl, hb, normalize_split a b hb⟩

/-- The two fields as one text. -/
def text (x : Bytes × Bytes) : Bytes := if x.1 = [] then x.2 else x.1 ++ c!" " :: x.2

/-- **C82.** Nothing is lost, except for a space at the beginning that is the only one. -/
theorem normalize_text (app ver : Bytes) (h : ∀ b, ver = c!" " :: b → c!" " ∈ b) : text (normalizeInfo app ver) = text (app, ver) := by
  rcases normalize_cases app ver with ⟨rfl, a, b, rfl, hb, e⟩ | ⟨_, e⟩
  · rw [e]
    have : a ≠ [] := by rintro rfl; exact hb (h b rfl)
    simp [text, this]
  · rw [e]

/-- **C82.** Normalizing twice is the same as once. -/
theorem normalize_once (app ver : Bytes) :
    normalizeInfo (normalizeInfo app ver).1 (normalizeInfo app ver).2 = normalizeInfo app ver := by
  rcases normalize_cases app ver with ⟨rfl, a, b, rfl, hb, e⟩ | ⟨_, e⟩
  · rw [e]
    exact normalize_same a b (.inr hb)
  · rw [e]; exact e

example : normalizeInfo [] b!"EiskaltDC++ Qt 2.2.9" = (b!"EiskaltDC++ Qt", b!"2.2.9") ∧
    normalizeInfo b!"++" b!"0.8 x" = (b!"++", b!"0.8 x") := by decide +kernel

/-! ## C83 -/

theorem value3 {a b c : Byte} : value [a, b, c] = 100 * (a.toNat - 48) + 10 * (b.toNat - 48) + (c.toNat - 48) := by
  simp [value]
  omega

theorem digit_eq {x : Byte} (h : IsDigit x) {k : Byte} (hk : IsDigit k) : x = k ↔ x.toNat - 48 = k.toNat - 48 := by
  unfold IsDigit at h hk
  rw [← UInt8.toNat_inj]
  omega

/-- **C83.** A status with three digits: the first is its severity, the other two are its code. -/
theorem status_read {a b c : Byte} (ha : IsDigit a) (hb : IsDigit b) (hc : IsDigit c) (t : Bytes) :
    Status.unmarshal [a, b, c] = .ok ⟨(a.toNat - 48 : Nat), (10 * (b.toNat - 48) + (c.toNat - 48) : Nat), []⟩ ∧
    Status.unmarshal ([a, b, c] ++ c!" " :: t) = .ok ⟨(a.toNat - 48 : Nat), (10 * (b.toNat - 48) + (c.toNat - 48) : Nat), unescape t⟩ := by
  have hd : ∀ x ∈ [a, b, c], IsDigit x := by
    intro x hx
    simp only [List.mem_cons, List.not_mem_nil, or_false] at hx
    rcases hx with rfl | rfl | rfl <;> assumption
  have hns : c!" " ∉ [a, b, c] := fun h => absurd (hd _ h) (by decide)
  have l1 := digit_le ha
  have l2 := digit_le hb
  have l3 := digit_le hc
  have hp : parseInt [a, b, c] 64 = .ok ((value [a, b, c] : Nat) : Int) :=
    (parseInt_ok (by omega) (by omega)).mpr ⟨.plain ⟨by simp, hd⟩, by omega, by rw [value3]; omega⟩
  have hdiv : (((value [a, b, c] : Nat) : Int)).tdiv 100 = ((a.toNat - 48 : Nat) : Int) := by
    rw [value3, Int.tdiv_eq_ediv_of_nonneg (by omega)]; omega
  have hmod : (((value [a, b, c] : Nat) : Int)).tmod 100 = ((10 * (b.toNat - 48) + (c.toNat - 48) : Nat) : Int) := by
    rw [value3, Int.tmod_eq_emod_of_nonneg (by omega)]; omega
  constructor
  · rw [Status.unmarshal, splitMax_of_not_mem hns 1]
    simp only [hp, hdiv, hmod]
  · rw [Status.unmarshal, splitMax_append hns 0]
    simp only [hp, hdiv, hmod]
    simp [splitMax]

/-- **C83.** What a status says is decided by its first digit: 0 is success, 0 and 1 are recoverable; `Err` gives no error for
success, "does not exist" for the code 51, and else an error that holds the status. -/
theorem status_class {a b c : Byte} (ha : IsDigit a) (hb : IsDigit b) (hc : IsDigit c) (rest : Bytes) (hr : rest = [] ∨ ∃ t, rest = c!" " :: t) :
    ∃ st, Status.unmarshal ([a, b, c] ++ rest) = .ok st ∧ (st.ok = true ↔ a = c!"0") ∧
      (st.recoverable = true ↔ a = c!"0" ∨ a = c!"1") ∧ (st.err = none ↔ a = c!"0") ∧
      (st.err = some .notExist ↔ a ≠ c!"0" ∧ b = c!"5" ∧ c = c!"1") ∧
      (∀ e, st.err = some (.error e) ↔ e = st ∧ a ≠ c!"0" ∧ ¬ (b = c!"5" ∧ c = c!"1")) := by
  have main : ∀ m : Bytes, let st : Status := ⟨(a.toNat - 48 : Nat), (10 * (b.toNat - 48) + (c.toNat - 48) : Nat), m⟩
      (st.ok = true ↔ a = c!"0") ∧
      (st.recoverable = true ↔ a = c!"0" ∨ a = c!"1") ∧ (st.err = none ↔ a = c!"0") ∧
      (st.err = some .notExist ↔ a ≠ c!"0" ∧ b = c!"5" ∧ c = c!"1") ∧
      (∀ e, st.err = some (.error e) ↔ e = st ∧ a ≠ c!"0" ∧ ¬ (b = c!"5" ∧ c = c!"1")) := by
    intro m st
    have l2 := digit_le hb
    have l3 := digit_le hc
    have e0 : (a = c!"0") ↔ a.toNat - 48 = 0 := digit_eq ha (by decide)
    have e1 : (a = c!"1") ↔ a.toNat - 48 = 1 := digit_eq ha (by decide)
    have e5 : (b = c!"5") ↔ b.toNat - 48 = 5 := digit_eq hb (by decide)
    have e6 : (c = c!"1") ↔ c.toNat - 48 = 1 := digit_eq hc (by decide)
    have hok : st.ok = true ↔ a = c!"0" := by
      rw [e0]; simp only [Status.ok, st, beq_iff_eq]; omega
    have hcode : st.code = 51 ↔ b = c!"5" ∧ c = c!"1" := by
      rw [e5, e6]; simp only [st]; omega
    refine ⟨hok, ?_, ?_, ?_, ?_⟩
    · rw [Status.recoverable, Bool.or_eq_true, hok, e1]
      have : st.sev = ((a.toNat - 48 : Nat) : Int) := rfl
      rw [this, beq_iff_eq]
      refine or_congr Iff.rfl ⟨fun h => by omega, fun h => by omega⟩
    · rw [← hok, Status.err]
      cases st.ok with
      | true => simp
      | false => simp; split <;> simp
    · rw [← hcode, ne_eq, ← hok, Status.err]
      cases st.ok with
      | true => simp
      | false => simp
    · intro e
      rw [← hcode, ne_eq, ← hok, Status.err]
      cases st.ok with
      | true => simp
      | false =>
        simp only [Bool.not_false, if_true, Bool.false_eq_true, not_false_eq_true, true_and]
        split
        · next h => simp [h]
        · next h => simp [h, eq_comm]
  rcases hr with rfl | ⟨t, rfl⟩
  · exact ⟨_, by simpa using (status_read ha hb hc []).1, main _⟩
  · exact ⟨_, (status_read ha hb hc t).2, main _⟩

example : IsDigit c!"1" ∧ IsDigit c!"5" ∧ Status.unmarshal b!"151 File\\snot\\savailable" = .ok ⟨1, 51, b!"File not available"⟩ := by
  decide +kernel

/-! ## C40: session identifiers -/

/-- **C40.** `SIDFromString` accepts every text of four bytes and no other; on the others it panics. -/
theorem sid_from_string (s : Bytes) : (∀ id, sidFromString s = .ok id ↔ s = id.bytes) ∧ (sidFromString s = .panic ↔ s.length ≠ 4) := by
  unfold sidFromString SID.unmarshal
  by_cases h : s.length = 4
  · rw [dif_pos h]
    refine ⟨fun id => ?_, by simp [h]⟩
    constructor
    · intro e; cases e; rfl
    · rintro rfl; rfl
  · rw [dif_neg h]
    refine ⟨fun id => ?_, by simp [h]⟩
    constructor
    · intro e; cases e
    · rintro rfl; exact absurd id.size h

example : sidFromString b!"AAAB" = .ok ⟨b!"AAAB", rfl⟩ ∧ sidFromString b!"AAABC" = .panic := by decide +kernel

/-! ## C48: lists of features to add -/

variable [ParseFloat]

omit [ParseFloat] in
theorem addFeatures_go (fs : List Feature) : addFeatures.go (fs.map (·.bytes)) = modMarshalLoop false (fs.map fun f => (f, true)) := by
  induction fs with
  | nil => rfl
  | cons f fs ih =>
    simp only [List.map_cons, addFeatures.go, modMarshalLoop, ih, Feature.marshal]
    simp

/-- **C48.** A list of features to add is read as the map in which exactly these are on. -/
theorem addFeatures_read (fs : List Feature) (hn : fs.Nodup) (hp : ∀ f ∈ fs, AdcFeatures.Plain f) :
    ∃ m : FeaList, ModFeatures.unmarshal (addFeatures (fs.map (·.bytes))) none = .ok (some m) ∧
      ∀ k, m.get k = if k ∈ fs then some true else none := by
  have e : addFeatures (fs.map (·.bytes)) = ModFeatures.marshal (some (fs.map fun f => (f, true))) := by
    cases fs with
    | nil => rfl
    | cons f fs =>
      simp only [List.map_cons, addFeatures, ModFeatures.marshal, ModFeatures.entries, Option.getD_some, modMarshalLoop, addFeatures_go,
        Feature.marshal]
      simp
  have hw : ModFeatures.Wf (some (fs.map fun f => (f, true))) := by
    simp only [ModFeatures.Wf, ModFeatures.entries, Option.getD_some, List.map_map]
    rw [show ((fun x : Feature × Bool => x.1) ∘ fun f => (f, true)) = id from rfl, List.map_id]
    exact hn
  obtain ⟨m, h1, h2⟩ := AdcFeatures.feature_map_roundtrip (some (fs.map fun f => (f, true))) hw (by
    simp only [ModFeatures.entries, Option.getD_some, List.mem_map]
    rintro e ⟨f, hf, rfl⟩
    exact hp f hf)
  refine ⟨m, by rw [e]; exact h1, fun k => ?_⟩
  rw [h2]
  simp only [ModFeatures.get, ModFeatures.entries, Option.getD_some]
  exact AdcFeatures.get_const true fs k

example : ∃ fs : List Feature, fs.Nodup ∧ (∀ f ∈ fs, AdcFeatures.Plain f) ∧ addFeatures (fs.map (·.bytes)) = b!"ADBASE ADTIGR" :=
  ⟨[⟨b!"BASE", rfl⟩, ⟨b!"TIGR", rfl⟩], by decide, by unfold AdcFeatures.Plain; decide, rfl⟩

end Verif.Props.AdcSmall
