import Verif.Adc.Features
import Verif.Adc.MarshalLemmas

/-!
# C48: ADC feature maps

A map is observed through `get`: `some true` for a feature that is enabled, `some false` for one that is removed, `none` for one
that is not mentioned.  The list of entries stands for the order in which Go visits the map; the theorems hold for every order.
-/

namespace Verif.Props.AdcFeatures

open Verif.Go Verif.Adc Verif.Tiger Verif.Props.AdcText

/-! ## Maps -/

theorem get_assign (l : FeaList) (k k' : Feature) (v : Bool) :
    (l.assign k v).get k' = if k' = k then some v else l.get k' := by
  induction l with
  | nil =>
    simp only [FeaList.assign, FeaList.get, List.lookup]
    by_cases h : k' = k
    · simp [h]
    · have : (k' == k) = false := by simpa using h
      simp [this, h]
  | cons e l ih =>
    obtain ⟨a, b⟩ := e
    simp only [FeaList.assign]
    simp only [FeaList.get] at ih ⊢
    split
    · rename_i h
      subst h
      by_cases h : k' = a
      · simp [h]
      · have : (k' == a) = false := by simpa using h
        simp [List.lookup, this, h]
    · rename_i h
      by_cases hk : k' = a
      · subst hk
        simp [List.lookup, h]
      · have : (k' == a) = false := by simpa using hk
        simp [List.lookup, this, ih]

theorem keys_assign (l : FeaList) (k : Feature) (v : Bool) (x : Feature) :
    x ∈ (l.assign k v).map (·.1) ↔ x = k ∨ x ∈ l.map (·.1) := by
  induction l with
  | nil => simp [FeaList.assign]
  | cons e l ih =>
    obtain ⟨a, b⟩ := e
    simp only [FeaList.assign]
    split
    · rename_i h; subst h; simp
    · simp only [List.map_cons, List.mem_cons, ih]
      constructor
      · rintro (h | h | h) <;> simp [h]
      · rintro (h | h | h) <;> simp [h]

theorem nodup_assign {l : FeaList} (h : (l.map (·.1)).Nodup) (k : Feature) (v : Bool) : ((l.assign k v).map (·.1)).Nodup := by
  induction l with
  | nil => simp [FeaList.assign]
  | cons e l ih =>
    obtain ⟨a, b⟩ := e
    rw [List.map_cons, List.nodup_cons] at h
    simp only [FeaList.assign]
    split
    · rename_i ha; subst ha; simpa using h
    · rename_i ha
      rw [List.map_cons, List.nodup_cons]
      refine ⟨?_, ih h.2⟩
      rw [keys_assign]
      rintro (h1 | h1)
      · exact ha h1
      · exact h.1 h1

/-- A map without repeated keys gives the value of each entry. -/
theorem get_of_mem {l : FeaList} (h : (l.map (·.1)).Nodup) {k : Feature} {v : Bool} : l.get k = some v ↔ (k, v) ∈ l := by
  induction l with
  | nil => simp [FeaList.get]
  | cons e l ih =>
    obtain ⟨a, b⟩ := e
    rw [List.map_cons, List.nodup_cons] at h
    simp only [FeaList.get] at ih ⊢
    by_cases hk : k = a
    · subst hk
      simp only [List.lookup, beq_self_eq_true, Option.some.injEq, List.mem_cons, Prod.mk.injEq, true_and]
      constructor
      · rintro rfl; exact .inl rfl
      · rintro (h1 | h1)
        · exact h1.symm
        · exact absurd (List.mem_map_of_mem (f := (·.1)) h1) h.1
    · have : (k == a) = false := by simpa using hk
      simp only [List.lookup, this, List.mem_cons, Prod.mk.injEq, hk, false_and, false_or]
      exact ih h.2

theorem get_none {l : FeaList} {k : Feature} : l.get k = none ↔ k ∉ l.map (·.1) := by
  induction l with
  | nil => simp [FeaList.get]
  | cons e l ih =>
    obtain ⟨a, b⟩ := e
    simp only [FeaList.get] at ih ⊢
    by_cases hk : k = a
    · subst hk; simp [List.lookup]
    · have : (k == a) = false := by simpa using hk
      simp [List.lookup, this, ih, hk]

theorem get_assignAll (l mf : FeaList) (hl : (l.map (·.1)).Nodup) (k : Feature) :
    (assignAll mf l).get k = (l.get k).or (mf.get k) := by
  induction l generalizing mf with
  | nil => simp [assignAll, FeaList.get]
  | cons e l ih =>
    obtain ⟨a, b⟩ := e
    rw [List.map_cons, List.nodup_cons] at hl
    rw [assignAll, ih _ hl.2, get_assign]
    by_cases hk : k = a
    · subst hk
      rw [get_none.mpr hl.1]
      simp [FeaList.get, List.lookup]
    · have : (k == a) = false := by simpa using hk
      simp only [FeaList.get, List.lookup, this, hk, if_false]

theorem nodup_assignAll (l mf : FeaList) (h : (mf.map (·.1)).Nodup) : ((assignAll mf l).map (·.1)).Nodup := by
  induction l generalizing mf with
  | nil => exact h
  | cons e l ih => exact ih _ (nodup_assign h _ _)

/-! ## The operations -/

/-- `Clone` gives a map that says the same about every feature. -/
theorem clone_get (f : ModFeatures) (hf : f.Wf) (k : Feature) : FeaList.get f.clone k = f.get k := by
  rw [ModFeatures.clone, get_assignAll _ _ hf]
  simp [FeaList.get, ModFeatures.get]

/-- `SetFrom`: the argument overrides the receiver, what it does not mention stays. -/
theorem setFrom_get (f fp : ModFeatures) (hf : f.Wf) (hp : fp.Wf) (k : Feature) :
    (f.setFrom fp).get k = (fp.get k).or (f.get k) := by
  have key : ∀ l : FeaList, l = assignAll f.clone fp.entries → ModFeatures.get (some l) k = (fp.get k).or (f.get k) := by
    rintro l rfl
    show FeaList.get (assignAll f.clone fp.entries) k = _
    rw [get_assignAll _ _ hp, clone_get f hf]
    rfl
  unfold ModFeatures.setFrom
  split
  · rfl
  · exact key _ rfl

theorem setFrom_wf (f fp : ModFeatures) : (f.setFrom fp).Wf := by
  unfold ModFeatures.setFrom
  split
  · exact List.nodup_nil
  · exact nodup_assignAll _ _ (nodup_assignAll _ _ List.nodup_nil)

theorem intersectLoop_get (fp l fi : FeaList) (hl : (l.map (·.1)).Nodup) (k : Feature) :
    (intersectLoop fp fi l).get k = if l.get k = some true ∧ fp.get k = some true then some true else fi.get k := by
  induction l generalizing fi with
  | nil => simp [intersectLoop, FeaList.get]
  | cons e l ih =>
    obtain ⟨a, b⟩ := e
    rw [List.map_cons, List.nodup_cons] at hl
    rw [intersectLoop, ih _ hl.2]
    by_cases hk : k = a
    · subst hk
      rw [get_none.mpr hl.1]
      have e1 : FeaList.get ((k, b) :: l) k = some b := by simp [FeaList.get, List.lookup]
      rw [e1]
      cases b
      · simp
      · by_cases hp : fp.get k = some true
        · simp [hp, get_assign]
        · simp [hp]
    · have : (k == a) = false := by simpa using hk
      have e1 : FeaList.get ((a, b) :: l) k = FeaList.get l k := by simp [FeaList.get, List.lookup, this]
      rw [e1]
      split
      · rfl
      · split
        · rw [get_assign, if_neg hk]
        · rfl

/-- `Intersect` has exactly the features enabled on both sides, all of them enabled. -/
theorem intersect_get (f fp : ModFeatures) (hf : f.Wf) (k : Feature) :
    (f.intersect fp).get k = if f.get k = some true ∧ fp.get k = some true then some true else none := by
  cases f with
  | none => simp [ModFeatures.intersect, ModFeatures.get, ModFeatures.entries, FeaList.get]
  | some f =>
    cases fp with
    | none => simp [ModFeatures.intersect, ModFeatures.get, ModFeatures.entries, FeaList.get]
    | some fp => exact intersectLoop_get fp f [] hf k

/-- The features of an intersection do not depend on the order of the operands. -/
theorem intersect_comm (f fp : ModFeatures) (hf : f.Wf) (hp : fp.Wf) (k : Feature) :
    (f.intersect fp).get k = (fp.intersect f).get k := by
  rw [intersect_get f fp hf, intersect_get fp f hp]
  simp only [and_comm]

/-- `IsSet` tells whether the feature is mentioned. For maps without removed features it tells whether it is enabled. -/
theorem isSet_partial (f : ModFeatures) (k : Feature) (h : f.get k ≠ some false) : f.isSet k = true ↔ f.get k = some true := by
  unfold ModFeatures.isSet
  cases hk : f.get k with
  | none => simp
  | some b => cases b <;> simp_all

/-- `IsSet` is true for a feature that was removed. -/
theorem isSet_of_removed : ModFeatures.isSet (some [(⟨b!"TIGR", rfl⟩, false)]) ⟨b!"TIGR", rfl⟩ = true := by decide +kernel

/-- `IsSet` on an intersection is right. -/
theorem isSet_intersect (f fp : ModFeatures) (hf : f.Wf) (k : Feature) :
    (f.intersect fp).isSet k = true ↔ f.get k = some true ∧ fp.get k = some true := by
  unfold ModFeatures.isSet
  rw [intersect_get f fp hf]
  split <;> simp_all

/-- `Join` lists the enabled features. -/
theorem join_eq (f : ModFeatures) :
    ∃ ns : List Feature, f.join = join (ns.map (·.bytes)) c!"," ∧ (f.Wf → ∀ k, k ∈ ns ↔ f.get k = some true) := by
  refine ⟨(f.entries.filter (·.2)).map (·.1), ?_, ?_⟩
  · simp [ModFeatures.join, Feature.marshal, Function.comp_def]
  · intro hf k
    rw [ModFeatures.get, get_of_mem hf]
    simp only [List.mem_map, List.mem_filter]
    constructor
    · rintro ⟨⟨a, b⟩, ⟨h1, h2⟩, rfl⟩
      simp only at h2
      subst h2; exact h1
    · intro h
      exact ⟨(k, true), ⟨h, rfl⟩, rfl⟩

/-! ## Encoding and decoding -/

variable [ParseFloat]

set_option linter.unusedSectionVars false

/-- A feature without space and backslash. -/
def Plain (k : Feature) : Prop := c!" " ∉ k.bytes ∧ c!"\\" ∉ k.bytes

/-- A feature that is written and read as it is. -/
def Clean (k : Feature) : Prop := c!" " ∉ k.bytes ∧ unescape k.bytes = k.bytes

omit [ParseFloat] in
theorem Plain.clean {k : Feature} (h : Plain k) : Clean k := ⟨h.1, (plain_text _).1 h.2⟩

/-- The tag of an entry. -/
def tagOf (st : Bool) : Bytes := if st then b!"AD" else b!"RM"

/-- The names with a given state, in the order of the list. -/
def namesOf (st : Bool) (l : FeaList) : List Feature := (l.filter (fun e => e.2 == st)).map (·.1)

omit [ParseFloat] in
theorem modMarshal_eq (l : FeaList) (first : Bool) :
    modMarshalLoop first l = glue first (l.map (fun e => tagOf e.2 ++ e.1.bytes)) := by
  induction l generalizing first with
  | nil => rfl
  | cons e l ih =>
    obtain ⟨k, st⟩ := e
    simp only [modMarshalLoop, List.map_cons, glue, ih, Feature.marshal, tagOf]
    cases first <;> simp

theorem tag_ne (st st' : Bool) (h : st ≠ st') (x : Bytes) : ¬ tagOf st <+: tagOf st' ++ x := by
  cases st <;> cases st' <;> simp_all [tagOf]

theorem taggedVals_names (st : Bool) (l : FeaList) :
    taggedVals (tagOf st) (l.map (fun e => tagOf e.2 ++ e.1.bytes)) = (namesOf st l).map (·.bytes) := by
  induction l with
  | nil => rfl
  | cons e l ih =>
    obtain ⟨k, st'⟩ := e
    simp only [List.map_cons, taggedVals]
    by_cases h : st' = st
    · subst h
      rw [if_pos (by rw [hasPrefix_iff]; exact List.prefix_append _ _), ih]
      simp [namesOf]
    · rw [if_neg (by rw [hasPrefix_iff]; exact tag_ne _ _ (Ne.symm h) _), ih]
      have : (st' == st) = false := by simpa using h
      simp [namesOf, this]

theorem slice_names (ns : List Feature) (h : ∀ k ∈ ns, Clean k) :
    unmarshalSlice .str (ns.map (·.bytes)) = .ok (ns.map (·.bytes)) := by
  induction ns with
  | nil => rfl
  | cons k ns ih =>
    have h1 : unmarshalValue k.bytes .str ([] : Bytes) = .ok k.bytes := by
      show (if k.bytes.length = 0 then Res.ok ([] : Bytes) else .ok (unescape k.bytes)) = _
      rw [if_neg (by rw [k.size]; decide), (h k (by simp)).2]
      rfl
    rw [List.map_cons, unmarshalSlice]
    have h2 := ih (fun x hx => h x (by simp [hx]))
    have h1' : unmarshalValue k.bytes .str Kind.str.zero = .ok k.bytes := h1
    rw [h1', h2]
    rfl

theorem tagged_names (ns : List Feature) (h : ∀ k ∈ ns, Clean k) :
    unmarshalTagged (ns.map (·.bytes)) (.slice .str) ([] : List Bytes) = .ok (ns.map (·.bytes)) := by
  cases ns with
  | nil => rfl
  | cons k ns => exact slice_names (k :: ns) h

/-- What the two lists of the struct in `UnmarshalADC` become. -/
theorem modRow (l : FeaList) (h : ∀ e ∈ l, Clean e.1) :
    unmarshalRow modFields (ModFeatures.marshal (some l)) (Row.zero modFields) =
      .ok ((namesOf true l).map (·.bytes), (namesOf false l).map (·.bytes), ()) := by
  have hn : ∀ st, ∀ k ∈ namesOf st l, Clean k := by
    intro st k hk
    simp only [namesOf, List.mem_map, List.mem_filter] at hk
    obtain ⟨e, ⟨he, _⟩, rfl⟩ := hk
    exact h e he
  have key : ∀ ts, taggedVals b!"AD" ts = (namesOf true l).map (·.bytes) → taggedVals b!"RM" ts = (namesOf false l).map (·.bytes) →
      unmarshalFields modFields ts (Row.zero modFields) = .ok ((namesOf true l).map (·.bytes), (namesOf false l).map (·.bytes), ()) := by
    intro ts h1 h2
    show (unmarshalTagged (taggedVals b!"AD" ts) (.slice .str) ([] : List Bytes) >>= fun x =>
      (unmarshalTagged (taggedVals b!"RM" ts) (.slice .str) ([] : List Bytes) >>= fun y => Res.ok (y, ())) >>= fun r =>
        Res.ok (x, r)) = _
    rw [h1, h2, tagged_names _ (hn true), tagged_names _ (hn false)]
    rfl
  rw [unmarshalRow, ModFeatures.marshal]
  show unmarshalFields modFields (split (modMarshalLoop true l) _) _ = _
  rw [modMarshal_eq, glue_join]
  by_cases hl : l = []
  · subst hl; exact key [[]] rfl rfl
  · rw [split_join (by simpa using hl)]
    · exact key _ (taggedVals_names true l) (taggedVals_names false l)
    · intro p hp
      obtain ⟨e, he, rfl⟩ := List.mem_map.mp hp
      simp only [List.mem_append, not_or]
      refine ⟨?_, (h e he).1⟩
      cases e.2 <;> decide

theorem modAssign_eq (st : Bool) (ns : List Feature) (m : FeaList) :
    modAssign m st (ns.map (·.bytes)) = .ok (assignAll m (ns.map (fun k => (k, st)))) := by
  induction ns generalizing m with
  | nil => rfl
  | cons k ns ih =>
    have e : Feature.unmarshal k.bytes = .ok k := feature_roundtrip k
    rw [List.map_cons, modAssign, e]
    simp only [Res.ok_bind, ih]
    rfl

theorem get_const (st : Bool) (ns : List Feature) (k : Feature) :
    FeaList.get (ns.map (fun k => (k, st))) k = if k ∈ ns then some st else none := by
  induction ns with
  | nil => rfl
  | cons a ns ih =>
    simp only [FeaList.get] at ih ⊢
    by_cases hk : k = a
    · subst hk; simp
    · have : (k == a) = false := by simpa using hk
      simp [List.lookup, this, ih, hk]

theorem mem_namesOf {st : Bool} {l : FeaList} {k : Feature} : k ∈ namesOf st l ↔ (k, st) ∈ l := by
  simp only [namesOf, List.mem_map, List.mem_filter, beq_iff_eq]
  constructor
  · rintro ⟨⟨a, b⟩, ⟨h1, h2⟩, rfl⟩
    simp only at h2
    subst h2; exact h1
  · intro h; exact ⟨(k, st), ⟨h, rfl⟩, rfl⟩

theorem nodup_namesOf {st : Bool} {l : FeaList} (h : (l.map (·.1)).Nodup) : (namesOf st l).Nodup :=
  (List.filter_sublist.map _).nodup h

theorem feature_map_clean (f cur : ModFeatures) (hf : f.Wf) (hc : cur.Wf) (hp : ∀ e ∈ f.entries, Clean e.1) :
    ∃ m : FeaList, ModFeatures.unmarshal f.marshal cur = .ok (some m) ∧ (m.map (·.1)).Nodup ∧
      ∀ k, m.get k = (f.get k).or (cur.get k) := by
  have hm : f.marshal = ModFeatures.marshal (some f.entries) := rfl
  refine ⟨assignAll (assignAll cur.entries ((namesOf false f.entries).map (fun k => (k, false))))
      ((namesOf true f.entries).map (fun k => (k, true))), ?_, ?_, ?_⟩
  · rw [hm, ModFeatures.unmarshal, modRow _ hp]
    show (modAssign cur.entries false ((namesOf false f.entries).map (·.bytes)) >>= fun m =>
      modAssign m true ((namesOf true f.entries).map (·.bytes)) >>= fun m => Res.ok (some m)) = _
    simp only [modAssign_eq, Res.ok_bind]
  · exact nodup_assignAll _ _ (nodup_assignAll _ _ hc)
  · intro k
    have hnd : ∀ st, (((namesOf st f.entries).map (fun k => (k, st))).map (·.1)).Nodup := by
      intro st
      rw [List.map_map]
      simpa [Function.comp_def] using nodup_namesOf hf
    rw [get_assignAll _ _ (hnd true), get_assignAll _ _ (hnd false), get_const, get_const]
    simp only [mem_namesOf]
    simp only [← get_of_mem hf, ModFeatures.get]
    cases h : FeaList.get f.entries k with
    | none => simp
    | some b => cases b <;> simp

/-- A feature map that was encoded, in whatever order, and decoded into a map gives that map with all entries overridden. -/
theorem feature_map_merge (f cur : ModFeatures) (hf : f.Wf) (hc : cur.Wf) (hp : ∀ e ∈ f.entries, Plain e.1) :
    ∃ m : FeaList, ModFeatures.unmarshal f.marshal cur = .ok (some m) ∧ (m.map (·.1)).Nodup ∧
      ∀ k, m.get k = (f.get k).or (cur.get k) := feature_map_clean f cur hf hc (fun e he => (hp e he).clean)

/-- **C48.** A feature map comes back, whatever the order in which its entries were visited. -/
theorem feature_map_roundtrip (f : ModFeatures) (hf : f.Wf) (hp : ∀ e ∈ f.entries, Plain e.1) :
    ∃ m : FeaList, ModFeatures.unmarshal f.marshal none = .ok (some m) ∧ ∀ k, m.get k = f.get k := by
  obtain ⟨m, h1, _, h3⟩ := feature_map_merge f none hf List.nodup_nil hp
  refine ⟨m, h1, fun k => ?_⟩
  rw [h3]
  simp [ModFeatures.get, ModFeatures.entries, FeaList.get]

example : ModFeatures.Wf (some [(⟨b!"BASE", rfl⟩, true), (⟨b!"TIGR", rfl⟩, false), (⟨b!"ZLIF", rfl⟩, true)]) ∧
    ModFeatures.marshal (some [(⟨b!"BASE", rfl⟩, true), (⟨b!"TIGR", rfl⟩, false), (⟨b!"ZLIF", rfl⟩, true)]) =
      b!"ADBASE RMTIGR ADZLIF" := by unfold ModFeatures.Wf; decide +kernel

/-- Encoding the same map in another order is decoded as the same map. -/
theorem order_irrelevant (f g : ModFeatures) (hf : f.Wf) (hg : g.Wf) (hpf : ∀ e ∈ f.entries, Plain e.1)
    (hpg : ∀ e ∈ g.entries, Plain e.1) (h : ∀ k, f.get k = g.get k) :
    ∃ m m' : FeaList, ModFeatures.unmarshal f.marshal none = .ok (some m) ∧ ModFeatures.unmarshal g.marshal none = .ok (some m') ∧
      ∀ k, m.get k = m'.get k := by
  obtain ⟨m, h1, h2⟩ := feature_map_roundtrip f hf hpf
  obtain ⟨m', h3, h4⟩ := feature_map_roundtrip g hg hpg
  exact ⟨m, m', h1, h3, fun k => by rw [h2, h4, h]⟩

/-- A line that adds and removes the same feature enables it. -/
theorem add_wins : (ModFeatures.unmarshal b!"ADTIGR RMTIGR" none).bind (fun m => .ok (m.get ⟨b!"TIGR", rfl⟩)) = .ok (some true) := rfl

end Verif.Props.AdcFeatures
