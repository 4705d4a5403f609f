import Verif.Props.NmdcExact
import Verif.Props.NmdcMyInfo

/-!
# Which information about users comes back as it was (C91)
-/

namespace Verif.Props.NmdcExact

open Verif.Go Verif.Spec Verif.Nmdc Verif.Tiger Verif.Spec.NmdcReads Verif.Spec.NmdcWire

/-! ## Fields of the tag -/

/-- The key under which an extra field is stored. -/
def storedKey : Bytes → Bytes
  | [k] => byteString (upperKey k)
  | k => k

/-- An extra field of the map. -/
def ExtraOk (e : Bytes × Bytes) : Prop := e.1 ≠ [] ∧ c!":" ∉ e.1 ∧ c!"," ∉ e.1 ∧ c!"," ∉ e.2

theorem set_length (m : StrMap) (k v : Bytes) : (m.set k v).length ≤ m.length + 1 := by
  unfold StrMap.set
  split <;> simp

theorem set_grows {m : StrMap} {k v : Bytes} (h : (m.set k v).length = m.length + 1) : m.set k v = m ++ [(k, v)] := by
  unfold StrMap.set at h ⊢
  split
  · rename_i hc; rw [if_pos hc, List.length_map] at h; omega
  · rfl

theorem set_ok {m : StrMap} {k v : Bytes} (hm : ∀ e ∈ m, ExtraOk e) (h : ExtraOk (k, v)) : ∀ e ∈ m.set k v, ExtraOk e := by
  unfold StrMap.set
  split
  · intro e he
    obtain ⟨x, hx, rfl⟩ := List.mem_map.mp he
    split
    · exact h
    · exact hm x hx
  · intro e he
    rcases List.mem_append.mp he with he | he
    · exact hm e he
    · simp only [List.mem_singleton] at he; subst he; exact h

/-- What the fields of a tag set has no commas, and the extra fields have keys. -/
def Clean (m : MyINFO) : Prop := c!"," ∉ m.client.version ∧ m.mode ≠ c!"," ∧ ∀ e ∈ m.extra, ExtraOk e

theorem letter_clean {m m' : MyINFO} {k : Byte} {v : Bytes} (hm : Clean m) (hk : ¬ (k = c!":" ∨ k = c!",")) (hv : c!"," ∉ v)
    (h : m.letter (upperKey k) v = .ok m') : Clean m' := by
  unfold MyINFO.letter at h
  split at h
  · cases h; exact ⟨hv, hm.2⟩
  split at h
  · cases h
    refine ⟨hm.1, ?_, hm.2.2⟩
    simp only
    split
    · intro hc; subst hc; simp at hv
    · decide
  split at h
  · unfold MyINFO.hubs at h
    split at h
    · cases h; exact hm
    split at h
    · obtain ⟨a, -, h⟩ := Res.bind_eq_ok.mp h; cases h; exact hm
    split at h
    · simp only [Res.bind_eq_ok, Res.ok.injEq] at h
      obtain ⟨a, -, b, -, c, -, rfl⟩ := h
      exact hm
    · cases h
  split at h
  · obtain ⟨a, -, h⟩ := Res.bind_eq_ok.mp h; cases h; exact hm
  · cases h
    refine ⟨hm.1, hm.2.1, set_ok hm.2.2 ?_⟩
    have : ∀ k : Byte, ¬ (k = c!":" ∨ k = c!",") → byteString (upperKey k) ≠ [] ∧ c!":" ∉ byteString (upperKey k) ∧ c!"," ∉ byteString (upperKey k) := by
      apply forall_byte; decide +kernel
    exact ⟨(this k hk).1, (this k hk).2.1, (this k hk).2.2, hv⟩

/-- A field with a key. -/
theorem field_one (first : Bool) (c : Bytes) (m : MyINFO) {k : Byte} (hk : k ≠ c!":") (v : Bytes) :
    MyINFO.tagField first c m ([k] ++ c!":" :: v) = (m.letter (upperKey k) v).bind (fun m => .ok (c, m)) :=
  NmdcMyInfo.tagField_letter hk

theorem field_long (first : Bool) (c : Bytes) (m : MyINFO) {k : Bytes} (hk : c!":" ∉ k) (hl : 1 < k.length) (v : Bytes) :
    MyINFO.tagField first c m (k ++ c!":" :: v) = .ok (c, { m with extra := m.extra.set k v }) := by
  unfold MyINFO.tagField
  rw [if_neg (by simp), indexByte_append hk]
  have h0 : k.length ≠ 0 := by omega
  simp only [h0, if_false, sliceFrom_append', List.take_left, Res.ok_bind]
  match k, hl with
  | a :: b :: t, _ => rfl

theorem field_none (first : Bool) (c : Bytes) (m : MyINFO) (v : Bytes) : MyINFO.tagField first c m (c!":" :: v) = .err (.other 85) := by
  unfold MyINFO.tagField
  rw [if_neg (by simp)]
  simp [indexByte]

theorem field_clean {first : Bool} {c c' f : Bytes} {m m' : MyINFO} (hm : Clean m) (hf : c!"," ∉ f)
    (h : MyINFO.tagField first c m f = .ok (c', m')) : Clean m' := by
  cases hi : indexByte f c!":" with
  | none =>
    unfold MyINFO.tagField at h
    split at h
    · cases h; exact hm
    simp only [hi] at h
    split at h
    · cases h; exact hm
    · cases h
  | some i =>
    obtain ⟨k, v, rfl, hk, -⟩ := indexByte_some hi
    simp only [List.mem_append, List.mem_cons, not_or] at hf
    match k, hk, hf with
    | [], _, _ =>
      rw [List.nil_append, field_none] at h
      cases h
    | [x], hk, hf =>
      rw [field_one _ _ _ (by simpa [eq_comm] using hk)] at h
      obtain ⟨m1, h1, h2⟩ := Res.bind_eq_ok.mp h
      cases h2
      refine letter_clean hm ?_ hf.2.2 h1
      rintro (rfl | rfl)
      · simp at hk
      · simp at hf
    | a :: b :: t, hk, hf =>
      rw [field_long _ _ _ hk (by simp)] at h
      cases h
      exact ⟨hm.1, hm.2.1, set_ok hm.2.2 ⟨by simp, hk, hf.1, hf.2.2⟩⟩

theorem fields_clean {first : Bool} {c c' : Bytes} {fs : List Bytes} {m m' : MyINFO} (hm : Clean m) (hf : ∀ f ∈ fs, c!"," ∉ f)
    (h : MyINFO.tagFields first c m fs = .ok (c', m')) : Clean m' := by
  induction fs generalizing first c m with
  | nil => cases h; exact hm
  | cons f fs ih =>
    rw [MyINFO.tagFields] at h
    obtain ⟨⟨c1, m1⟩, h1, h2⟩ := Res.bind_eq_ok.mp h
    exact ih (field_clean hm (hf f (by simp)) h1) (fun x hx => hf x (by simp [hx])) h2

theorem hubs_extra {m m' : MyINFO} {v : Bytes} (h : m.hubs v = .ok m') : m'.extra = m.extra := by
  unfold MyINFO.hubs at h
  split at h
  · cases h; rfl
  split at h
  · obtain ⟨a, -, h⟩ := Res.bind_eq_ok.mp h; cases h; rfl
  split at h
  · simp only [Res.bind_eq_ok, Res.ok.injEq] at h
    obtain ⟨a, -, b, -, c, -, rfl⟩ := h
    rfl
  · cases h

theorem letter_extra {m m' : MyINFO} {k : Byte} {v : Bytes} (h : m.letter k v = .ok m') :
    (k ∈ b!"VMHS" ∧ m'.extra = m.extra) ∨ (k ∉ b!"VMHS" ∧ m' = { m with extra := m.extra.set (byteString k) v }) := by
  unfold MyINFO.letter at h
  split at h
  · rename_i hk; cases h; exact .inl ⟨by rw [hk]; decide, rfl⟩
  split at h
  · rename_i hk; cases h; exact .inl ⟨by rw [hk]; decide, rfl⟩
  split at h
  · rename_i hk; exact .inl ⟨by rw [hk]; decide, hubs_extra h⟩
  split at h
  · rename_i hk; obtain ⟨a, -, h⟩ := Res.bind_eq_ok.mp h; cases h; exact .inl ⟨by rw [hk]; decide, rfl⟩
  · rename_i h1 h2 h3 h4
    cases h
    exact .inr ⟨by simp [h1, h2, h3, h4], rfl⟩

/-- One extra field is stored once, at most. -/
theorem extra_step {c c' : Bytes} {m m' : MyINFO} {e : Bytes × Bytes} (he : ExtraOk e)
    (h : MyINFO.tagField false c m (e.1 ++ c!":" :: e.2) = .ok (c', m')) :
    c' = c ∧ m'.extra.length ≤ m.extra.length + 1 ∧ (m'.extra.length = m.extra.length + 1 →
      m' = { m with extra := m.extra ++ [(storedKey e.1, e.2)] } ∧ ∀ k, e.1 = [k] → upperKey k ∉ b!"VMHS") := by
  obtain ⟨k, v⟩ := e
  obtain ⟨h1, h2, -⟩ := he
  simp only at h1 h2 h ⊢
  match k, h1, h2, h with
  | [x], _, h2, h =>
    rw [field_one _ _ _ (by simpa [eq_comm] using h2)] at h
    obtain ⟨m1, h3, h4⟩ := Res.bind_eq_ok.mp h
    cases h4
    rcases letter_extra h3 with ⟨-, h5⟩ | ⟨h5, rfl⟩
    · rw [h5]; exact ⟨rfl, by omega, fun h => by omega⟩
    · refine ⟨rfl, set_length _ _ _, fun hl => ⟨?_, ?_⟩⟩
      · simp only at hl
        rw [set_grows hl]; rfl
      · rintro k hk; cases hk; exact h5
  | a :: b :: t, _, h2, h =>
    rw [field_long _ _ _ h2 (by simp)] at h
    cases h
    refine ⟨rfl, set_length _ _ _, fun hl => ⟨?_, ?_⟩⟩
    · simp only at hl
      rw [set_grows hl]; rfl
    · rintro k hk; cases hk

theorem extra_steps {c c' : Bytes} {m m' : MyINFO} {o : StrMap} (ho : ∀ e ∈ o, ExtraOk e)
    (h : MyINFO.tagFields false c m (o.map (fun e => e.1 ++ c!":" :: e.2)) = .ok (c', m')) :
    c' = c ∧ m'.extra.length ≤ m.extra.length + o.length ∧ (m'.extra.length = m.extra.length + o.length →
      m' = { m with extra := m.extra ++ o.map (fun e => (storedKey e.1, e.2)) } ∧ ∀ e ∈ o, ∀ k, e.1 = [k] → upperKey k ∉ b!"VMHS") := by
  induction o generalizing c m with
  | nil => cases h; simp
  | cons e o ih =>
    rw [List.map_cons, MyINFO.tagFields] at h
    obtain ⟨⟨c1, m1⟩, h1, h2⟩ := Res.bind_eq_ok.mp h
    obtain ⟨i1, i2, i3⟩ := ih (fun x hx => ho x (by simp [hx])) h2
    obtain ⟨j1, j2, j3⟩ := extra_step (ho e (by simp)) h1
    refine ⟨i1.trans j1, by simp only [List.length_cons]; omega, fun hl => ?_⟩
    simp only [List.length_cons] at hl
    obtain ⟨i4, i5⟩ := i3 (by omega)
    obtain ⟨j4, j5⟩ := j3 (by omega)
    refine ⟨?_, ?_⟩
    · rw [i4, j4]; simp
    · intro x hx
      rcases List.mem_cons.mp hx with rfl | hx
      · exact j5
      · exact i5 x hx

/-- A measure of keys: small letters become smaller. -/
def weight : Bytes → Nat
  | [k] => k.toNat
  | _ => 0

theorem stored_weight (k : Bytes) : weight (storedKey k) ≤ weight k ∧ (weight (storedKey k) = weight k → storedKey k = k ∧ ∀ c, k = [c] → c ≤ c!"Z") := by
  match k with
  | [] => simp [storedKey]
  | a :: b :: t => simp [storedKey]
  | [x] =>
    have : ∀ x : Byte, weight (byteString (upperKey x)) ≤ x.toNat ∧ (weight (byteString (upperKey x)) = x.toNat → byteString (upperKey x) = [x] ∧ x ≤ c!"Z") := by
      apply forall_byte; decide +kernel
    refine ⟨(this x).1, fun h => ⟨((this x).2 h).1, ?_⟩⟩
    rintro c hc; cases hc; exact ((this x).2 h).2

/-- If the stored fields are the fields, every key is stored as it is. -/
theorem stored_same {o : StrMap} (h : (o.map (fun e => (storedKey e.1, e.2))).Perm o) : ∀ e ∈ o, storedKey e.1 = e.1 ∧ ∀ c, e.1 = [c] → c ≤ c!"Z" := by
  have h1 : ((o.map (fun e => (storedKey e.1, e.2))).map (fun e => weight e.1)).sum = (o.map (fun e => weight e.1)).sum := (h.map _).sum_nat
  rw [List.map_map] at h1
  clear h
  induction o with
  | nil => simp
  | cons e o ih =>
    simp only [List.map_cons, List.sum_cons, Function.comp_apply] at h1
    have hle : ∀ l : StrMap, (l.map ((fun e => weight e.1) ∘ fun e => (storedKey e.1, e.2))).sum ≤ (l.map (fun e => weight e.1)).sum := by
      intro l
      induction l with
      | nil => simp
      | cons x l ih =>
        simp only [List.map_cons, List.sum_cons, Function.comp_apply]
        have := (stored_weight x.1).1
        omega
    have h2 := hle o
    have h3 := stored_weight e.1
    intro x hx
    rcases List.mem_cons.mp hx with rfl | hx
    · exact h3.2 (by omega)
    · exact ih (by omega) x hx

theorem atoi_range {d : Bytes} {e : Err} {k : Int} (h : mapErr (atoiTrim d) e = .ok k) : NmdcBack.Int64 k := by
  have : atoiTrim d = .ok k := by
    cases hd : atoiTrim d with
    | ok x => rw [hd] at h; exact h
    | err x => rw [hd] at h; cases h
    | panic => rw [hd] at h; cases h
  exact range_of (int_reads.mp this)
where
  range_of {d : Bytes} {k : Int} : ReadsInt d k → NmdcBack.Int64 k := fun ⟨_, _, _, h⟩ => h

theorem hubs_range {m m' : MyINFO} {v : Bytes} (hv : c!"/" ∈ v) (h : m.hubs v = .ok m') :
    NmdcBack.Int64 m'.hubsNormal ∧ NmdcBack.Int64 m'.hubsRegistered ∧ NmdcBack.Int64 m'.hubsOperator ∧
      m' = { m with hubsNormal := m'.hubsNormal, hubsRegistered := m'.hubsRegistered, hubsOperator := m'.hubsOperator } := by
  unfold MyINFO.hubs at h
  split at h
  · rename_i h0
    rw [List.length_eq_zero_iff.mp h0] at hv; cases hv
  split at h
  · rename_i h0
    rw [Option.isNone_iff_eq_none, indexByte_none] at h0
    exact absurd hv h0
  split at h
  · simp only [Res.bind_eq_ok, Res.ok.injEq] at h
    obtain ⟨a, ha, b, hb, c, hc, rfl⟩ := h
    exact ⟨atoi_range ha, atoi_range hb, atoi_range hc, rfl⟩
  · cases h

/-- What the fields that were written are read as. -/
theorem tag_back {m m0 m1 : MyINFO} {c c' : Bytes} {o : StrMap} (h0 : Clean m0) (h0' : m0.extra = []) (ho : o.Perm m.extra)
    (h : MyINFO.tagFields true c m0 (split (join (NmdcMyInfo.tagFieldsOf m o) c!",") c!",") = .ok (c', m1))
    (hx : m1.extra.Perm m.extra) (hv : m1.client.version = m.client.version) (hmo : m1.mode = m.mode) (h1 : m1.hubsNormal = m.hubsNormal)
    (h2 : m1.hubsRegistered = m.hubsRegistered) (h3 : m1.hubsOperator = m.hubsOperator) (h4 : m1.slots = m.slots) :
    c' = c ∧ c!"," ∉ m.client.version ∧ m.mode ≠ 0 ∧ m.mode ≠ c!"," ∧
      (∀ k ∈ [m.hubsNormal, m.hubsRegistered, m.hubsOperator, m.slots], NmdcBack.Int64 k) ∧
      ∀ e ∈ m.extra, ExtraOk e ∧ ∀ c, e.1 = [c] → c ≤ c!"Z" ∧ c ∉ b!"VMHS" := by
  have hparts := (Verif.Adc.parts_iff c!"," (join (NmdcMyInfo.tagFieldsOf m o) c!",") _).mpr rfl
  obtain ⟨c1, c2, c3⟩ := fields_clean h0 hparts.2.1 h
  rw [hv] at c1
  rw [hmo] at c2
  have hox : ∀ e ∈ o, ExtraOk e := fun e he => c3 e (hx.mem_iff.mpr (ho.mem_iff.mp he))
  have nc : ∀ k, c!"," ∉ itoa k := fun k h => by
    rcases itoa_bytes h with h | h
    · exact absurd h (by decide)
    · exact absurd h (by decide)
  have hsplit : split (join (NmdcMyInfo.tagFieldsOf m o) c!",") c!"," = NmdcMyInfo.tagFieldsOf m o := by
    apply split_back.mpr
    refine ⟨by simp [NmdcMyInfo.tagFieldsOf], fun x hx => ?_⟩
    unfold NmdcMyInfo.tagFieldsOf at hx
    simp only [List.mem_cons, List.mem_map] at hx
    rcases hx with rfl | rfl | rfl | rfl | ⟨e, he, rfl⟩
    · simp [c1]
    · intro hm
      simp only [List.mem_append, List.mem_cons, List.not_mem_nil, or_false] at hm
      rcases hm with (hm | hm) | hm
      · cases hm
      · cases hm
      · split at hm
        · exact c2 hm.symm
        · cases hm
    · simp [nc]
    · simp [nc]
    · simp [(hox e he).2.2.1, (hox e he).2.2.2]
  rw [hsplit] at h
  unfold NmdcMyInfo.tagFieldsOf at h
  simp only [MyINFO.tagFields, Res.bind_eq_ok] at h
  obtain ⟨⟨a1, n1⟩, e1, ⟨a2, n2⟩, e2, ⟨a3, n3⟩, e3, ⟨a4, n4⟩, e4, e5⟩ := h
  have g1 : MyINFO.tagField true c m0 (b!"V:" ++ m.client.version) =
      .ok (c, { m0 with client := { m0.client with version := m.client.version } }) :=
    field_one true c m0 (k := c!"V") (by decide) m.client.version
  obtain ⟨rfl, rfl⟩ := Prod.mk.inj (Res.ok.inj (g1.symm.trans e1))
  simp only at e2
  have g2 : ∀ n : MyINFO, MyINFO.tagField false c n (b!"M:" ++ [if m.mode ≠ 0 ∧ m.mode ≠ c!" " then m.mode else c!" "]) =
      .ok (c, { n with mode := if m.mode ≠ 0 ∧ m.mode ≠ c!" " then m.mode else c!" " }) := fun n =>
    field_one false c n (k := c!"M") (by decide) _
  obtain ⟨rfl, rfl⟩ := Prod.mk.inj (Res.ok.inj ((g2 _).symm.trans e2))
  simp only at e3
  have g3 : ∀ n : MyINFO, MyINFO.tagField false c n (b!"H:" ++ itoa m.hubsNormal ++ b!"/" ++ itoa m.hubsRegistered ++ b!"/" ++ itoa m.hubsOperator) =
      (n.hubs (itoa m.hubsNormal ++ b!"/" ++ itoa m.hubsRegistered ++ b!"/" ++ itoa m.hubsOperator)).bind fun m => .ok (c, m) := fun n => by
    have := field_one false c n (k := c!"H") (by decide) (itoa m.hubsNormal ++ b!"/" ++ itoa m.hubsRegistered ++ b!"/" ++ itoa m.hubsOperator)
    rw [show MyINFO.letter n (upperKey c!"H") (itoa m.hubsNormal ++ b!"/" ++ itoa m.hubsRegistered ++ b!"/" ++ itoa m.hubsOperator)
      = n.hubs (itoa m.hubsNormal ++ b!"/" ++ itoa m.hubsRegistered ++ b!"/" ++ itoa m.hubsOperator) from rfl] at this
    rw [← this]; simp
  rw [g3] at e3
  obtain ⟨n3', e8, e3''⟩ := Res.bind_eq_ok.mp e3
  obtain ⟨rfl, rfl⟩ := Prod.mk.inj (Res.ok.inj e3'')
  obtain ⟨r1, r2, r3, r4⟩ := hubs_range (by simp) e8
  simp only at e4
  have g4 : ∀ n : MyINFO, MyINFO.tagField false c n (b!"S:" ++ itoa m.slots) =
      (do let a ← mapErr (atoiTrim (itoa m.slots)) (.other 84); Res.ok (c, { n with slots := a })) := fun n => by
    have := field_one false c n (k := c!"S") (by decide) (itoa m.slots)
    rw [show MyINFO.letter n (upperKey c!"S") (itoa m.slots)
      = (do let a ← mapErr (atoiTrim (itoa m.slots)) (.other 84); Res.ok { n with slots := a }) from rfl] at this
    refine Eq.trans (by simp) (this.trans ?_)
    cases mapErr (atoiTrim (itoa m.slots)) (.other 84) <;> rfl
  rw [g4] at e4
  obtain ⟨sl, e6, e7⟩ := Res.bind_eq_ok.mp e4
  obtain ⟨rfl, rfl⟩ := Prod.mk.inj (Res.ok.inj e7)
  simp only at e5
  obtain ⟨f1, f2, f3⟩ := extra_steps hox e5
  have hxe : n3'.extra = [] := by rw [r4]; exact h0'
  obtain ⟨f4, f5⟩ := f3 (by rw [hx.length_eq, ← ho.length_eq]; simp [hxe])
  subst f4
  simp only [hxe, List.nil_append] at hx hmo h1 h2 h3 h4
  rw [← h1, ← h2, ← h3, ← h4]
  have hst := stored_same (hx.trans ho.symm)
  refine ⟨f1, c1, ?_, c2, ?_, ?_⟩
  · rw [← hmo, r4]
    simp only
    split
    · rename_i h; exact h.1
    · decide
  · intro k hk
    simp only [List.mem_cons, List.not_mem_nil, or_false] at hk
    rcases hk with rfl | rfl | rfl | rfl
    · exact r1
    · exact r2
    · exact r3
    · exact atoi_range e6
  · intro e he
    have he' := ho.mem_iff.mpr he
    refine ⟨hox e he', fun c hc => ⟨(hst e he').2 c hc, ?_⟩⟩
    have := f5 e he' c hc
    rwa [NmdcMyInfo.upperKey_low ((hst e he').2 c hc)] at this

/-- The six parts of the information. -/
theorem info_parts {d tag c e u f1 f3 f4 f5 f6 : Bytes} {fl mode : Byte} (hd : c!"$" ∉ d) (hc : c!"$" ∉ c) (he : c!"$" ∉ e) (hu : c!"$" ∉ u)
    (h : AdcWire.Parts c!"$" (d ++ b!"<" ++ tag ++ b!">$ $" ++ c ++ [fl] ++ b!"$" ++ e ++ b!"$" ++ u ++ b!"$") [f1, [mode], f3, f4, f5, f6]) :
    c!"$" ∉ tag ∧ fl ≠ c!"$" ∧ f1 = d ++ c!"<" :: (tag ++ b!">") ∧ f3 = c ++ [fl] ∧ f4 = e ∧ f5 = u := by
  rw [parts_split] at h
  have hl := congrArg List.length h
  rw [count_add_one_split] at hl
  simp only [List.count_append, List.count_eq_zero.mpr hd, List.count_eq_zero.mpr hc, List.count_eq_zero.mpr he, List.count_eq_zero.mpr hu,
    show List.count c!"$" b!"<" = 0 by decide, show List.count c!"$" b!">$ $" = 2 by decide, show List.count c!"$" b!"$" = 1 by decide,
    List.length_cons, List.length_nil] at hl
  have ht : c!"$" ∉ tag := List.count_eq_zero.mp (by omega)
  have hf' : c!"$" ∉ [fl] := List.count_eq_zero.mp (by omega)
  have hf : fl ≠ c!"$" := fun h => hf' (by simp [h])
  refine ⟨ht, hf, ?_⟩
  have hj : d ++ b!"<" ++ tag ++ b!">$ $" ++ c ++ [fl] ++ b!"$" ++ e ++ b!"$" ++ u ++ b!"$" =
      join [d ++ c!"<" :: (tag ++ b!">"), b!" ", c ++ [fl], e, u, []] c!"$" := by simp [join]
  rw [hj, split_back.mpr ⟨by simp, by
    intro x hx
    simp only [List.mem_cons, List.not_mem_nil, or_false] at hx
    rcases hx with rfl | rfl | rfl | rfl | rfl | rfl
    · simp [hd, ht]
    · decide
    · simp [hc, Ne.symm hf]
    · exact he
    · exact hu
    · simp⟩] at h
  simp only [List.cons.injEq, and_true] at h
  obtain ⟨h1, -, h3, h4, h5, -⟩ := h
  exact ⟨h1.symm, h3.symm, h4.symm, h5.symm⟩

/-- The client's name does not change after the first field. -/
theorem fields_name {s s' : Bytes × MyINFO} {b : Bool} {fs : List Bytes} (h : ReadsTagFields b s fs s') (hb : b = false) : s'.1 = s.1 := by
  induction h with
  | nil => rfl
  | cons h1 _ ih =>
    rw [ih rfl]
    cases h1 <;> first | rfl | cases hb

theorem first_name {s s' : Bytes × MyINFO} {r : Bytes} {fs : List Bytes} (hp : AdcWire.Parts c!"," (b!"V:" ++ r) fs) (h : ReadsTagFields true s fs s') :
    s'.1 = s.1 := by
  cases h with
  | nil => exact absurd rfl hp.1
  | @cons _ _ s1 _ f fs h1 h2 =>
    rw [fields_name h2 rfl]
    have hf : c!":" ∈ f := by
      have h3 := hp.2.2
      rw [← Verif.Adc.join_eq, NmdcMyInfo.join_cons] at h3
      match f with
      | [] => cases fs <;> simp at h3
      | [x] => cases fs <;> simp at h3
      | x :: y :: t => simp at h3; simp [h3.2.1]
    cases h1 with
    | empty => rfl
    | client _ h => exact absurd hf h
    | _ => rfl

/-- Where the client's name ends. -/
theorem client_cut {m m0 m1 : MyINFO} {o : StrMap} {c r c' : Bytes} {fs : List Bytes} (hcut : TagCut (m.tag o) c r) (hp : AdcWire.Parts c!"," r fs)
    (h : ReadsTagFields true (c, m0) fs (c', m1)) (hn : c' = m.client.name) :
    c = m.client.name ∧ r = join (NmdcMyInfo.tagFieldsOf m o) c!"," ∧ Absent b!" V:" m.client.name := by
  have ht : ∃ y, m.tag o = m.client.name ++ b!" V:" ++ y ∧ join (NmdcMyInfo.tagFieldsOf m o) c!"," = b!"V:" ++ y := by
    refine ⟨(join (NmdcMyInfo.tagFieldsOf m o) c!",").drop 2, ?_, ?_⟩
    · rw [NmdcMyInfo.tag_eq]; simp [NmdcMyInfo.tagFieldsOf, join]
    · simp [NmdcMyInfo.tagFieldsOf, join]
  obtain ⟨y, hy, hj⟩ := ht
  cases hcut with
  | @upper _ z hf =>
    have hc : c' = c := first_name hp h
    rcases first_before hf hy with ⟨rfl, rfl⟩ | ⟨x, hx⟩
    · refine ⟨rfl, hj.symm, fun a b hab => ?_⟩
      have := hf.2 a (b ++ b!" V:" ++ z) (by rw [hy, hab]; simp)
      rw [hab] at this
      simp only [List.length_append, List.length_cons, List.length_nil] at this
      omega
    · rw [← hn, hc] at hx
      have := congrArg List.length hx
      simp at this
  | lower ha _ => exact absurd hy (ha _ _)
  | none ha _ => exact absurd hy (ha _ _)

/-- Where the description ends. -/
theorem desc_cut [HtmlEntities] {w s tag desc t : Bytes} (hw : Str.marshal none s = .ok w) (hl : Last b!"<" (w ++ c!"<" :: (tag ++ b!">")) desc t)
    (hr : ReadsText none desc s) : desc = w ∧ t = tag ++ b!">" ∧ c!"<" ∉ tag := by
  obtain ⟨-, rfl⟩ := str_wire.mp hw
  obtain ⟨h1, h2⟩ := hl
  have e : escText s ++ c!"<" :: (tag ++ b!">") = desc ++ c!"<" :: t := by simpa using h1
  have hlen := h2 (escText s) (tag ++ b!">") (by simp)
  have hd : desc = escText s ∧ t = tag ++ b!">" := by
    rcases List.append_eq_append_iff.mp e with ⟨q, h3, h4⟩ | ⟨q, h3, h4⟩
    · cases q with
      | nil => exact ⟨by simpa using h3, by simpa using h4.symm⟩
      | cons x q =>
        simp only [List.cons_append, List.cons.injEq] at h4
        obtain ⟨rfl, -⟩ := h4
        rw [h3] at hr
        exact absurd hr.2 text_more
    · cases q with
      | nil => exact ⟨by simpa using h3.symm, by simpa using h4⟩
      | cons x q => rw [h3] at hlen; simp at hlen; omega
  refine ⟨hd.1, hd.2, fun hm => ?_⟩
  obtain ⟨x, y, rfl⟩ := List.append_of_mem hm
  have := h2 (escText s ++ c!"<" :: x) (y ++ b!">") (by simp)
  rw [hd.1] at this
  simp at this
  omega

theorem tag_free {m : MyINFO} {o : StrMap} {b : Byte} (h : b ∉ m.tag o) (hb : b ≠ c!" ") (hb0 : b ≠ 0) :
    b ∉ m.client.name ∧ b ∉ m.client.version ∧ b ≠ m.mode ∧ ∀ e ∈ o, b ∉ e.1 ∧ b ∉ e.2 := by
  unfold MyINFO.tag at h
  simp only [List.mem_append, List.mem_flatMap, not_or, not_exists, not_and] at h
  refine ⟨h.1.1.1.1.1.1.1.1.1.1.1.1.1, h.1.1.1.1.1.1.1.1.1.1.1.2, ?_, fun e he => ⟨(h.2 e he).1.1.2, (h.2 e he).2⟩⟩
  rintro rfl
  exact h.1.1.1.1.1.1.1.1.1.2 (by simp [hb, hb0])

/-- Information about a user that comes back, apart from the order in which the extra fields are kept. -/
theorem myINFO_back [HtmlEntities] {ord : StrMap → StrMap} {m : MyINFO} (hord : (ord m.extra).Perm m.extra) (hkeys : (m.extra.map (·.1)).Nodup) :
    (∃ (w : Bytes) (e : StrMap), (Msg.myINFO m).marshal none ord = .ok w ∧ e.Perm m.extra ∧
      (Msg.myINFO m).fresh.unmarshal none w = .ok (.myINFO { m with extra := e })) ↔ NmdcBack.Info m := by
  constructor
  · rintro ⟨w, x, hw, hx, h⟩
    rw [NmdcReads.message_reads] at h
    simp only [Msg.fresh, Reads] at h
    obtain ⟨_, ⟨⟩, name, rest, f1, mode, f3, f4, f5, f6, desc, m1, tagged, s2, conn, flag, ⟨r, g1, g2⟩, g3, g4, g5, g6, g7, g8, g9, g10⟩ := h
    simp only at g4 g5 g6 g8
    simp only [Msg.marshal, MyINFO.marshal, Res.bind_eq_ok, Res.pure_eq, Res.ok.injEq] at hw
    obtain ⟨n, hn, d, hd, c, hc, e, he, rfl⟩ := hw
    generalize hfl : (if m.flag = 0 then 1 else m.flag) = fl at *
    have g1 : n ++ b!" " ++ (d ++ b!"<" ++ m.tag (ord m.extra) ++ b!">$ $" ++ c ++ [fl] ++ b!"$" ++ e ++ b!"$" ++ utoa m.shareSize ++ b!"$") = r :=
      List.append_cancel_left (as := b!"$ALL ") (by rw [← g1]; simp)
    obtain ⟨rfl, rfl⟩ := name_first (by decide) hn g2 g1.symm g4
    have nd : ∀ {s w}, Str.marshal none s = .ok w → c!"$" ∉ w := fun h => by rw [(str_wire.mp h).2]; exact escText_dollar _
    obtain ⟨p1, p2, rfl, rfl, rfl, rfl⟩ := info_parts (nd hd) (nd hc) (nd he)
      (fun h => absurd (utoa_digit h) (by decide)) g3
    have hne : utoa m.shareSize ≠ [] := by
      exact (utoa_numeral _).1
    cases g5 with
    | plain h => simp at h
    | @tag _ _ _ t tag hl ht hwo hrt =>
      obtain ⟨rfl, rfl, hlt⟩ := desc_cut hd hl g6
      have : tag = m.tag (ord m.extra) := by
        generalize hq : m.tag (ord m.extra) ++ b!">" = q at hwo
        cases hwo with
        | there => exact (List.append_inj' hq rfl).1.symm
        | absent h => exact absurd hq.symm (h _)
      subst this
      obtain ⟨c1, r1, fs, c', m2, k1, k2, k3, rfl⟩ := hrt
      simp only [MyINFO.mk.injEq, if_true] at g10
      obtain ⟨-, -, q1, q2, q3, q4, q5, q6, q7, q8, q9, -, q10⟩ := g10
      obtain ⟨rfl, rfl, hab⟩ := client_cut k1 k2 k3 (by rw [q1])
      rw [← NmdcReads.tagFields_iff] at k3
      have k2 := parts_split.mp k2
      subst k2
      obtain ⟨-, t1, t2, t3, t4, t5⟩ := tag_back ⟨by simp, by simp, by simp⟩ rfl hord k3 (q7 ▸ hx) (by rw [q1]) q2.symm q3.symm q4.symm q5.symm q6.symm
      obtain ⟨u1, u2, u3, u4⟩ := tag_free hlt (by decide) (by decide)
      obtain ⟨v1, v2, v3, v4⟩ := tag_free p1 (by decide) (by decide)
      have three : ∀ {s : Bytes}, c!"," ∉ s → c!"<" ∉ s → c!"$" ∉ s → NmdcBack.Tagged s := by
        intro s h1 h2 h3 b hb hm
        simp only [List.mem_cons, List.not_mem_nil, or_false] at hm
        rcases hm with rfl | rfl | rfl
        · exact h1 hb
        · exact h2 hb
        · exact h3 hb
      rcases g7 with ⟨h, -⟩ | ⟨t, ht', htr⟩
      · simp at h
      obtain ⟨rfl, h⟩ := List.append_inj' ht' rfl
      simp only [List.cons.injEq, and_true] at h
      subst h
      have hf0 : m.flag ≠ 0 := by
        intro h
        rw [if_pos h] at hfl
        rw [h, ← hfl] at q9
        exact absurd q9 (by decide)
      rw [if_neg hf0] at hfl
      subst q8
      refine ⟨(nam_back hn).mp g4, ?_, ?_, ?_, hab, three t1 u2 v2, t2, three (by simpa using Ne.symm t3) (by simpa using u3) (by simpa using v3),
        hf0, hfl ▸ p2, t4, fun e he => ⟨⟨(t5 e he).1.1, three (t5 e he).1.2.2.1 ?_ ?_, (t5 e he).1.2.1, (t5 e he).2⟩,
          three (t5 e he).1.2.2.2 ?_ ?_⟩, ?_⟩
      · have := (first_single.mp g2).2
        obtain ⟨-, -, rfl⟩ := name_wire.mp hn
        rwa [mem_escName (by decide) (by decide)] at this
      · intro s hs
        simp only [List.mem_cons, List.not_mem_nil, or_false] at hs
        rcases hs with rfl | rfl | rfl
        · exact (str_back hd).mp g6
        · exact (str_back hc).mp htr
        · exact (str_back he).mp g8
      · intro b hb hm
        simp only [List.mem_cons, List.not_mem_nil, or_false] at hm
        rcases hm with rfl | rfl
        · exact u1 hb
        · exact v1 hb
      · exact (u4 e (hord.mem_iff.mpr he)).1
      · exact (v4 e (hord.mem_iff.mpr he)).1
      · exact (u4 e (hord.mem_iff.mpr he)).2
      · exact (v4 e (hord.mem_iff.mpr he)).2
      · rcases g9 with ⟨h, -⟩ | ⟨-, h | ⟨h, -⟩⟩
        · exact absurd h hne
        · exact (readsNat_utoa.mp h).2
        · rw [q10, h]; decide
  · rintro ⟨h1, h2, h3, h4, h5, h6, h7, h8, h9, h10, h11, h12, h13⟩
    simp only [List.mem_cons, List.not_mem_nil, or_false, forall_eq_or_imp, forall_eq] at h3
    obtain ⟨w, hw⟩ : ∃ w, m.marshal none (ord m.extra) = .ok w :=
      ⟨_, by simp only [MyINFO.marshal, name_written h1, text_written h3.1, text_written h3.2.1, text_written h3.2.2, Res.ok_bind]; rfl⟩
    have tt : ∀ {s}, NmdcBack.Tagged s → NmdcMyInfo.TagText s := fun h =>
      ⟨fun hb => h _ hb (by decide), fun hb => h _ hb (by decide), fun hb => h _ hb (by decide)⟩
    have := NmdcMyInfo.myInfo_roundtrip lossless_nil (m := m) (m0 := {}) hord
      ⟨nameOk_back h1, fun n hn => by
        obtain ⟨-, -, rfl⟩ := name_wire.mp hn
        rwa [mem_escName (by decide) (by decide)]⟩
      (textOk_back h3.1) (textOk_back h3.2.1) (textOk_back h3.2.2)
      ⟨fun hb => h4 _ hb (by decide), fun hb => h4 _ hb (by decide), fun ⟨a, b, h⟩ => h5 a b h.symm⟩ (tt h6) (tt h8) h10 h11 hkeys
      (fun e he => ⟨⟨(h12 e he).1.1, (h12 e he).1.2.2.1, tt (h12 e he).1.2.1, (h12 e he).1.2.2.2⟩, tt (h12 e he).2⟩) h13 hw
    refine ⟨w, ord m.extra, hw, hord, ?_⟩
    simp only [Msg.fresh, Msg.unmarshal, this, Res.ok_bind, Res.pure_eq, NmdcMyInfo.normal, if_neg h7, if_neg h9]

end Verif.Props.NmdcExact
