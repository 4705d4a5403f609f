import Verif.Registry.Registry
import Verif.Props.AdcMessages

/-!
# C89: the registries of message types
-/

namespace Verif.Props.Registry

open Verif Verif.Go Verif.Registry

variable {K T : Type} [DecidableEq K]

/-! ## Auxiliary -/

theorem get_cons (k k' : K) (t : T) (r : Reg K T) :
    Reg.get ((k, t) :: r) k' = if k = k' then some t else r.get k' := by
  unfold Reg.get
  rw [List.find?_cons]
  by_cases h : k = k'
  · simp [h]
  · simp [h]

theorem get_some_iff (r : Reg K T) (k : K) : (r.get k).isSome = true ↔ k ∈ r.map (·.1) := by
  induction r with
  | nil => simp [Reg.get]
  | cons e r ih =>
    rw [show e = (e.1, e.2) from rfl, get_cons]
    by_cases h : e.1 = k
    · simp [h]
    · rw [if_neg h, ih]
      simp [Ne.symm h]

/-- Calls on a registry succeed when the names are new and different, and then are all there. -/
theorem registerAll_ok (calls : List (K × T)) : ∀ (r : Reg K T), (calls.map (·.1)).Nodup →
    (∀ c ∈ calls, c.1 ∉ r.map (·.1)) → r.registerAll calls = .ok (calls.reverse ++ r) := by
  induction calls with
  | nil => intro r _ _; rfl
  | cons c calls ih =>
    intro r hn hr
    rcases c with ⟨k, t⟩
    simp only [List.map_cons, List.nodup_cons] at hn
    have hk : ¬ (r.get k).isSome = true := by
      rw [get_some_iff]; exact hr (k, t) (by simp)
    unfold Reg.registerAll Reg.register
    rw [if_neg hk]
    simp only
    rw [ih _ hn.2]
    · simp
    · intro c hc
      simp only [List.map_cons, List.mem_cons, not_or]
      refine ⟨?_, hr c (by simp [hc])⟩
      rintro rfl
      exact hn.1 (List.mem_map.mpr ⟨c, hc, rfl⟩)

theorem registerAll_bad (calls : List (K × T)) : ∀ (r : Reg K T),
    ¬ ((calls.map (·.1)).Nodup ∧ ∀ c ∈ calls, c.1 ∉ r.map (·.1)) → r.registerAll calls = .panic := by
  induction calls with
  | nil => intro r h; exact absurd ⟨by simp, by simp⟩ h
  | cons c calls ih =>
    intro r h
    rcases c with ⟨k, t⟩
    unfold Reg.registerAll Reg.register
    by_cases hk : (r.get k).isSome = true
    · rw [if_pos hk]
    · rw [if_neg hk]
      simp only
      apply ih
      rintro ⟨hn, hr⟩
      apply h
      rw [get_some_iff] at hk
      refine ⟨?_, ?_⟩
      · simp only [List.map_cons, List.nodup_cons]
        refine ⟨?_, hn⟩
        intro hm
        rcases List.mem_map.mp hm with ⟨c, hc, he⟩
        exact hr c hc (by simp [he])
      · intro c hc
        rcases List.mem_cons.mp hc with rfl | hc
        · exact hk
        · have := hr c hc
          simp only [List.map_cons, List.mem_cons, not_or] at this
          exact this.2

theorem get_of_nodup (r : Reg K T) (h : (r.map (·.1)).Nodup) (k : K) (t : T) :
    r.get k = some t ↔ (k, t) ∈ r := by
  induction r with
  | nil => simp [Reg.get]
  | cons e r ih =>
    rcases e with ⟨k', t'⟩
    rw [get_cons]
    simp only [List.map_cons, List.nodup_cons] at h
    by_cases hk : k' = k
    · rw [if_pos hk]
      subst hk
      constructor
      · intro h; cases h; simp
      · intro hm
        rcases List.mem_cons.mp hm with hm | hm
        · cases hm; rfl
        · exact absurd (List.mem_map.mpr ⟨_, hm, rfl⟩) h.1
    · rw [if_neg hk, ih h.2]
      constructor
      · intro hm; simp [hm]
      · intro hm
        rcases List.mem_cons.mp hm with hm | hm
        · cases hm; exact absurd rfl hk
        · exact hm

/-! ## The theorems -/

/-- A sequence of `RegisterMessage` calls panics exactly when a name comes twice. -/
theorem register_panics_iff (calls : List (K × T)) :
    Reg.registerAll calls ([] : Reg K T) = .panic ↔ ¬ (calls.map (·.1)).Nodup := by
  constructor
  · intro h hn
    rw [registerAll_ok calls [] hn (by simp)] at h
    cases h
  · intro h
    exact registerAll_bad calls [] (fun hh => h hh.1)

/-- Otherwise every name has the type it was registered with, and no other name has one. -/
theorem registered_iff (calls : List (K × T)) (r : Reg K T)
    (h : Reg.registerAll calls ([] : Reg K T) = .ok r) (k : K) (t : T) :
    r.get k = some t ↔ (k, t) ∈ calls := by
  by_cases hn : (calls.map (·.1)).Nodup
  · rw [registerAll_ok calls [] hn (by simp)] at h
    cases h
    rw [List.append_nil, get_of_nodup]
    · simp
    · rw [List.map_reverse]
      exact (List.reverse_perm _).nodup_iff.mpr hn
  · rw [registerAll_bad calls [] (fun hh => hn hh.1)] at h
    cases h

/-- The order of the calls does not matter. -/
theorem register_order (calls calls' : List (K × T)) (hp : calls.Perm calls') (r : Reg K T)
    (h : Reg.registerAll calls ([] : Reg K T) = .ok r) :
    ∃ r', Reg.registerAll calls' ([] : Reg K T) = .ok r' ∧ ∀ k, r'.get k = r.get k := by
  have hn : (calls.map (·.1)).Nodup := by
    apply Decidable.byContradiction
    intro hn
    rw [registerAll_bad calls [] (fun hh => hn hh.1)] at h
    cases h
  have hn' : (calls'.map (·.1)).Nodup := (hp.map _).nodup_iff.mp hn
  have h' := registerAll_ok calls' [] hn' (by simp)
  refine ⟨_, h', fun k => ?_⟩
  apply Option.ext
  intro t
  rw [registered_iff _ _ h', registered_iff _ _ h]
  exact hp.mem_iff.symm

/-- Further calls leave what is registered as it is. -/
theorem register_keeps (more : List (K × T)) (r r' : Reg K T) (h' : r.registerAll more = .ok r') (k : K) (t : T)
    (hk : r.get k = some t) : r'.get k = some t := by
  have key : ∀ (more : List (K × T)) (r r' : Reg K T), r.registerAll more = .ok r' →
      r.get k = some t → r'.get k = some t := by
    intro more
    induction more with
    | nil => intro r r' h hk; cases h; exact hk
    | cons c more ih =>
      intro r r' h hk
      rcases c with ⟨k', t'⟩
      unfold Reg.registerAll Reg.register at h
      by_cases hs : (r.get k').isSome = true
      · rw [if_pos hs] at h; cases h
      · rw [if_neg hs] at h
        refine ih _ _ h ?_
        rw [get_cons, if_neg, hk]
        rintro rfl
        rw [hk] at hs
        exact hs rfl
  exact key more r r' h' hk

/-! ## `RegisteredTypes` -/

theorem sort_pairwise (l : List Bytes) : (sortStrings l).Pairwise (fun a b => a ≤ b) := by
  have := List.pairwise_mergeSort (le := fun a b : Bytes => decide (a ≤ b))
    (fun a b c h1 h2 => by
      simp only [decide_eq_true_eq] at *
      exact List.le_trans h1 h2)
    (fun a b => by
      simp only [Bool.or_eq_true, decide_eq_true_eq]
      exact List.le_total a b) l
  exact this.imp (by simp)

/-- `RegisteredTypes` lists the registered names, each once, in ascending order, whatever the order in
which the map is iterated. -/
theorem types_sorted (calls : List (Bytes × T)) (r : Reg Bytes T)
    (h : Reg.registerAll calls ([] : Reg Bytes T) = .ok r) (ord : List Bytes → List Bytes) (hord : ∀ l, (ord l).Perm l) :
    (registeredTypes ord r).Pairwise (fun a b => a < b) ∧
    (∀ k, k ∈ registeredTypes ord r ↔ ∃ t, (k, t) ∈ calls) ∧
    (∀ k, isRegistered k r = true ↔ k ∈ registeredTypes ord r) := by
  have hperm : (registeredTypes ord r).Perm (r.map (·.1)) :=
    (List.mergeSort_perm _ _).trans (hord _)
  have hn : (calls.map (·.1)).Nodup := by
    apply Decidable.byContradiction
    intro hn
    rw [registerAll_bad calls [] (fun hh => hn hh.1)] at h
    cases h
  have hr : r = calls.reverse := by
    rw [registerAll_ok calls [] hn (by simp)] at h
    cases h; simp
  have hnr : (r.map (·.1)).Nodup := by
    rw [hr, List.map_reverse]; exact (List.reverse_perm _).nodup_iff.mpr hn
  refine ⟨?_, ?_, ?_⟩
  · have hs : (registeredTypes ord r).Pairwise (fun a b => a ≤ b) := sort_pairwise _
    have hd : (registeredTypes ord r).Pairwise (fun a b => a ≠ b) := hperm.nodup_iff.mpr hnr
    exact (hs.and hd).imp fun ⟨h1, h2⟩ => Std.lt_of_le_of_ne h1 h2
  · intro k
    rw [hperm.mem_iff, hr]
    simp
  · intro k
    rw [hperm.mem_iff]
    unfold isRegistered
    exact get_some_iff r k

/-! ## The packages themselves -/

/-- The names registered by package nmdc differ, so that loading the package does not panic, in whatever order
the files are initialised; and the result is the table `lookup` that the reader uses. -/
theorem nmdc_init {U : Type} (files : List (List Nmdc.Msg)) (hp : files.Perm nmdcInit) :
    ∃ r : Reg Bytes (Nmdc.Msg ⊕ U), Reg.registerAll (files.flatten.map nmdcCall) [] = .ok r ∧
      ∀ typ, r.get typ = (Nmdc.lookup typ).map .inl := by
  have hn : ((nmdcInit.flatten.map (nmdcCall (U := U))).map (·.1)).Nodup := by
    rw [List.map_map]
    show (nmdcInit.flatten.map Nmdc.Msg.typ).Nodup
    decide +kernel
  have h0 := registerAll_ok (nmdcInit.flatten.map (nmdcCall (U := U))) [] hn (by simp)
  obtain ⟨r, hr, hg⟩ := register_order _ _ ((hp.flatten.map (nmdcCall (U := U))).symm) _ h0
  refine ⟨r, hr, fun typ => ?_⟩
  rw [hg]
  apply Option.ext
  intro t
  rw [registered_iff _ _ h0]
  have hl : ∀ m, Nmdc.lookup typ = some m ↔ m ∈ Nmdc.registered ∧ m.typ = typ := by
    intro m
    unfold Nmdc.lookup
    constructor
    · intro h
      exact ⟨List.mem_of_find?_eq_some h, by simpa using List.find?_some h⟩
    · rintro ⟨hm, rfl⟩
      have : ∀ m ∈ Nmdc.registered, Nmdc.registered.find? (fun x => decide (x.typ = m.typ)) = some m := by
        decide +kernel
      exact this m hm
  have hm : ∀ m, m ∈ nmdcInit.flatten ↔ m ∈ Nmdc.registered := by
    have h1 : ∀ m ∈ nmdcInit.flatten, m ∈ Nmdc.registered := by decide +kernel
    have h2 : ∀ m ∈ Nmdc.registered, m ∈ nmdcInit.flatten := by decide +kernel
    exact fun m => ⟨h1 m, h2 m⟩
  have hf : ∀ m ∈ Nmdc.registered, m.fresh = m := by decide +kernel
  constructor
  · intro h
    rcases List.mem_map.mp h with ⟨m, hm', he⟩
    unfold nmdcCall at he
    simp only [Prod.mk.injEq] at he
    rcases he with ⟨ht, rfl⟩
    have hr := (hm m).mp hm'
    rw [hf m hr, (hl m).mpr ⟨hr, ht⟩]
    rfl
  · intro h
    cases hlk : Nmdc.lookup typ with
    | none => simp [hlk] at h
    | some m =>
      rw [hlk] at h
      cases h
      have := (hl m).mp hlk
      refine List.mem_map.mpr ⟨m, (hm m).mpr this.1, ?_⟩
      simp [nmdcCall, this.2, hf m this.1]

/-- The same for package adc. -/
theorem adc_init {U : Type} (files : List (List Adc.Msg)) (hp : files.Perm adcInit) :
    ∃ r : Reg Adc.MsgType (Adc.Msg ⊕ U), Reg.registerAll (files.flatten.map adcCall) [] = .ok r ∧
      ∀ name, r.get name = (Adc.lookupType name).map .inl := by
  have hn : ((adcInit.flatten.map (adcCall (U := U))).map (·.1)).Nodup := by
    rw [List.map_map]
    show (adcInit.flatten.map Adc.Msg.cmd).Nodup
    decide +kernel
  have h0 := registerAll_ok (adcInit.flatten.map (adcCall (U := U))) [] hn (by simp)
  obtain ⟨r, hr, hg⟩ := register_order _ _ ((hp.flatten.map (adcCall (U := U))).symm) _ h0
  refine ⟨r, hr, fun name => ?_⟩
  rw [hg]
  apply Option.ext
  intro t
  rw [registered_iff _ _ h0]
  have hl : ∀ m, Adc.lookupType name = some m ↔ m ∈ Adc.registered ∧ m.cmd = name := by
    intro m
    constructor
    · intro h
      unfold Adc.lookupType at h
      exact ⟨List.mem_of_find?_eq_some h, by simpa using List.find?_some h⟩
    · rintro ⟨hm, rfl⟩
      exact @AdcMessages.lookup_own ⟨fun _ => .bad⟩ m hm
  have hm : ∀ m, m ∈ adcInit.flatten ↔ m ∈ Adc.registered := by
    intro m
    simp only [adcInit, Adc.registered, List.flatten_cons, List.flatten_nil, List.mem_append, List.mem_cons,
      List.not_mem_nil, or_false]
    constructor
    · rintro (h | (h | h) | (h | h | h) | (h | h | h | h | h) | (h | h | h | h) | (h | h) | h) <;> simp [h]
    · rintro (h | h | h | h | h | h | h | h | h | h | h | h | h | h | h | h | h | h) <;> simp [h]
  constructor
  · intro h
    rcases List.mem_map.mp h with ⟨m, hm', he⟩
    unfold adcCall at he
    simp only [Prod.mk.injEq] at he
    rcases he with ⟨ht, rfl⟩
    rw [(hl m).mpr ⟨(hm m).mp hm', ht⟩]
    rfl
  · intro h
    cases hlk : Adc.lookupType name with
    | none => simp [hlk] at h
    | some m =>
      rw [hlk] at h
      cases h
      have := (hl m).mp hlk
      exact List.mem_map.mpr ⟨m, (hm m).mpr this.1, by simp [adcCall, this.2]⟩

/-- Types of the user: after loading the package the calls of the user panic exactly when a name comes twice
or belongs to the package; otherwise the names of the package mean what they did, those of the user make values of
the user's types, and all other names make raw messages. -/
theorem user_types {U : Type} (r : Reg Bytes (Nmdc.Msg ⊕ U))
    (h : Reg.registerAll (nmdcInit.flatten.map nmdcCall) [] = .ok r) (calls : List (Bytes × U)) :
    (r.registerAll (calls.map fun c => (c.1, .inr c.2)) = .panic ↔
      ¬ ((calls.map (·.1)).Nodup ∧ ∀ c ∈ calls, Nmdc.isRegistered c.1 = false)) ∧
    ∀ r', r.registerAll (calls.map fun c => (c.1, .inr c.2)) = .ok r' → ∀ typ,
      (∀ u, (typ, u) ∈ calls → newMessage typ r' = .user u) ∧
      (typ ∉ calls.map (·.1) → newMessage typ r' =
        if Nmdc.isRegistered typ then .std (Nmdc.newMessage typ) else .raw typ) := by
  obtain ⟨r0, h0, hg⟩ := nmdc_init (U := U) nmdcInit (List.Perm.refl _)
  have : r0 = r := by rw [h0] at h; cases h; rfl
  subst this
  have hm : ∀ typ, typ ∈ r0.map (·.1) ↔ Nmdc.isRegistered typ = true := by
    intro typ
    rw [← get_some_iff, hg]
    unfold Nmdc.isRegistered
    cases Nmdc.lookup typ <;> simp
  have hcond : (((calls.map fun c => (c.1, (Sum.inr c.2 : Nmdc.Msg ⊕ U))).map (·.1)).Nodup ∧
      ∀ c ∈ calls.map (fun c => (c.1, (Sum.inr c.2 : Nmdc.Msg ⊕ U))), c.1 ∉ r0.map (·.1)) ↔
      ((calls.map (·.1)).Nodup ∧ ∀ c ∈ calls, Nmdc.isRegistered c.1 = false) := by
    refine and_congr (by rw [List.map_map]; rfl) ?_
    constructor
    · intro h c hc
      have := h (c.1, .inr c.2) (List.mem_map.mpr ⟨c, hc, rfl⟩)
      rw [hm] at this
      simpa using this
    · intro h c hc
      rcases List.mem_map.mp hc with ⟨c', hc', rfl⟩
      rw [hm, h c' hc']
      simp
  refine ⟨?_, ?_⟩
  · rw [← hcond]
    constructor
    · intro hp hc
      rw [registerAll_ok _ _ hc.1 hc.2] at hp
      cases hp
    · exact registerAll_bad _ _
  · intro r' hr' typ
    have hc : ((calls.map (·.1)).Nodup ∧ ∀ c ∈ calls, Nmdc.isRegistered c.1 = false) := by
      apply Classical.byContradiction
      intro hc
      rw [registerAll_bad _ _ (fun hh => hc (hcond.mp hh))] at hr'
      cases hr'
    have hc' := hcond.mpr hc
    rw [registerAll_ok _ _ hc'.1 hc'.2] at hr'
    cases hr'
    have hget : ∀ l : Reg Bytes (Nmdc.Msg ⊕ U), Reg.get (l ++ r0) typ = (l.get typ).or (r0.get typ) := by
      intro l
      unfold Reg.get
      rw [List.find?_append]
      cases l.find? (fun e => decide (e.1 = typ)) <;> simp
    refine ⟨fun u hu => ?_, fun hu => ?_⟩
    · unfold newMessage
      rw [hget]
      have : Reg.get (calls.map fun c => (c.1, (Sum.inr c.2 : Nmdc.Msg ⊕ U))).reverse typ = some (.inr u) := by
        rw [get_of_nodup]
        · simp only [List.mem_reverse]
          exact List.mem_map.mpr ⟨(typ, u), hu, rfl⟩
        · rw [List.map_reverse]
          exact (List.reverse_perm _).nodup_iff.mpr hc'.1
      rw [this]
      rfl
    · unfold newMessage
      rw [hget]
      have : Reg.get (calls.map fun c => (c.1, (Sum.inr c.2 : Nmdc.Msg ⊕ U))).reverse typ = none := by
        cases hgt : Reg.get (calls.map fun c => (c.1, (Sum.inr c.2 : Nmdc.Msg ⊕ U))).reverse typ with
        | none => rfl
        | some v =>
          exfalso
          apply hu
          have := (get_some_iff (calls.map fun c => (c.1, (Sum.inr c.2 : Nmdc.Msg ⊕ U))).reverse typ).mp (by rw [hgt]; rfl)
          simpa using this
      rw [this, Option.none_or, hg]
      unfold Nmdc.isRegistered Nmdc.newMessage
      cases Nmdc.lookup typ <;> simp

/-- A case that meets the hypotheses of `user_types`: a new name is fine, `Search` is taken, a name cannot be
registered twice. -/
example : ∃ r : Reg Bytes (Nmdc.Msg ⊕ Nat), Reg.registerAll (nmdcInit.flatten.map nmdcCall) [] = .ok r ∧
    (∃ r', r.registerAll [(b!"Poll", .inr 7)] = .ok r' ∧ newMessage b!"Poll" r' = .user 7 ∧
      newMessage b!"Sear" r' = .raw b!"Sear") ∧
    r.registerAll [(b!"Search", .inr 7)] = .panic ∧
    r.registerAll [(b!"Poll", .inr 7), (b!"Poll", .inr 8)] = .panic :=
  ⟨_, rfl, ⟨_, rfl, rfl, rfl⟩, rfl, rfl⟩

example : ∃ r : Reg Bytes Nat, Reg.registerAll [(b!"b", 1), (b!"", 2), (b!"B", 3)] [] = .ok r ∧
    registeredTypes List.reverse r = [b!"", b!"B", b!"b"] := 
  ⟨_, rfl, by simp [registeredTypes, sortStrings, List.mergeSort, List.merge, List.MergeSort.Internal.splitInTwo]; try decide⟩

/-- **Finding.** Registering `RawMessage` under a name that is not taken makes the lines of that name lose it: without the call they are read as raw
messages that keep the name and are written as they were; after it they are read as raw messages without a name, which are written without
their head, as a chat line would be. -/
theorem raw_registered {U : Type} [HtmlEntities] (r : Reg Bytes (Nmdc.Msg ⊕ U)) (h : Reg.registerAll (nmdcInit.flatten.map nmdcCall) [] = .ok r)
    (typ : Bytes) (hn : Nmdc.isRegistered typ = false) :
    ∃ r', r.registerAll [rawCall typ] = .ok r' ∧ newMessage typ r = .raw typ ∧ newMessage typ r' = .std (.raw [] []) ∧
      ∀ (data : Bytes) (c : Nmdc.Codec) (ord), data ≠ [] →
        (Nmdc.Msg.raw typ []).unmarshal c data = .ok (.raw typ data) ∧ Nmdc.marshalMsg c ord (.raw typ data) = .ok (b!"$" ++ typ ++ b!" " ++ data ++ b!"|") ∧
        (Nmdc.Msg.raw [] []).unmarshal c data = .ok (.raw [] data) ∧ Nmdc.marshalMsg c ord (.raw [] data) = .ok (data ++ b!"|") := by
  obtain ⟨r0, h0, hg⟩ := nmdc_init (U := U) nmdcInit (List.Perm.refl _)
  have : r0 = r := by rw [h0] at h; cases h; rfl
  subst this
  have hl : Nmdc.lookup typ = none := by
    unfold Nmdc.isRegistered at hn
    cases he : Nmdc.lookup typ with
    | none => rfl
    | some m => rw [he] at hn; simp at hn
  have hr : r0.get typ = none := by rw [hg, hl]; rfl
  have hne : typ ≠ [] := by
    rintro rfl
    revert hn
    decide +kernel
  refine ⟨rawCall typ :: r0, ?_, ?_, ?_, ?_⟩
  · simp [Reg.registerAll, Reg.register, rawCall, hr]
  · simp [newMessage, hr]
  · simp [newMessage, rawCall, Reg.get]
  · intro data c ord hd
    refine ⟨rfl, ?_, rfl, ?_⟩
    · show Nmdc.finishMsg ([] ++ Nmdc.msgHead typ) data = _
      simp [Nmdc.finishMsg, Nmdc.msgHead, hne, hd]
      rfl
    · show Nmdc.finishMsg ([] ++ Nmdc.msgHead []) data = _
      simp [Nmdc.finishMsg, Nmdc.msgHead, hd]
      rfl

example : Nmdc.isRegistered b!"Poll" = false := by decide +kernel

end Verif.Props.Registry
