import Verif.Spec.AdcOwn
import Verif.Props.AdcAnyMessage
import Verif.Props.Registry

/-!
# C110: reading messages of the caller's own types
-/

namespace Verif.Props.AdcOwn

open Verif.Go Verif.Spec Verif.Adc Verif.Spec.AdcOwn Verif.Registry

section
variable [ParseFloat] [ParseFloat32]

/-! ## One value -/

omit [ParseFloat] [ParseFloat32] in
theorem pair_ok {α : Type} (a b : α) : (a, Res.ok ()) = (b, Res.ok ()) ↔ b = a := by
  simp [eq_comm]

omit [ParseFloat] [ParseFloat32] in
theorem pair_err {α : Type} (a b : α) (r : Res Unit) (h : r ≠ .ok ()) : ¬ (a, r) = (b, Res.ok ()) := by
  simp [h]

theorem int_iff (z : IntSize) (s : Bytes) (old new : Int) : readInt z s old = (new, .ok ()) ↔ IntText z s old new := by
  have hb : z.parsed ≤ 64 ∧ 1 ≤ z.parsed := by cases z <;> decide
  have h1 : asked z = z.parsed := by cases z <;> rfl
  have h2 : size z = z.stored := by cases z <;> rfl
  have h3 : asFloat z s = z.float s := by cases z <;> rfl
  unfold readInt IntText IntSize.set
  rw [h1, h2, h3]
  clear h1 h2 h3
  cases h : parseInt s z.parsed with
  | ok v =>
    have hv := (parseInt_ok hb.1 hb.2).mp h
    have hex : ∃ n, SignedNumeral s n ∧ -(2 ^ (z.parsed - 1) : Int) ≤ n ∧ n < 2 ^ (z.parsed - 1) := ⟨v, hv⟩
    constructor
    · intro e
      simp only [Prod.mk.injEq, and_true] at e
      exact .inl ⟨v, hv.1, hv.2.1, hv.2.2, e.symm⟩
    · rintro (⟨n, h1, h2, h3, h4⟩ | ⟨h1, -⟩)
      · have := (parseInt_ok hb.1 hb.2).mpr ⟨h1, h2, h3⟩
        rw [h] at this
        cases this
        rw [h4]
      · exact absurd hex h1
  | panic => exact absurd h (parseInt_ne_panic _ _)
  | err e =>
    have hn : ¬ ∃ n, SignedNumeral s n ∧ -(2 ^ (z.parsed - 1) : Int) ≤ n ∧ n < 2 ^ (z.parsed - 1) := by
      rintro ⟨n, hn⟩
      have := (parseInt_ok hb.1 hb.2).mpr hn
      rw [h] at this
      cases this
    have hn' : ¬ ∃ n, SignedNumeral s n ∧ -(2 ^ (z.parsed - 1) : Int) ≤ n ∧ n < 2 ^ (z.parsed - 1) ∧ new = Int.bmod n (2 ^ z.stored) := by
      rintro ⟨n, h1, h2, h3, -⟩
      exact hn ⟨n, h1, h2, h3⟩
    cases hf : z.float s with
    | bad =>
      refine iff_of_false (pair_err _ _ _ (by simp)) ?_
      rintro (h | h)
      · exact hn' h
      · exact h.2
    | fraction =>
      refine Iff.trans (pair_ok _ _) ?_
      exact ⟨fun h => .inr ⟨hn, h⟩, fun h => h.elim (fun h => absurd h hn') (·.2)⟩
    | whole v =>
      refine Iff.trans (pair_ok _ _) ?_
      exact ⟨fun h => .inr ⟨hn, h⟩, fun h => h.elim (fun h => absurd h hn') (·.2)⟩

/-- A value is accepted and assigned as the specification says. -/
theorem value_iff (s : Bytes) : ∀ (t : GoType) (old new : t.T), readValue s t old = (new, .ok ()) ↔ Reads s t old new
  | .own _ _ read, old, new => Iff.rfl
  | .str, old, new => by
    unfold readValue Reads
    by_cases h : s = []
    · subst h
      exact pair_ok (α := Bytes) _ _
    · rw [if_neg (by simpa using h)]
      exact pair_ok (α := Bytes) _ _
  | .bool, old, new => by
    unfold readValue Reads
    match s with
    | [] =>
      refine Iff.trans (pair_ok (α := Bool) _ _) ?_
      simp
      exact Iff.rfl
    | [b] =>
      refine Iff.trans (pair_ok (α := Bool) _ _) ?_
      have : ([b] != [(0 : Byte)]) = (b != 0) := by simp [bne]
      rw [this]
      simp
      exact Iff.rfl
    | a :: b :: l => simp
  | .int z, old, new => by
    unfold readValue Reads
    by_cases h : s = []
    · subst h
      refine Iff.trans (pair_ok (α := Int) _ _) ?_
      simp
      exact Iff.rfl
    · have e : (if s.length = 0 then ((0 : Int), Res.ok ()) else readInt z s old) = readInt z s old := if_neg (by simpa using h)
      refine Iff.trans (iff_of_eq (congrArg (· = (new, Res.ok ())) e)) (Iff.trans (int_iff z s old new) ?_)
      simp [h]
  | .ptr t, old, new => by
    unfold readValue Reads
    by_cases h : s = []
    · subst h
      refine Iff.trans (pair_ok (α := Option t.T) _ _) ?_
      simp
      exact Iff.rfl
    · rw [if_neg (by simpa using h)]
      simp only [h, ne_eq, not_false_eq_true, true_and, false_and, false_or]
      have ih := value_iff s t t.zero
      cases hr : readValue s t t.zero with
      | mk v r =>
        have bad : r ≠ .ok () → ¬ ∃ w, new = some w ∧ Reads s t t.zero w := by
          rintro hne ⟨w, -, hw⟩
          have := (ih w).mpr hw
          rw [hr] at this
          simp only [Prod.mk.injEq] at this
          exact hne this.2
        cases r with
        | ok u =>
          refine Iff.trans (pair_ok (α := Option t.T) _ _) ?_
          constructor
          · intro e
            exact ⟨v, e, (ih v).mp hr⟩
          · rintro ⟨w, e, hw⟩
            have := (ih w).mpr hw
            rw [hr] at this
            simp only [Prod.mk.injEq, and_true] at this
            rw [this]
            exact e
        | err e => exact iff_of_false (pair_err (α := Option t.T) _ _ _ (by simp)) (bad (by simp))
        | panic => exact iff_of_false (pair_err (α := Option t.T) _ _ _ (by simp)) (bad (by simp))
  | .slice t, old, new => by
    unfold readValue Reads
    by_cases h : s = []
    · subst h
      refine Iff.trans (pair_ok (α := List t.T) _ _) ?_
      simp
      exact Iff.rfl
    · rw [if_neg (by simpa using h)]
      simp [h]
  | .other α z, old, new => by
    unfold readValue Reads
    by_cases h : s = []
    · subst h
      refine Iff.trans (pair_ok (α := α) _ _) ?_
      simp
      exact Iff.rfl
    · rw [if_neg (by simpa using h)]
      simp [h]

/-! ## One field -/

theorem elems_iff (t : GoType) : ∀ (vals : List Bytes) (new : List t.T), readElems t vals = .ok new ↔
    new.length = vals.length ∧ ∀ (i : Nat) (p : Bytes) (v : t.T), vals[i]? = some p → new[i]? = some v → Reads p t t.zero v := by
  intro vals
  induction vals with
  | nil =>
    intro new
    cases new <;> simp [readElems]
  | cons sv vals ih =>
    intro new
    unfold readElems
    have step : ∀ (w : t.T) (ws : List t.T), (∀ (i : Nat) (p : Bytes) (v : t.T), (sv :: vals)[i]? = some p → (w :: ws)[i]? = some v → Reads p t t.zero v) ↔
        Reads sv t t.zero w ∧ ∀ (i : Nat) (p : Bytes) (v : t.T), vals[i]? = some p → ws[i]? = some v → Reads p t t.zero v := by
      intro w ws
      constructor
      · intro h
        exact ⟨h 0 sv w rfl rfl, fun i p v h1 h2 => h (i + 1) p v (by simpa using h1) (by simpa using h2)⟩
      · rintro ⟨h1, h2⟩ i p v h3 h4
        cases i with
        | zero =>
          simp only [List.getElem?_cons_zero, Option.some.injEq] at h3 h4
          subst h3 h4
          exact h1
        | succ i => exact h2 i p v (by simpa using h3) (by simpa using h4)
    cases hr : readValue sv t t.zero with
    | mk x r =>
      have bad : r ≠ .ok () → ¬ (new.length = (sv :: vals).length ∧
          ∀ (i : Nat) (p : Bytes) (v : t.T), (sv :: vals)[i]? = some p → new[i]? = some v → Reads p t t.zero v) := by
        rintro hne ⟨hl, hn⟩
        cases new with
        | nil => simp at hl
        | cons w ws =>
          have := (value_iff sv t t.zero w).mpr ((step w ws).mp hn).1
          rw [hr] at this
          simp only [Prod.mk.injEq] at this
          exact hne this.2
      cases r with
      | ok u =>
        have hx := (value_iff sv t t.zero x).mp hr
        dsimp only
        cases he : readElems t vals with
        | ok vs =>
          have h0 := (ih vs).mp he
          constructor
          · intro e
            cases e
            exact ⟨by simp [h0.1], (step x vs).mpr ⟨hx, h0.2⟩⟩
          · rintro ⟨hl, hn⟩
            cases new with
            | nil => simp at hl
            | cons w ws =>
              have h1 := (step w ws).mp hn
              have h2 := (value_iff sv t t.zero w).mpr h1.1
              rw [hr] at h2
              simp only [Prod.mk.injEq, and_true] at h2
              have h3 := (ih ws).mpr ⟨by simpa using hl, h1.2⟩
              rw [he] at h3
              cases h3
              rw [h2]
        | err e =>
          refine iff_of_false (by simp) ?_
          rintro ⟨hl, hn⟩
          cases new with
          | nil => simp at hl
          | cons w ws =>
            have h3 := (ih ws).mpr ⟨by simpa using hl, ((step w ws).mp hn).2⟩
            rw [he] at h3
            cases h3
        | panic =>
          refine iff_of_false (by simp) ?_
          rintro ⟨hl, hn⟩
          cases new with
          | nil => simp at hl
          | cons w ws =>
            have h3 := (ih ws).mpr ⟨by simpa using hl, ((step w ws).mp hn).2⟩
            rw [he] at h3
            cases h3
      | err e => exact iff_of_false (by simp) (bad (by simp))
      | panic => exact iff_of_false (by simp) (bad (by simp))

omit [ParseFloat] [ParseFloat32] in
theorem assigned_ok {α : Type} (cur new : α) (r : Res α) : assigned cur r = (new, .ok ()) ↔ r = .ok new := by
  cases r <;> simp [assigned]

/-- One value for a type that is neither a slice nor has a method. -/
theorem single (t : GoType) (old new : t.T) (v : Bytes) (more : List Bytes) :
    (if more.length > 0 then (old, Res.err (.other 104)) else readValue v t old) = (new, .ok ()) ↔
      ∃ p, v :: more = [p] ∧ Reads p t old new := by
  cases more with
  | nil =>
    rw [if_neg (by simp), value_iff]
    constructor
    · intro h; exact ⟨v, rfl, h⟩
    · rintro ⟨p, e, h⟩
      cases e
      exact h
  | cons m more =>
    rw [if_pos (by simp)]
    simp

theorem tagged_iff (vals : List Bytes) (hv : vals ≠ []) (t : GoType) (old new : t.T) :
    readTagged t vals old = (new, .ok ()) ↔ ReadsAll vals t old new := by
  cases vals with
  | nil => exact absurd rfl hv
  | cons v more =>
    cases t with
    | own α z read =>
      unfold readTagged ReadsAll
      constructor
      · intro h; exact ⟨v, rfl, h⟩
      · rintro ⟨p, e, h⟩
        cases e
        exact h
    | slice t =>
      unfold readTagged ReadsAll
      exact Iff.trans (assigned_ok (α := List t.T) _ _ _) (elems_iff t (v :: more) new)
    | str => exact single .str old new v more
    | bool => exact single .bool old new v more
    | int z => exact single (.int z) old new v more
    | ptr t => exact single (.ptr t) old new v more
    | other α z => exact single (.other α z) old new v more

omit [ParseFloat] [ParseFloat32] in
theorem vals_eq (tag : Bytes) (parts : List Bytes) : taggedVals tag parts = valuesOf tag parts := by
  induction parts with
  | nil => rfl
  | cons p parts ih =>
    unfold taggedVals
    rw [ih]
    unfold valuesOf hasPrefix
    rw [List.filter_cons]
    split <;> simp

/-- One field is filled as the specification says. -/
theorem field_iff (c c' : Cell) (parts left : List Bytes) : c.read parts = (c', .ok left) ↔
    Takes c parts c' ∧ left = parts.drop (if c.tag = b!"#" then 1 else 0) := by
  unfold Cell.read Takes
  by_cases h0 : c.tag = [] ∨ c.tag = b!"-"
  · have h1 : c.tag ≠ b!"#" := by rcases h0 with h | h <;> rw [h] <;> decide
    rw [if_pos h0, if_pos h0, if_neg h1]
    simp [eq_comm]
  · rw [if_neg h0, if_neg h0]
    by_cases h1 : c.tag = b!"#"
    · rw [if_pos h1, if_pos h1, if_pos h1]
      cases parts with
      | nil => simp
      | cons p parts =>
        cases he : c.exported with
        | false => simp
        | true =>
          simp only [if_true, List.head?_cons, Option.some.injEq, true_and, List.drop_one, List.tail_cons]
          have hi := value_iff p c.type c.val
          cases hr : readValue p c.type c.val with
          | mk x r =>
            have bad : r ≠ .ok () → ¬ ((∃ q v, p = q ∧ Reads q c.type c.val v ∧ c' = c.put v) ∧ left = parts) := by
              rintro hne ⟨⟨q, v, rfl, hv, -⟩, -⟩
              have := (hi v).mpr hv
              rw [hr] at this
              simp only [Prod.mk.injEq] at this
              exact hne this.2
            cases r with
            | ok u =>
              simp only [Prod.mk.injEq, Res.ok.injEq]
              constructor
              · rintro ⟨rfl, rfl⟩
                exact ⟨⟨p, x, rfl, (hi x).mp hr, rfl⟩, rfl⟩
              · rintro ⟨⟨q, v, rfl, hv, rfl⟩, rfl⟩
                have := (hi v).mpr hv
                rw [hr] at this
                simp only [Prod.mk.injEq, and_true] at this
                rw [this]
                exact ⟨rfl, rfl⟩
            | err e => exact iff_of_false (by simp) (bad (by simp))
            | panic => exact iff_of_false (by simp) (bad (by simp))
    · rw [if_neg h1, if_neg h1, if_neg h1, vals_eq]
      by_cases h2 : valuesOf c.tag parts = []
      · rw [if_pos (by simp [h2]), if_pos h2]
        simp [eq_comm]
      · rw [if_neg (by simpa using h2), if_neg h2]
        cases he : c.exported with
        | false => simp
        | true =>
          simp only [if_true, true_and, List.drop_zero]
          have hi := tagged_iff (valuesOf c.tag parts) h2 c.type c.val
          cases hr : readTagged c.type (valuesOf c.tag parts) c.val with
          | mk x r =>
            have bad : r ≠ .ok () → ¬ ((∃ v, ReadsAll (valuesOf c.tag parts) c.type c.val v ∧ c' = c.put v) ∧ left = parts) := by
              rintro hne ⟨⟨v, hv, -⟩, -⟩
              have := (hi v).mpr hv
              rw [hr] at this
              simp only [Prod.mk.injEq] at this
              exact hne this.2
            cases r with
            | ok u =>
              simp only [Prod.mk.injEq, Res.ok.injEq]
              constructor
              · rintro ⟨rfl, rfl⟩
                exact ⟨⟨x, (hi x).mp hr, rfl⟩, rfl⟩
              · rintro ⟨⟨v, hv, rfl⟩, rfl⟩
                have := (hi v).mpr hv
                rw [hr] at this
                simp only [Prod.mk.injEq, and_true] at this
                rw [this]
                exact ⟨rfl, rfl⟩
            | err e => exact iff_of_false (by simp) (bad (by simp))
            | panic => exact iff_of_false (by simp) (bad (by simp))

/-! ## All fields -/

/-- A struct is filled exactly if every field is given what it can take: a field takes from the parts that the positional fields before it have
left. -/
theorem fields_iff : ∀ (cs cs' : List Cell) (parts : List Bytes), readFields cs parts = (cs', .ok ()) ↔
    cs'.length = cs.length ∧ ∀ (i : Nat) (c c' : Cell), cs[i]? = some c → cs'[i]? = some c' →
      Takes c (parts.drop (positional (cs.take i))) c' := by
  intro cs
  induction cs with
  | nil =>
    intro cs' parts
    simp [readFields, eq_comm]
  | cons c cs ih =>
    intro cs' parts
    have hpos : ∀ i, positional ((c :: cs).take (i + 1)) = (if c.tag = b!"#" then 1 else 0) + positional (cs.take i) := by
      intro i
      unfold positional
      rw [List.take_succ_cons, List.countP_cons]
      by_cases h : c.tag = b!"#" <;> simp [h, Nat.add_comm]
    have step : ∀ (d : Cell) (ds : List Cell), (∀ (i : Nat) (x x' : Cell), (c :: cs)[i]? = some x → (d :: ds)[i]? = some x' →
          Takes x (parts.drop (positional ((c :: cs).take i))) x') ↔
        Takes c parts d ∧ ∀ (i : Nat) (x x' : Cell), cs[i]? = some x → ds[i]? = some x' →
          Takes x ((parts.drop (if c.tag = b!"#" then 1 else 0)).drop (positional (cs.take i))) x' := by
      intro d ds
      constructor
      · intro h
        refine ⟨h 0 c d rfl rfl, fun i x x' h1 h2 => ?_⟩
        have := h (i + 1) x x' (by simpa using h1) (by simpa using h2)
        rw [hpos] at this
        rw [List.drop_drop]
        exact this
      · rintro ⟨h1, h2⟩ i x x' h3 h4
        cases i with
        | zero =>
          simp only [List.getElem?_cons_zero, Option.some.injEq] at h3 h4
          subst h3 h4
          exact h1
        | succ i =>
          have := h2 i x x' (by simpa using h3) (by simpa using h4)
          rw [List.drop_drop] at this
          rw [hpos]
          exact this
    unfold readFields
    cases hr : c.read parts with
    | mk d r =>
      have bad : (∀ left, r ≠ .ok left) → ¬ (cs'.length = (c :: cs).length ∧ ∀ (i : Nat) (x x' : Cell), (c :: cs)[i]? = some x →
          cs'[i]? = some x' → Takes x (parts.drop (positional ((c :: cs).take i))) x') := by
        rintro hne ⟨hl, hn⟩
        cases cs' with
        | nil => simp at hl
        | cons w ws =>
          have := (field_iff c w parts _).mpr ⟨((step w ws).mp hn).1, rfl⟩
          rw [hr] at this
          simp only [Prod.mk.injEq] at this
          exact hne _ this.2
      cases r with
      | ok left =>
        obtain ⟨hd, rfl⟩ := (field_iff c d parts left).mp hr
        dsimp only
        rw [Prod.mk.injEq]
        constructor
        · rintro ⟨rfl, h2⟩
          have := (ih _ _).mp (Prod.ext_iff.mpr ⟨rfl, h2⟩)
          exact ⟨by simp [this.1], (step d _).mpr ⟨hd, this.2⟩⟩
        · rintro ⟨hl, hn⟩
          cases cs' with
          | nil => simp at hl
          | cons w ws =>
            have h1 := (step w ws).mp hn
            have h2 := (field_iff c w parts _).mpr ⟨h1.1, rfl⟩
            rw [hr] at h2
            simp only [Prod.mk.injEq, and_true] at h2
            have h3 := (ih ws _).mpr ⟨by simpa using hl, h1.2⟩
            rw [h3, h2]
            exact ⟨rfl, rfl⟩
      | err e => exact iff_of_false (by simp) (bad (by simp))
      | panic => exact iff_of_false (by simp) (bad (by simp))

omit [ParseFloat] [ParseFloat32] in
theorem not_ok {β : Type} {a b : β} {r : Res Unit} (h : (a, Res.ok ()) = (b, r)) (hr : r ≠ .ok ()) : False :=
  hr (congrArg Prod.snd h).symm

omit [ParseFloat] [ParseFloat32] in
theorem kept {β : Type} {a b : β} {q r : Res Unit} (h : (a, q) = (b, r)) : b = a := (congrArg Prod.fst h).symm

theorem int_left (z : IntSize) (s : Bytes) (old new : Int) (r : Res Unit) (h : readInt z s old = (new, r)) (hr : r ≠ .ok ()) : new = old := by
  unfold readInt at h
  split at h
  · exact (not_ok h hr).elim
  · exact kept h
  · split at h
    · exact kept h
    · exact kept h
    · exact (not_ok h hr).elim

theorem value_left (s : Bytes) (t : GoType) (old new : t.T) (r : Res Unit) (h : readValue s t old = (new, r)) (hr : r ≠ .ok ()) :
    LeftBy (some s) r t old new := by
  cases t with
  | own α z read => exact .inl ⟨s, rfl, h⟩
  | str =>
    by_cases h0 : s.length = 0
    · exact (not_ok ((if_pos h0).symm.trans h) hr).elim
    · exact (not_ok ((if_neg h0).symm.trans h) hr).elim
  | bool =>
    by_cases h0 : s.length = 0
    · exact (not_ok ((if_pos h0).symm.trans h) hr).elim
    · have h := (if_neg h0).symm.trans h
      by_cases h1 : s.length ≠ 1
      · exact kept ((if_pos h1).symm.trans h)
      · exact (not_ok ((if_neg h1).symm.trans h) hr).elim
  | int z =>
    by_cases h0 : s.length = 0
    · exact (not_ok ((if_pos h0).symm.trans h) hr).elim
    · exact int_left z s old new r ((if_neg h0).symm.trans h) hr
  | ptr t =>
    by_cases h0 : s.length = 0
    · exact (not_ok ((if_pos h0).symm.trans h) hr).elim
    · have h := (if_neg h0).symm.trans h
      cases hv : readValue s t t.zero with
      | mk v q =>
        rw [hv] at h
        cases q with
        | ok u => exact (not_ok h hr).elim
        | err e => exact kept h
        | panic => exact kept h
  | slice t =>
    by_cases h0 : s.length = 0
    · exact (not_ok ((if_pos h0).symm.trans h) hr).elim
    · exact kept ((if_neg h0).symm.trans h)
  | other α z =>
    by_cases h0 : s.length = 0
    · exact (not_ok ((if_pos h0).symm.trans h) hr).elim
    · exact kept ((if_neg h0).symm.trans h)

theorem tagged_left (vals : List Bytes) (t : GoType) (old new : t.T) (r : Res Unit) (h : readTagged t vals old = (new, r)) (hr : r ≠ .ok ()) :
    LeftBy vals.head? r t old new := by
  cases vals with
  | nil =>
    have : (old, Res.ok ()) = (new, r) := by
      cases t <;> exact h
    simp only [Prod.mk.injEq] at this
    exact absurd this.2.symm hr
  | cons v more =>
    have many : (if more.length > 0 then (old, Res.err (.other 104)) else readValue v t old) = (new, r) → LeftBy (some v) r t old new ∨ new = old := by
      intro h
      split at h
      · simp only [Prod.mk.injEq] at h; exact .inr h.1.symm
      · exact .inl (value_left v t old new r h hr)
    cases t with
    | own α z read => exact .inl ⟨v, rfl, h⟩
    | slice t =>
      have h : assigned (α := List t.T) old (readElems t (v :: more)) = (new, r) := h
      cases he : readElems t (v :: more) with
      | ok vs =>
        rw [he] at h
        exact (not_ok h hr).elim
      | err e =>
        rw [he] at h
        exact kept h
      | panic =>
        rw [he] at h
        exact kept h
    | str => exact (many h).elim id id
    | bool => exact (many h).elim id id
    | int z => exact (many h).elim id id
    | ptr t => exact (many h).elim id id
    | other α z => exact (many h).elim id id

omit [ParseFloat] [ParseFloat32] in
theorem put_self (c : Cell) : c.put c.val = c := rfl

omit [ParseFloat] [ParseFloat32] in
theorem left_panic (text : Option Bytes) (t : GoType) (old : t.T) : LeftBy text .panic t old old := by
  cases t <;> first | rfl | exact .inr ⟨rfl, rfl⟩

/-- How one field fails. -/
def failure (r : Res (List Bytes)) : Res Unit :=
  match r with
  | .ok _ => .ok ()
  | .err e => .err e
  | .panic => .panic

theorem field_left (c d : Cell) (parts : List Bytes) (r : Res (List Bytes)) (h : c.read parts = (d, r)) (hr : ∀ left, r ≠ .ok left) :
    ∃ v, d = c.put v ∧ LeftBy (given c parts) (failure r) c.type c.val v := by
  unfold Cell.read at h
  split at h
  · simp only [Prod.mk.injEq] at h; exact absurd h.2.symm (hr _)
  split at h
  · rename_i ht
    have hg : given c parts = parts.head? := by unfold given; rw [if_pos ht]
    rw [hg]
    cases parts with
    | nil =>
      simp only [Prod.mk.injEq] at h
      obtain ⟨rfl, rfl⟩ := h
      exact ⟨c.val, rfl, left_panic _ _ _⟩
    | cons p parts =>
      simp only at h
      split at h
      · cases hv : readValue p c.type c.val with
        | mk x r' =>
          rw [hv] at h
          cases r' with
          | ok u => simp only [Prod.mk.injEq] at h; exact absurd h.2.symm (hr _)
          | err e =>
            simp only [Prod.mk.injEq] at h
            obtain ⟨rfl, rfl⟩ := h
            exact ⟨x, rfl, value_left p c.type c.val x _ hv (by simp [failure])⟩
          | panic =>
            simp only [Prod.mk.injEq] at h
            obtain ⟨rfl, rfl⟩ := h
            exact ⟨x, rfl, value_left p c.type c.val x _ hv (by simp [failure])⟩
      · simp only [Prod.mk.injEq] at h
        obtain ⟨rfl, rfl⟩ := h
        exact ⟨c.val, rfl, left_panic _ _ _⟩
  · rename_i ht
    have hg : given c parts = (taggedVals c.tag parts).head? := by unfold given; rw [if_neg ht, vals_eq]
    rw [hg]
    split at h
    · simp only [Prod.mk.injEq] at h; exact absurd h.2.symm (hr _)
    split at h
    · cases hv : readTagged c.type (taggedVals c.tag parts) c.val with
      | mk x r' =>
        rw [hv] at h
        cases r' with
        | ok u => simp only [Prod.mk.injEq] at h; exact absurd h.2.symm (hr _)
        | err e =>
          simp only [Prod.mk.injEq] at h
          obtain ⟨rfl, rfl⟩ := h
          exact ⟨x, rfl, tagged_left _ c.type c.val x _ hv (by simp [failure])⟩
        | panic =>
          simp only [Prod.mk.injEq] at h
          obtain ⟨rfl, rfl⟩ := h
          exact ⟨x, rfl, tagged_left _ c.type c.val x _ hv (by simp [failure])⟩
    · simp only [Prod.mk.injEq] at h
      obtain ⟨rfl, rfl⟩ := h
      exact ⟨c.val, rfl, left_panic _ _ _⟩

/-- A struct whose reading fails: there is a first field that cannot take what it is given.  The fields before it have their new values, the
fields behind it their old ones, and the field itself has its old value, unless its method has changed it. -/
theorem fields_failed (cs : List Cell) : ∀ (cs' : List Cell) (parts : List Bytes) (r : Res Unit), readFields cs parts = (cs', r) → r ≠ .ok () →
    ∃ pre c post pre' v, cs = pre ++ c :: post ∧ cs' = pre' ++ c.put v :: post ∧ readFields pre parts = (pre', .ok ()) ∧
      (∀ d, ¬ Takes c (parts.drop (positional pre)) d) ∧ LeftBy (given c (parts.drop (positional pre))) r c.type c.val v := by
  induction cs with
  | nil =>
    intro cs' parts r h hr
    simp only [readFields, Prod.mk.injEq] at h
    exact absurd h.2.symm hr
  | cons c cs ih =>
    intro cs' parts r h hr
    have stop : ∀ d (q : Res (List Bytes)), c.read parts = (d, q) → (∀ left, q ≠ .ok left) → failure q = r → cs' = d :: cs →
        ∃ pre x post pre' v, c :: cs = pre ++ x :: post ∧ cs' = pre' ++ x.put v :: post ∧ readFields pre parts = (pre', .ok ()) ∧
          (∀ d, ¬ Takes x (parts.drop (positional pre)) d) ∧ LeftBy (given x (parts.drop (positional pre))) r x.type x.val v := by
      intro d q hq hne hf hcs
      obtain ⟨v, rfl, hv⟩ := field_left c d parts q hq hne
      refine ⟨[], c, cs, [], v, rfl, hcs, rfl, fun e he => ?_, by rw [← hf]; exact hv⟩
      have := (field_iff c e parts _).mpr ⟨he, rfl⟩
      rw [hq] at this
      simp only [Prod.mk.injEq] at this
      exact hne _ this.2
    unfold readFields at h
    cases hc : c.read parts with
    | mk d q =>
      rw [hc] at h
      cases q with
      | ok left =>
        obtain ⟨hd, hl⟩ := (field_iff c d parts left).mp hc
        simp only [Prod.mk.injEq] at h
        obtain ⟨pre, x, post, pre', v, h1, h2, h3, h4, h5⟩ := ih (readFields cs left).1 left r (Prod.ext_iff.mpr ⟨rfl, h.2⟩) hr
        have hp : parts.drop (positional (c :: pre)) = left.drop (positional pre) := by
          rw [hl, List.drop_drop]
          unfold positional
          rw [List.countP_cons]
          by_cases ht : c.tag = b!"#" <;> simp [ht, Nat.add_comm]
        refine ⟨c :: pre, x, post, d :: pre', v, by rw [h1]; rfl, by rw [← h.1, h2]; rfl, ?_, by rw [hp]; exact h4, by rw [hp]; exact h5⟩
        unfold readFields
        rw [hc]
        dsimp only
        rw [h3]
      | err e =>
        simp only [Prod.mk.injEq] at h
        exact stop d _ hc (by simp) h.2 h.1.symm
      | panic =>
        simp only [Prod.mk.injEq] at h
        exact stop d _ hc (by simp) h.2 h.1.symm

/-! ## What one program writes and another one reads -/

open Verif.Props.AdcAnyMessage

/-- The texts that a struct is written with under a tag. -/
def sentUnder (tag : Bytes) (fs : List AnyField) : List Bytes := ((shown fs).filter (fun x => x.1 = tag)).map (fun x => text x.2)

omit [ParseFloat] [ParseFloat32] in
theorem join_eq_intercalate (ps : List Bytes) : join ps c!" " = b!" ".intercalate ps := by
  induction ps with
  | nil => rfl
  | cons p ps ih =>
    cases ps with
    | nil => simp [join, List.intercalate]
    | cons q ps => 
      unfold join
      rw [ih]
      simp [List.intercalate, List.intersperse]

omit [ParseFloat] [ParseFloat32] in
theorem values_sent (tag : Bytes) (n : Nat) (ht : tag.length = n) (xs : List (Bytes × Put)) (hx : ∀ x ∈ xs, x.1.length = n) :
    valuesOf tag (xs.map tagged) = (xs.filter (fun x => x.1 = tag)).map (fun x => text x.2) := by
  induction xs with
  | nil => rfl
  | cons x xs ih =>
    have h1 := hx x List.mem_cons_self
    have ih := ih (fun y hy => hx y (List.mem_cons_of_mem _ hy))
    unfold valuesOf at ih ⊢
    rw [List.map_cons, List.filter_cons, List.filter_cons]
    have hp : tag.isPrefixOf (tagged x) = decide (x.1 = tag) := by
      rw [Bool.eq_iff_iff, List.isPrefixOf_iff_prefix]
      simp only [decide_eq_true_eq]
      unfold tagged
      constructor
      · intro h
        have := List.prefix_of_prefix_length_le h (List.prefix_append x.1 (text x.2)) (by omega)
        exact (this.eq_of_length (by omega)).symm
      · rintro rfl
        exact List.prefix_append _ _
    rw [hp]
    by_cases h : x.1 = tag
    · simp only [h, decide_true, if_true, List.map_cons, ih, List.cons.injEq, and_true]
      unfold tagged
      rw [h, List.drop_left]
    · simp only [h, decide_false, Bool.false_eq_true, if_false, ih]

omit [ParseFloat] [ParseFloat32] in
theorem shown_append (a b : List AnyField) : shown (a ++ b) = shown a ++ shown b := by
  unfold shown
  rw [List.flatMap_append]

omit [ParseFloat] [ParseFloat32] in
theorem shown_pos (pos : List AnyField) (gs : List Put) (h : pos = gs.map (fun g => ⟨b!"#", false, none, .one g⟩)) :
    shown pos = gs.map (fun g => ([], g)) := by
  subst h
  induction gs with
  | nil => rfl
  | cons g gs ih =>
    unfold shown at ih ⊢
    rw [List.map_cons, List.flatMap_cons, ih]
    simp

omit [ParseFloat] [ParseFloat32] in
theorem shown_named {named : List AnyField} {x : Bytes × Put} (hx : x ∈ shown named) (hn : ∀ f ∈ named, f.tag ≠ b!"#") :
    ∃ f ∈ named, x.1 = f.tag := by
  unfold shown at hx
  obtain ⟨f, hf, hx⟩ := List.mem_flatMap.mp hx
  refine ⟨f, hf, ?_⟩
  split at hx
  · simp at hx
  · split at hx
    · simp only [List.mem_singleton] at hx
      rw [hx]
      exact if_neg (hn f hf)
    · obtain ⟨g, -, rfl⟩ := List.mem_map.mp hx
      exact if_neg (hn f hf)

omit [ParseFloat] [ParseFloat32] in
theorem positional_all (cs : List Cell) (h : ∀ c ∈ cs, c.tag = b!"#") : positional cs = cs.length := by
  unfold positional
  rw [List.countP_eq_length]
  intro c hc
  simp [h c hc]

omit [ParseFloat] [ParseFloat32] in
theorem positional_none (cs : List Cell) (h : ∀ c ∈ cs, c.tag ≠ b!"#") : positional cs = 0 := by
  unfold positional
  rw [List.countP_eq_zero]
  intro c hc
  simp [h c hc]

/-- A struct is written with the values `gs` without tags and the fields `named`, whose tags all have the same length; a struct is filled
from the text that has as many positional fields and whose other tags have this length.  The i-th positional field is given the i-th value,
and every other field the texts that were written under its tag, and nothing else. -/
theorem received (gs : List Put) (named : List AnyField) (cpos cnamed cs' : List Cell) (n : Nat) (hn : 0 < n) (hc : Comparable named)
    (hnamed : ∀ f ∈ named, f.tag.length = n ∧ f.tag ≠ b!"#" ∧ c!" " ∉ f.tag)
    (hgs : ∀ g ∈ gs, Plain g ∧ (g []).1 = .ok () ∧ c!" " ∉ text g)
    (hok : ∀ x ∈ shown named, Plain x.2 ∧ (x.2 []).1 = .ok () ∧ c!" " ∉ text x.2)
    (hcpos : ∀ c ∈ cpos, c.tag = b!"#") (hlen : cpos.length = gs.length)
    (hcn : ∀ c ∈ cnamed, c.tag.length = n ∧ c.tag ≠ b!"#" ∧ c.tag ≠ b!"-") :
    ∃ payload, fieldsInto (gs.map (fun g => ⟨b!"#", false, none, .one g⟩) ++ named) true [] = (.ok (), payload) ∧
      ((Target.struct (cpos ++ cnamed)).unmarshal payload = (.struct cs', .ok ()) ↔
        cs'.length = cpos.length + cnamed.length ∧
        (∀ (i : Nat) (c c' : Cell) (g : Put), cpos[i]? = some c → cs'[i]? = some c' → gs[i]? = some g →
          c.exported = true ∧ ∃ v, Reads (text g) c.type c.val v ∧ c' = c.put v) ∧
        (∀ (i : Nat) (c c' : Cell), cnamed[i]? = some c → cs'[cpos.length + i]? = some c' →
          if sentUnder c.tag named = [] then c' = c
          else c.exported = true ∧ ∃ v, ReadsAll (sentUnder c.tag named) c.type c.val v ∧ c' = c.put v)) := by
  have hsp := shown_pos _ gs rfl
  have hall : ∀ x ∈ shown (gs.map (fun g => ⟨b!"#", false, none, .one g⟩) ++ named), Plain x.2 ∧ (x.2 []).1 = .ok () ∧ c!" " ∉ tagged x := by
    intro x hx
    rw [shown_append, hsp, List.mem_append] at hx
    rcases hx with hx | hx
    · obtain ⟨g, hg, rfl⟩ := List.mem_map.mp hx
      simpa [tagged] using hgs g hg
    · obtain ⟨f, hf, he⟩ := shown_named hx (fun f hf => (hnamed f hf).2.1)
      have h1 := hok x hx
      refine ⟨h1.1, h1.2.1, ?_⟩
      unfold tagged
      rw [List.mem_append, he]
      rintro (h | h)
      · exact (hnamed f hf).2.2 h
      · exact h1.2.2 h
  have hcomp : Comparable (gs.map (fun g => (⟨b!"#", false, none, .one g⟩ : AnyField)) ++ named) := by
    intro f hf h1 h2
    rcases List.mem_append.mp hf with hf | hf
    · obtain ⟨g, -, rfl⟩ := List.mem_map.mp hf
      exact absurd rfl h2
    · exact hc f hf h1 h2
  refine ⟨_, struct_text _ hcomp (fun x hx => ⟨(hall x hx).1, (hall x hx).2.1⟩) [], ?_⟩
  rw [List.nil_append]
  have hparts : ∃ extra, split (b!" ".intercalate ((shown (gs.map (fun g => ⟨b!"#", false, none, .one g⟩) ++ named)).map tagged)) c!" " =
      gs.map text ++ ((shown named).map tagged ++ extra) ∧ ∀ tag : Bytes, tag ≠ [] → valuesOf tag extra = [] := by
    by_cases he : shown (gs.map (fun g => ⟨b!"#", false, none, .one g⟩) ++ named) = []
    · rw [he]
      rw [shown_append, hsp, List.append_eq_nil_iff] at he
      refine ⟨[[]], ?_, ?_⟩
      · rw [he.2]
        have : gs = [] := by simpa using he.1
        rw [this]
        rfl
      · intro tag ht
        unfold valuesOf
        cases tag with
        | nil => exact absurd rfl ht
        | cons a l => rfl
    · refine ⟨[], ?_, fun _ _ => rfl⟩
      rw [← join_eq_intercalate, split_join (by simpa using he)]
      · rw [shown_append, hsp]
        simp only [List.map_append, List.map_map, List.append_nil]
        congr 1
      · intro p hp
        obtain ⟨x, hx, rfl⟩ := List.mem_map.mp hp
        exact (hall x hx).2.2
  obtain ⟨extra, hparts, hextra⟩ := hparts
  have hvals : ∀ c ∈ cnamed, valuesOf c.tag ((shown named).map tagged ++ extra) = sentUnder c.tag named := by
    intro c hcm
    have h1 := hcn c hcm
    have : valuesOf c.tag ((shown named).map tagged ++ extra) = valuesOf c.tag ((shown named).map tagged) ++ valuesOf c.tag extra := by
      unfold valuesOf
      rw [List.filter_append, List.map_append]
    rw [this, hextra c.tag (by intro h; rw [h] at h1; simp at h1; omega), List.append_nil]
    refine values_sent c.tag n h1.1 (shown named) (fun x hx => ?_)
    obtain ⟨f, hf, he⟩ := shown_named hx (fun f hf => (hnamed f hf).2.1)
    rw [he]
    exact (hnamed f hf).1
  unfold Target.unmarshal
  rw [hparts]
  have hinj : ∀ (x : List Cell × Res Unit), ((Target.struct x.1, x.2) = (Target.struct cs', Res.ok ())) ↔ x = (cs', .ok ()) := by
    intro x
    rw [Prod.mk.injEq, Prod.ext_iff, Target.struct.injEq]
  rw [hinj, fields_iff, List.length_append]
  refine and_congr_right (fun hl => ?_)
  constructor
  · intro h
    refine ⟨fun i c c' g h1 h2 h3 => ?_, fun i c c' h1 h2 => ?_⟩
    · have hi : i < cpos.length := (List.getElem?_eq_some_iff.mp h1).1
      have ht := h i c c' (by rw [List.getElem?_append_left hi]; exact h1) h2
      have hp : positional ((cpos ++ cnamed).take i) = i := by
        rw [List.take_append_of_le_length (by omega), positional_all _ (fun c hc => hcpos c (List.mem_of_mem_take hc)), List.length_take]
        omega
      rw [hp] at ht
      unfold Takes at ht
      have htag := hcpos c (List.mem_of_getElem? h1)
      rw [if_neg (by rw [htag]; decide), if_pos htag] at ht
      obtain ⟨he, p, v, hp, hv, rfl⟩ := ht
      rw [List.head?_drop, List.getElem?_append_left (by simp; omega), List.getElem?_map, h3] at hp
      simp only [Option.map_some, Option.some.injEq] at hp
      subst hp
      exact ⟨he, v, hv, rfl⟩
    · have ht := h (cpos.length + i) c c' (by rw [List.getElem?_append_right (by omega)]; simpa using h1) h2
      have hp : positional ((cpos ++ cnamed).take (cpos.length + i)) = gs.length := by
        rw [List.take_length_add_append]
        have : positional (cpos ++ cnamed.take i) = positional cpos + positional (cnamed.take i) := by
          unfold positional
          rw [List.countP_append]
        rw [this, positional_all _ hcpos, positional_none _ (fun c hc => (hcn c (List.mem_of_mem_take hc)).2.1), hlen]
        rfl
      rw [hp] at ht
      have hm := List.mem_of_getElem? h1
      have hcc := hcn c hm
      have hd : (gs.map text ++ ((shown named).map tagged ++ extra)).drop gs.length = (shown named).map tagged ++ extra := by
        rw [List.drop_append_of_le_length (by simp)]
        simp
      unfold Takes at ht
      rw [hd, hvals c hm, if_neg, if_neg hcc.2.1] at ht
      · exact ht
      · rintro (h | h)
        · rw [h] at hcc; simp at hcc; omega
        · exact hcc.2.2 h
  · rintro ⟨hp1, hp2⟩ i c c' h1 h2
    by_cases hi : i < cpos.length
    · rw [List.getElem?_append_left hi] at h1
      have hp : positional ((cpos ++ cnamed).take i) = i := by
        rw [List.take_append_of_le_length (by omega), positional_all _ (fun c hc => hcpos c (List.mem_of_mem_take hc)), List.length_take]
        omega
      have hg : gs[i]? = some (gs[i]'(by omega)) := List.getElem?_eq_getElem (by omega)
      have htag := hcpos c (List.mem_of_getElem? h1)
      obtain ⟨he, v, hv, hput⟩ := hp1 i c c' _ h1 h2 hg
      rw [hp]
      unfold Takes
      rw [if_neg (by rw [htag]; decide), if_pos htag]
      refine ⟨he, _, v, ?_, hv, hput⟩
      rw [List.head?_drop, List.getElem?_append_left (by simp; omega), List.getElem?_map, hg]
      rfl
    · have h1' : cnamed[i - cpos.length]? = some c := by
        rw [List.getElem?_append_right (by omega)] at h1
        exact h1
      have hii : cpos.length + (i - cpos.length) = i := by omega
      have hput := hp2 (i - cpos.length) c c' h1' (by rw [hii]; exact h2)
      have hp : positional ((cpos ++ cnamed).take i) = gs.length := by
        rw [← hii, List.take_length_add_append]
        have : positional (cpos ++ cnamed.take (i - cpos.length)) = positional cpos + positional (cnamed.take (i - cpos.length)) := by
          unfold positional
          rw [List.countP_append]
        rw [this, positional_all _ hcpos, positional_none _ (fun c hc => (hcn c (List.mem_of_mem_take hc)).2.1), hlen]
        rfl
      have hm := List.mem_of_getElem? h1'
      have hcc := hcn c hm
      have hd : (gs.map text ++ ((shown named).map tagged ++ extra)).drop gs.length = (shown named).map tagged ++ extra := by
        rw [List.drop_append_of_le_length (by simp)]
        simp
      rw [hp]
      unfold Takes
      rw [hd, hvals c hm, if_neg, if_neg hcc.2.1]
      · exact hput
      · rintro (h | h)
        · rw [h] at hcc; simp at hcc; omega
        · exact hcc.2.2 h

/-! ## Values that are read back -/

/-- A number that fits the variable is read back, whatever the size of the variable. -/
theorem int_round (z : IntSize) (n : Int) (h1 : -(2 ^ (size z - 1) : Int) ≤ n) (h2 : n < 2 ^ (size z - 1)) (old : Int) :
    Reads (itoa n) (.int z) old n := by
  refine .inr ⟨itoa_ne_nil n, .inl ⟨n, itoa_signed n, ?_, ?_, ?_⟩⟩
  · cases z <;> simp only [size, asked] at * <;> omega
  · cases z <;> simp only [size, asked] at * <;> omega
  · refine (Int.bmod_eq_of_le ?_ ?_).symm
    · cases z <;> simp only [size] at * <;> omega
    · cases z <;> simp only [size] at * <;> omega

/-- A number of 32 bits in a field of type `int16` loses its upper half, and there is no error. -/
theorem int16_cut (n : Int) (h1 : -(2 ^ 31 : Int) ≤ n) (h2 : n < 2 ^ 31) (old : Int) :
    readValue (itoa n) (.int .i16) old = (Int.bmod n (2 ^ 16), .ok ()) :=
  (value_iff _ _ _ _).mpr (.inr ⟨itoa_ne_nil n, .inl ⟨n, itoa_signed n, h1, h2, rfl⟩⟩)

/-- Nothing but the empty text can be read into a variable of an unsigned type, although `Marshal` writes them. -/
theorem unsigned_refused (α : Type) (z cur : α) (s : Bytes) (hs : s ≠ []) : readValue s (.other α z) cur = (cur, .err (.other 103)) :=
  if_neg (by simpa using hs)

/-- A field that is not exported makes the call panic as soon as there is something for it. -/
theorem unexported_panics (c : Cell) (parts : List Bytes) (he : c.exported = false) (h1 : c.tag ≠ []) (h2 : c.tag ≠ b!"-")
    (hg : given c parts ≠ none) : c.read parts = (c, .panic) := by
  unfold Cell.read
  unfold given at hg
  rw [if_neg (by simp [h1, h2])]
  by_cases h : c.tag = b!"#"
  · rw [if_pos h] at hg ⊢
    cases parts with
    | nil => exact absurd rfl hg
    | cons p parts => simp [he]
  · rw [if_neg h] at hg ⊢
    rw [vals_eq, if_neg (by simpa using hg)]
    simp [he]

/-! ## The types that have been registered -/

section
variable {U : Type} (types : U → OwnType)

/-- The result for a type of the caller: a fresh value is filled. -/
def madeOf (u : U) (data : Bytes) : Res (OwnMsg U) :=
  match (types u).zero.unmarshal data with
  | (v, .ok _) => if (types u).valueCmd then .ok (.own u v) else .panic
  | (_, .err e) => .err e
  | (_, .panic) => .panic

/-- The result for any other name: that of the library. -/
def libOf (U : Type) (name : MsgType) (data : Bytes) : Res (OwnMsg U) :=
  match unmarshalMessage name data with
  | .ok m => .ok (.lib m)
  | .err e => .err e
  | .panic => .panic

/-- After a program has registered types of its own, messages with their names become values of these types, and all others what they were
before. -/
theorem registered_types (r r' : Reg MsgType (Msg ⊕ U)) (h : Reg.registerAll (adcInit.flatten.map adcCall) [] = .ok r)
    (calls : List (MsgType × U)) (h' : r.registerAll (calls.map fun c => (c.1, .inr c.2)) = .ok r') (name : MsgType) (data : Bytes) :
    (∀ u, (name, u) ∈ calls → unmarshalMessageOf types r' name data = madeOf types u data) ∧
    (name ∉ calls.map (·.1) → unmarshalMessageOf types r' name data = libOf U name data) := by
  obtain ⟨r0, h0, hg⟩ := Verif.Props.Registry.adc_init (U := U) adcInit (List.Perm.refl _)
  have : r0 = r := by rw [h0] at h; cases h; rfl
  subst this
  have hc : ((calls.map fun c => (c.1, (Sum.inr c.2 : Msg ⊕ U))).map (·.1)).Nodup ∧
      ∀ c ∈ calls.map (fun c => (c.1, (Sum.inr c.2 : Msg ⊕ U))), c.1 ∉ r0.map (·.1) := by
    apply Classical.byContradiction
    intro hc
    rw [Verif.Props.Registry.registerAll_bad _ _ hc] at h'
    cases h'
  rw [Verif.Props.Registry.registerAll_ok _ _ hc.1 hc.2] at h'
  cases h'
  have hget : ∀ l : Reg MsgType (Msg ⊕ U), Reg.get (l ++ r0) name = (l.get name).or (r0.get name) := by
    intro l
    unfold Reg.get
    rw [List.find?_append]
    cases l.find? (fun e => decide (e.1 = name)) <;> simp
  have hr : (((calls.map fun c => (c.1, (Sum.inr c.2 : Msg ⊕ U))).reverse).map (·.1)).Nodup := by
    exact ((List.reverse_perm _).map _).nodup_iff.mpr hc.1
  refine ⟨fun u hu => ?_, fun hu => ?_⟩
  · have : Reg.get (calls.map fun c => (c.1, (Sum.inr c.2 : Msg ⊕ U))).reverse name = some (.inr u) := by
      rw [Verif.Props.Registry.get_of_nodup _ hr]
      simp only [List.mem_reverse, List.mem_map]
      exact ⟨(name, u), hu, rfl⟩
    unfold unmarshalMessageOf
    rw [hget, this]
    rfl
  · have : Reg.get (calls.map fun c => (c.1, (Sum.inr c.2 : Msg ⊕ U))).reverse name = none := by
      cases hx : Reg.get (calls.map fun c => (c.1, (Sum.inr c.2 : Msg ⊕ U))).reverse name with
      | none => rfl
      | some t =>
        have := (Verif.Props.Registry.get_of_nodup _ hr name t).mp hx
        simp only [List.mem_reverse, List.mem_map] at this
        obtain ⟨c, hcm, e⟩ := this
        simp only [Prod.mk.injEq] at e
        exact absurd (List.mem_map.mpr ⟨c, hcm, e.1⟩) hu
    unfold unmarshalMessageOf libOf unmarshalMessage
    rw [hget, this, hg]
    cases lookupType name <;> rfl

/-- A type whose pointers only are messages can be registered, but every message that could be decoded makes the call panic. -/
theorem pointer_type (u : U) (data : Bytes) (hu : (types u).valueCmd = false) (v : Target)
    (h : (types u).zero.unmarshal data = (v, .ok ())) : madeOf types u data = .panic := by
  unfold madeOf
  rw [h, hu]
  rfl

/-- `RegisterMessage(&RawMessage{Type: name})` is accepted for every name that is free; from then on every message of that name, whatever its text,
makes `UnmarshalMessage` panic, where it was read as a raw message before. -/
theorem raw_type (r : Reg MsgType (Msg ⊕ U)) (h : Reg.registerAll (adcInit.flatten.map adcCall) [] = .ok r) (u : U) (hu : types u = rawType)
    (name : MsgType) (hn : lookupType name = none) :
    ∃ r', r.registerAll [(name, .inr u)] = .ok r' ∧ ∀ data, unmarshalMessageOf types r' name data = .panic ∧
      unmarshalMessageOf types r name data = .ok (.lib (.raw name data)) := by
  obtain ⟨r0, h0, hg⟩ := Registry.adc_init (U := U) adcInit (List.Perm.refl _)
  have : r0 = r := by rw [h0] at h; cases h; rfl
  subst this
  have hr : r0.get name = none := by rw [hg, hn]; rfl
  refine ⟨(name, .inr u) :: r0, by simp [Reg.registerAll, Reg.register, hr], fun data => ⟨?_, ?_⟩⟩
  · simp [unmarshalMessageOf, Reg.get, hu, rawType, Target.unmarshal]
  · simp [unmarshalMessageOf, hr]

example : lookupType ⟨b!"FOO", rfl⟩ = none := by decide +kernel

/-- `DecodeMessage` of a packet: the message is replaced if it is raw and can be decoded, and stays in every other case. -/
theorem decode_packet (reg : Reg MsgType (Msg ⊕ U)) (m : OwnMsg U) :
    (∀ typ data, m = .lib (.raw typ data) → ∀ g, unmarshalMessageOf types reg typ data = .ok g → decodeMessageOf types reg m = (g, .ok ())) ∧
    ((decodeMessageOf types reg m).2 ≠ .ok () → (decodeMessageOf types reg m).1 = m) ∧
    ((∀ typ data, m ≠ .lib (.raw typ data)) → decodeMessageOf types reg m = (m, .ok ())) := by
  refine ⟨?_, ?_, ?_⟩
  · rintro typ data rfl g hg
    simp only [decodeMessageOf, hg]
  · intro h
    cases m with
    | own u v => rfl
    | lib m =>
      cases m with
      | raw typ data =>
        simp only [decodeMessageOf] at h ⊢
        cases hu : unmarshalMessageOf types reg typ data with
        | ok g => rw [hu] at h; exact absurd rfl h
        | err e => rfl
        | panic => rfl
      | _ => rfl
  · intro h
    cases m with
    | own u v => rfl
    | lib m =>
      cases m with
      | raw typ data => exact absurd rfl (h typ data)
      | _ => rfl

/-- `DecodeMessageTo`: a variable of the caller is filled from a raw message of its name, and is left alone otherwise. -/
theorem decode_to (frm : OwnMsg U) (cmd : MsgType) (to : Target) :
    (∀ data, frm = .lib (.raw cmd data) → decodeMessageToOf frm cmd to = to.unmarshal data) ∧
    ((∀ data, frm ≠ .lib (.raw cmd data)) → ∃ e, decodeMessageToOf frm cmd to = (to, .err e)) := by
  refine ⟨?_, ?_⟩
  · rintro data rfl
    simp [decodeMessageToOf]
  · intro h
    cases frm with
    | own u v => exact ⟨_, rfl⟩
    | lib m =>
      cases m with
      | raw typ data =>
        have hne : cmd ≠ typ := by
          rintro rfl
          exact h data rfl
        exact ⟨.other 115, by simp [decodeMessageToOf, hne]⟩
      | _ => exact ⟨_, rfl⟩

/-- A packet with a message of the caller that has been encoded is decoded as a packet with the raw message, and `DecodeMessage` makes the value
of the type that is registered under its name. -/
theorem packet (reg : Reg MsgType (Msg ⊕ U)) (a : Address) (m : AnyMsg) (hp : Plain m.put) {cmd : MsgType} (hc : m.cmd = some cmd) {x : Unit}
    (hok : (m.put []).1 = .ok x) (room : Nat) (hz : AdcPackets.PacketOk (a.packet (.raw cmd (text m.put))) cmd (text m.put))
    (u : U) (hu : reg.get cmd = some (.inr u)) (hv : (types u).valueCmd = true) (v : Target)
    (hr : (types u).zero.unmarshal (text m.put) = (v, .ok ())) :
    ∃ p, decodePacketRaw room (a.marshalAny m []).2 = .ok p ∧ p.address = a ∧
      decodeMessageOf types reg (.lib p.message) = (.own u v, .ok ()) := by
  refine ⟨_, (read_back a m hp hc hok room).mpr hz, ?_, ?_⟩
  · cases a <;> rfl
  · have hm : (a.packet (.raw cmd (text m.put))).message = .raw cmd (text m.put) := by cases a <;> rfl
    rw [hm]
    refine (decode_packet types reg _).1 cmd (text m.put) rfl _ ?_
    unfold unmarshalMessageOf
    rw [hu]
    simp only [hr, hv, if_true]

end

end
end Verif.Props.AdcOwn

namespace Verif.Props.AdcOwn

open Verif.Go Verif.Spec Verif.Adc Verif.Spec.AdcOwn Verif.Registry Verif.Props.AdcAnyMessage

/-! ## Examples -/

section examples

local instance : ParseFloat := ⟨fun s => if s = b!"1e2" then .whole 100 else if s = b!"1.5" then .fraction else .bad⟩
local instance : ParseFloat32 := ⟨fun s => if s = b!"3000000000" then .whole 3000000000 else .bad⟩

/-- A type of the caller with a method: a colour, three letters; it remembers what it was given even if it fails. -/
def colour : GoType := .own Bytes [] (fun s _ => (s, if s.length = 3 then .ok () else .err (.other 900)))

/-- A struct of the caller. -/
def poll : List Cell :=
  [⟨b!"#", true, .str, b!"old"⟩, ⟨b!"#", true, .int .i16, (7 : Int)⟩, ⟨b!"CO", true, colour, b!"red"⟩, ⟨b!"AN", true, .slice .str, [b!"x"]⟩,
   ⟨b!"TO", true, .ptr .str, none⟩, ⟨b!"-", false, .other Nat 0, (5 : Nat)⟩, ⟨[], false, .bool, true⟩, ⟨b!"UN", true, .other Nat 0, (9 : Nat)⟩]

/-- What is sent to it. -/
def pollFields : List AnyField :=
  [⟨b!"CO", false, some false, .one (Put.text b!"tan")⟩, ⟨b!"AN", false, some false, .many [Put.text b!"yes", Put.text b!"no"]⟩,
   ⟨b!"TO", false, some false, .one (Put.text b!"120")⟩]

example : (readFields poll (split b!"why? -40 COtan ANyes ANno TO120" c!" ")) =
    ([⟨b!"#", true, .str, b!"why?"⟩, ⟨b!"#", true, .int .i16, (-40 : Int)⟩, ⟨b!"CO", true, colour, b!"tan"⟩, ⟨b!"AN", true, .slice .str, [b!"yes", b!"no"]⟩,
      ⟨b!"TO", true, .ptr .str, some b!"120"⟩, ⟨b!"-", false, .other Nat 0, (5 : Nat)⟩, ⟨[], false, .bool, true⟩,
      ⟨b!"UN", true, .other Nat 0, (9 : Nat)⟩], .ok ()) := by
  with_unfolding_all rfl

/-- The third field fails: two have new values, its own was changed by its method, the others stay. -/
example : (readFields poll (split b!"why? -40 COblue ANyes" c!" ")) =
    ([⟨b!"#", true, .str, b!"why?"⟩, ⟨b!"#", true, .int .i16, (-40 : Int)⟩, ⟨b!"CO", true, colour, b!"blue"⟩, ⟨b!"AN", true, .slice .str, [b!"x"]⟩,
      ⟨b!"TO", true, .ptr .str, none⟩, ⟨b!"-", false, .other Nat 0, (5 : Nat)⟩, ⟨[], false, .bool, true⟩,
      ⟨b!"UN", true, .other Nat 0, (9 : Nat)⟩], .err (.other 900)) := by
  with_unfolding_all rfl

/-- An unsigned field is written, but not read. -/
example : (readFields [⟨b!"UN", true, .other Nat 0, (9 : Nat)⟩] (split b!"UN5" c!" ")).2 = .err (.other 103) := by with_unfolding_all rfl

/-- `int16` and `int32` are cut without an error. -/
example : (show Int × Res Unit from readValue b!"70000" (.int .i16) (1 : Int)) = (4464, .ok ()) := by decide +kernel
example : (show Int × Res Unit from readValue b!"3000000000" (.int .i32) (1 : Int)) = (-1294967296, .ok ()) := by decide +kernel
example : (show Int × Res Unit from readValue b!"1.5" (.int .i64) (1 : Int)) = (1, .ok ()) := by decide +kernel
example : (show Int × Res Unit from readValue b!"1e2" (.int .i64) (1 : Int)) = (100, .ok ()) := by decide +kernel
example : (show Int × Res Unit from readValue b!"x" (.int .i32) (1 : Int)) = (1, .err errSyntax) := by decide +kernel

/-- A text for a field that is not exported. -/
example : (readFields [⟨b!"AB", false, .str, b!"v"⟩] [b!"ABx"]).2 = .panic ∧ (readFields [⟨b!"AB", false, .str, b!"v"⟩] [b!"CDx"]).2 = .ok () :=
  ⟨by with_unfolding_all rfl, by with_unfolding_all rfl⟩

example := unexported_panics ⟨b!"AB", false, .str, b!"v"⟩ [b!"ABx"] rfl (by decide) (by decide) (by decide)

theorem text_plain (b : Bytes) : Plain (Put.text b) := fun buf => by simp [Put.text]

/-- The hypotheses of `received` hold for the poll. -/
example (cs' : List Cell) := received [Put.text b!"why?", Put.text b!"-40"] pollFields (poll.take 2) [⟨b!"CO", true, colour, b!"red"⟩] cs' 2 (by decide)
  (by intro f hf _ _; simp only [pollFields, List.mem_cons, List.not_mem_nil, or_false] at hf; rcases hf with rfl | rfl | rfl <;> simp)
  (by intro f hf; simp only [pollFields, List.mem_cons, List.not_mem_nil, or_false] at hf; rcases hf with rfl | rfl | rfl <;> decide)
  (by intro g hg; simp only [List.mem_cons, List.not_mem_nil, or_false] at hg; rcases hg with rfl | rfl <;> exact ⟨text_plain _, rfl, by decide⟩)
  (by
    intro x hx
    have : shown pollFields = [(b!"CO", Put.text b!"tan"), (b!"AN", Put.text b!"yes"), (b!"AN", Put.text b!"no"), (b!"TO", Put.text b!"120")] := by
      simp [shown, pollFields]
    rw [this] at hx
    simp only [List.mem_cons, List.not_mem_nil, or_false] at hx
    rcases hx with rfl | rfl | rfl | rfl <;> exact ⟨text_plain _, rfl, by decide⟩)
  (by intro c hc; simp only [poll, List.take_succ_cons, List.take_zero, List.mem_cons, List.not_mem_nil, or_false] at hc; rcases hc with rfl | rfl <;> rfl)
  rfl
  (by intro c hc; simp only [List.mem_cons, List.not_mem_nil, or_false] at hc; subst hc; decide)

/-- Types of the caller: the poll, and one that has `Cmd` only on the pointer. -/
def pollTypes : Bool → OwnType
  | true => ⟨.struct [⟨b!"#", true, .str, b!""⟩, ⟨b!"CO", true, colour, b!""⟩], true⟩
  | false => ⟨.own Bytes (fun s _ => (s, .ok ())) [], false⟩

def pollReg : Reg MsgType (Msg ⊕ Bool) :=
  [(⟨b!"POL", rfl⟩, .inr true), (⟨b!"PTR", rfl⟩, .inr false)] ++ (adcInit.flatten.map adcCall).reverse

example : unmarshalMessageOf pollTypes pollReg ⟨b!"POL", rfl⟩ b!"why? COtan" =
    .ok (.own true (.struct [⟨b!"#", true, .str, b!"why?"⟩, ⟨b!"CO", true, colour, b!"tan"⟩])) := by with_unfolding_all rfl
example : unmarshalMessageOf pollTypes pollReg ⟨b!"PTR", rfl⟩ b!"x" = .panic := by with_unfolding_all rfl
example : unmarshalMessageOf pollTypes pollReg ⟨b!"ZZZ", rfl⟩ b!"x" = .ok (.lib (.raw ⟨b!"ZZZ", rfl⟩ b!"x")) := by
  with_unfolding_all rfl

end examples

end Verif.Props.AdcOwn
