import Verif.Adc.Left
import Verif.Spec.AdcLeft
import Verif.Props.AdcWire
import Verif.Props.HashVar

/-!
# Lemmas about the receiver of `Unmarshal`
-/

namespace Verif.Adc

open Verif.Go Verif.Tiger Verif.Spec.AdcWire Verif.Spec.AdcLeft
open Verif.Spec (IsNumeral IsDigit SignedNumeral)

set_option linter.unusedSectionVars false

/-! ## Numbers beside an error -/

theorem parseUintLoop_range (s : Bytes) : ∀ n : Nat, n ≤ maxU64 → (parseUintLoop maxU64 s n = .err errRange ↔
    ∃ p t, s = p ++ t ∧ (∀ b ∈ p, IsDigit b) ∧ 2 ^ 64 ≤ p.foldl (fun n (b : Byte) => 10 * n + (b.toNat - 48)) n) := by
  induction s with
  | nil =>
    intro n hn
    simp only [parseUintLoop, reduceCtorEq, false_iff]
    rintro ⟨p, t, h, -, h2⟩
    obtain ⟨rfl, -⟩ := List.append_eq_nil_iff.mp h.symm
    simp only [List.foldl_nil] at h2
    unfold maxU64 at hn; omega
  | cons c s ih =>
    intro n hn
    simp only [parseUintLoop]
    by_cases hd : c < c!"0" ∨ c > c!"9"
    · rw [if_pos hd]
      have : (Res.err errSyntax : Res Nat) ≠ .err errRange := by decide
      simp only [this, false_iff]
      rintro ⟨p, t, h, h1, h2⟩
      cases p with
      | nil => simp only [List.foldl_nil] at h2; unfold maxU64 at hn; omega
      | cons b p =>
        simp only [List.cons_append, List.cons.injEq] at h
        exact digit_iff.mpr (h1 b (by simp)) (h.1 ▸ hd)
    · rw [if_neg hd]
      have hdig := digit_iff.mp hd
      have h9 := digit_le hdig
      have hsub := digit_sub hdig
      by_cases hbig : n ≥ maxU64 / 10 + 1
      · rw [if_pos hbig]
        simp only [true_iff]
        refine ⟨[c], s, rfl, by simpa using hdig, ?_⟩
        simp only [List.foldl_cons, List.foldl_nil]
        unfold maxU64 at hbig; omega
      · rw [if_neg hbig, hsub]
        by_cases ho : (n * 10 + (c.toNat - 48)) % (maxU64 + 1) < n * 10 ∨ (n * 10 + (c.toNat - 48)) % (maxU64 + 1) > maxU64
        · rw [if_pos ho]
          simp only [true_iff]
          refine ⟨[c], s, rfl, by simpa using hdig, ?_⟩
          simp only [List.foldl_cons, List.foldl_nil]
          unfold maxU64 at *; omega
        · rw [if_neg ho]
          have e : (n * 10 + (c.toNat - 48)) % (maxU64 + 1) = 10 * n + (c.toNat - 48) := by unfold maxU64 at *; omega
          rw [e, ih _ (by unfold maxU64 at *; omega)]
          constructor
          · rintro ⟨p, t, rfl, h1, h2⟩
            refine ⟨c :: p, t, rfl, ?_, h2⟩
            simp only [List.mem_cons]
            rintro b (rfl | hb)
            · exact hdig
            · exact h1 b hb
          · rintro ⟨p, t, h, h1, h2⟩
            cases p with
            | nil => simp only [List.foldl_nil] at h2; unfold maxU64 at hn; omega
            | cons b p =>
              simp only [List.cons_append, List.cons.injEq] at h
              obtain ⟨rfl, rfl⟩ := h
              exact ⟨p, t, rfl, fun b hb => h1 b (by simp [hb]), h2⟩

theorem parseUint_range (s : Bytes) : parseUint s 64 = .err errRange ↔ ∃ p t, s = p ++ t ∧ IsNumeral p ∧ 2 ^ 64 ≤ Spec.value p := by
  unfold parseUint
  split
  · rename_i h
    subst h
    have : (Res.err errSyntax : Res Nat) ≠ .err errRange := by decide
    simp only [this, false_iff]
    rintro ⟨p, t, h, h1, -⟩
    exact h1.1 (List.append_eq_nil_iff.mp h.symm).1
  · rw [show (2 ^ 64 - 1 : Nat) = maxU64 from rfl, parseUintLoop_range s 0 (by unfold maxU64; omega)]
    constructor
    · rintro ⟨p, t, h, h1, h2⟩
      refine ⟨p, t, h, ⟨?_, h1⟩, h2⟩
      rintro rfl
      simp at h2
    · rintro ⟨p, t, h, h1, h2⟩
      exact ⟨p, t, h, h1.2, h2⟩

/-- The part after the sign. -/
theorem parseInt_range_aux (d : Bytes) (q : Nat → Bool) (f : Nat → Int) (hq : ∀ n, q n = true → 2 ^ 63 ≤ n)
    (hno : ∀ u, parseUint d 64 = .ok u → q u = true) :
    ((parseUint d 64 >>= fun un => if q un = true then Res.err errRange else .ok (f un)) = .err errRange ↔
      (IsNumeral d ∧ 2 ^ 63 ≤ Spec.value d) ∨ ∃ p t, d = p ++ t ∧ IsNumeral p ∧ 2 ^ 64 ≤ Spec.value p) := by
  cases h : parseUint d 64 with
  | ok u =>
    simp only [Res.ok_bind]
    rw [if_pos (hno u h)]
    have h' := (parseUint_ok (Nat.le_refl 64)).mp h
    simp only [true_iff]
    exact .inl ⟨h'.1, by rw [h'.2.1]; exact hq u (hno u h)⟩
  | panic => exact absurd h (parseUint_ne_panic d 64)
  | err e =>
    simp only [Res.err_bind, Res.err.injEq]
    constructor
    · rintro rfl; exact .inr ((parseUint_range d).mp h)
    · rintro (⟨h1, h2⟩ | h')
      · by_cases hl : Spec.value d < 2 ^ 64
        · rw [(parseUint_ok (Nat.le_refl 64)).mpr ⟨h1, rfl, hl⟩] at h; cases h
        · have := (parseUint_range d).mpr ⟨d, [], by simp, h1, by omega⟩
          rw [h] at this; exact Res.err.inj this
      · have := (parseUint_range d).mpr h'
        rw [h] at this; exact Res.err.inj this

theorem parseInt_range {s : Bytes} {e : Err} (he : parseInt s 64 = .err e) : parseInt s 64 = .err errRange ↔ TooLarge s := by
  cases s with
  | nil =>
    have : parseInt [] 64 ≠ .err errRange := by decide
    simp only [this, false_iff]
    rintro (⟨h, -⟩ | ⟨p, t, h, h1, -⟩)
    · exact h.1 rfl
    · exact h1.1 (List.append_eq_nil_iff.mp h.symm).1
  | cons c t =>
    unfold parseInt at he ⊢
    simp only at he ⊢
    by_cases h1 : c = c!"-"
    · have hu : unsigned (c :: t) = t := by simp [unsigned, h1]
      rw [if_pos h1] at he ⊢
      unfold TooLarge
      rw [hu]
      have := parseInt_range_aux t (fun n => decide (n > 2 ^ 63)) (fun n => -(n : Int)) (fun n h => by simp at h; omega) (fun u hu => by
        rw [hu] at he
        simp only [Res.ok_bind] at he
        split at he
        · simpa using ‹_›
        · cases he)
      simpa using this
    · rw [if_neg h1] at he ⊢
      have hu : unsigned (c :: t) = if c = c!"+" then t else c :: t := by simp [unsigned, h1]
      unfold TooLarge
      rw [hu]
      have := parseInt_range_aux (if c = c!"+" then t else c :: t) (fun n => decide (n ≥ 2 ^ 63)) (fun n => (n : Int))
        (fun n h => by simpa using h) (fun u hu => by
          rw [hu] at he
          simp only [Res.ok_bind] at he
          split at he
          · simpa using ‹_›
          · cases he)
      simpa using this

theorem beside_left {s : Bytes} {e : Err} (he : parseInt s 64 = .err e) : LeftNumber s (parseIntBeside s) := by
  unfold LeftNumber parseIntBeside
  rw [← parseInt_range he]
  constructor
  · intro h; rw [if_pos h]
  · intro h; rw [if_neg h]

/-! ## Values and fields -/

theorem value_assigned {α : Type} (cur : α) (r : Res α) : value (assigned cur r) = r := by cases r <;> rfl

theorem assigned_err {α : Type} (cur : α) (r : Res α) (h : (assigned cur r).2 ≠ .ok ()) : (assigned cur r).1 = cur := by
  cases r with
  | ok => exact absurd rfl h
  | err => rfl
  | panic => rfl

theorem value_ok {α : Type} {x : α × Res Unit} {v : α} : value x = .ok v ↔ x = (v, .ok ()) := by
  obtain ⟨a, r⟩ := x
  cases r with
  | ok u => simp [value]
  | err e => simp [value]
  | panic => simp [value]

/-- The outcome of a call whose value is looked at only if it succeeds. -/
def outcome {α : Type} : Res α → Res Unit
  | .ok _ => .ok ()
  | .err e => .err e
  | .panic => .panic

theorem outcome_value {α : Type} (x : α × Res Unit) : outcome (value x) = x.2 := by
  obtain ⟨a, r⟩ := x
  cases r <;> rfl

theorem pathLoop_fill (arr : List Bytes) : ∀ p : Path, Path.fillLoop p arr = (p ++ arr.map unescape, .ok ()) := by
  induction arr with
  | nil => intro p; simp [Path.fillLoop]
  | cons a arr ih => intro p; simp [Path.fillLoop, String.unmarshal, ih]

section
variable [ParseFloat]

theorem fillValue_value (s : Bytes) (k : Kind) (cur : k.T) : value (fillValue s k cur) = unmarshalValue s k cur := by
  cases k with
  | tth =>
    show value (Hash.setBuffer cur s) = Hash.unmarshalBase32 s
    have hout := Props.HashVar.setBuffer_outcome cur s
    cases hu : Hash.unmarshalBase32 s with
    | ok x => rw [(Props.HashVar.buffer_set cur s).1 x ((Props.Identifiers.hash_buffer_exact s x).mp hu)]; rfl
    | err e =>
      rw [hu] at hout
      generalize Hash.setBuffer cur s = y at hout
      obtain ⟨v, r⟩ := y
      cases hout; rfl
    | panic =>
      rw [hu] at hout
      generalize Hash.setBuffer cur s = y at hout
      obtain ⟨v, r⟩ := y
      cases hout; rfl
  | path =>
    exact (congrArg value (pathLoop_fill (split s c!"/") cur)).trans (path_loop cur (split s c!"/")).symm
  | _ => exact value_assigned _ _

theorem fillValue_left (s : Bytes) (k : Kind) (cur : k.T) (h : (fillValue s k cur).2 ≠ .ok ()) : LeftVal k cur s (fillValue s k cur).1 := by
  cases k with
  | tth =>
    have hx : ¬ ∃ x, Spec.Base32.Names s x := by
      rintro ⟨x, hx⟩
      have := Props.HashVar.names_size hx
      exact h (congrArg Prod.snd ((Props.HashVar.buffer_set cur s).1 ⟨x, this⟩ hx))
    obtain ⟨-, bs, h1, h2, h3, h4⟩ := (Props.HashVar.buffer_set cur s).2.1 hx
    exact ⟨bs, h1, h2, h3, h4⟩
  | path =>
    exact absurd (congrArg Prod.snd (pathLoop_fill (split s c!"/") cur)) h
  | _ => exact assigned_err _ _ h

theorem fillTagged_value (vals : List Bytes) (k : Kind) (cur : k.T) : value (fillTagged vals k cur) = unmarshalTagged vals k cur := by
  cases vals with
  | nil => cases k <;> rfl
  | cons v rest =>
    cases k with
    | slice k => exact value_assigned cur (unmarshalSlice k (v :: rest))
    | _ =>
      simp only [fillTagged, unmarshalTagged]
      repeat' split
      all_goals first | exact fillValue_value _ _ _ | rfl

theorem fillTagged_left (vals : List Bytes) (k : Kind) (cur : k.T) (h : (fillTagged vals k cur).2 ≠ .ok ()) :
    LeftField k cur vals (fillTagged vals k cur).1 := by
  cases vals with
  | nil => cases k <;> exact absurd rfl h
  | cons v rest =>
    have one : (∀ k', k ≠ .slice k') → fillTagged (v :: rest) k cur = if k.custom then fillValue v k cur
        else if rest.length > 0 then (cur, .err (.other 104)) else fillValue v k cur := by
      intro hk
      cases k <;> first | rfl | exact absurd rfl (hk _)
    show LeftVal k cur v _
    by_cases hk : ∃ k', k = .slice k'
    · obtain ⟨k', rfl⟩ := hk
      exact assigned_err cur (unmarshalSlice k' (v :: rest)) h
    · rw [one (fun k' h => hk ⟨k', h⟩)] at h ⊢
      split
      · rename_i hc; rw [if_pos hc] at h; exact fillValue_left _ _ _ h
      · rename_i hc
        rw [if_neg hc] at h
        split
        · rename_i hr
          cases k <;> first | rfl | exact absurd rfl hc
        · rename_i hr; rw [if_neg hr] at h; exact fillValue_left _ _ _ h

theorem fillFields_value : ∀ (fs : List Fld) (sub : List Bytes) (cur : Row fs), value (fillFields fs sub cur) = unmarshalFields fs sub cur := by
  intro fs
  induction fs with
  | nil => intro sub cur; rfl
  | cons f fs ih =>
    intro sub cur
    obtain ⟨cur, curs⟩ := cur
    have step : ∀ (x : f.kind.T × Res Unit) (sub : List Bytes), value (match x with
        | (x, .ok _) => (((x, (fillFields fs sub curs).1) : Row (f :: fs)), (fillFields fs sub curs).2)
        | (x, r) => ((x, curs), r)) = (do let x ← value x; let rest ← unmarshalFields fs sub curs; .ok (x, rest)) := by
      intro x sub
      obtain ⟨x, r⟩ := x
      cases r with
      | ok u =>
        simp only [value, Res.ok_bind]
        rw [← ih]
        generalize fillFields fs sub curs = y
        obtain ⟨a, r⟩ := y
        cases r <;> rfl
      | err e => rfl
      | panic => rfl
    simp only [fillFields, unmarshalFields]
    by_cases ht : f.tag = b!"#"
    · rw [if_pos ht, if_pos ht]
      cases sub with
      | nil => rfl
      | cons v sub =>
        simp only
        rw [← fillValue_value]
        exact step _ sub
    · rw [if_neg ht, if_neg ht, ← fillTagged_value]
      exact step _ sub

theorem leftRow_pos {f : Fld} {fs : List Fld} (ht : f.tag = b!"#") {s : Bytes} {rest : List Bytes} {cur v : f.kind.T} {curs row : Row fs}
    (h : ((¬ ∃ x, Reads f.kind cur s x) ∧ LeftVal f.kind cur s v ∧ row = curs) ∨ (Reads f.kind cur s v ∧ LeftRow fs rest curs row)) :
    LeftRow (f :: fs) (s :: rest) (cur, curs) (v, row) := by
  have hp : presence f = .positional := by simp [presence, ht]
  simp only [LeftRow]
  rw [hp]
  exact h

theorem leftRow_none {f : Fld} {fs : List Fld} (ht : f.tag = b!"#") {cur : f.kind.T} {curs : Row fs} :
    LeftRow (f :: fs) [] (cur, curs) (cur, curs) := by
  have hp : presence f = .positional := by simp [presence, ht]
  simp only [LeftRow]
  rw [hp]
  exact ⟨trivial, trivial⟩

theorem leftRow_named {f : Fld} {fs : List Fld} (ht : f.tag ≠ b!"#") {parts : List Bytes} {cur v : f.kind.T} {curs row : Row fs}
    (h : ((¬ ∃ x, ReadsField f.kind cur (valuesOf f.tag parts) x) ∧ LeftField f.kind cur (valuesOf f.tag parts) v ∧ row = curs) ∨
      (ReadsField f.kind cur (valuesOf f.tag parts) v ∧ LeftRow fs parts curs row)) :
    LeftRow (f :: fs) parts (cur, curs) (v, row) := by
  simp only [LeftRow]
  cases hp : presence f with
  | positional => unfold presence at hp; rw [if_neg ht] at hp; split at hp <;> cases hp
  | always => exact h
  | optional => exact h

theorem fillFields_left : ∀ (fs : List Fld) (sub : List Bytes) (cur : Row fs), (∀ f ∈ fs, f.tag = b!"#" ∨ f.tag.length = 2) →
    (fillFields fs sub cur).2 ≠ .ok () → LeftRow fs sub cur (fillFields fs sub cur).1 := by
  intro fs
  induction fs with
  | nil => intro sub cur _ h; exact absurd rfl h
  | cons f fs ih =>
    intro sub cur hg h
    obtain ⟨cur, curs⟩ := cur
    have hg' : ∀ f ∈ fs, f.tag = b!"#" ∨ f.tag.length = 2 := fun f hf => hg f (List.mem_cons_of_mem _ hf)
    by_cases ht : f.tag = b!"#"
    · cases sub with
      | nil =>
        have e : fillFields (f :: fs) [] (cur, curs) = ((cur, curs), .panic) := by simp only [fillFields]; rw [if_pos ht]; rfl
        rw [e]
        exact leftRow_none ht
      | cons v sub =>
        have e : fillFields (f :: fs) (v :: sub) (cur, curs) = (match fillValue v f.kind cur with
            | (x, .ok _) => ((x, (fillFields fs sub curs).1), (fillFields fs sub curs).2)
            | (x, r) => ((x, curs), r)) := by simp only [fillFields]; rw [if_pos ht]; rfl
        rw [e] at h ⊢
        have hv := fillValue_value v f.kind cur
        have hl := fillValue_left v f.kind cur
        generalize fillValue v f.kind cur = y at h hv hl ⊢
        obtain ⟨x, r⟩ := y
        cases r with
        | ok u => exact leftRow_pos ht (.inr ⟨(reads_iff v f.kind cur x).mp hv.symm, ih sub curs hg' h⟩)
        | err e =>
          refine leftRow_pos ht (.inl ⟨?_, hl (by simp), rfl⟩)
          rintro ⟨y, hy⟩; rw [← reads_iff, ← hv] at hy; cases hy
        | panic =>
          refine leftRow_pos ht (.inl ⟨?_, hl (by simp), rfl⟩)
          rintro ⟨y, hy⟩; rw [← reads_iff, ← hv] at hy; cases hy
    · have h2 : f.tag.length = 2 := (hg f (by simp)).resolve_left ht
      have e : fillFields (f :: fs) sub (cur, curs) = (match fillTagged (taggedVals f.tag sub) f.kind cur with
          | (x, .ok _) => ((x, (fillFields fs sub curs).1), (fillFields fs sub curs).2)
          | (x, r) => ((x, curs), r)) := by simp only [fillFields]; rw [if_neg ht]; rfl
      rw [e] at h ⊢
      rw [taggedVals_eq f.tag h2] at h ⊢
      have hv := fillTagged_value (valuesOf f.tag sub) f.kind cur
      have hl := fillTagged_left (valuesOf f.tag sub) f.kind cur
      generalize fillTagged (valuesOf f.tag sub) f.kind cur = y at h hv hl ⊢
      obtain ⟨x, r⟩ := y
      cases r with
      | ok u => exact leftRow_named ht (.inr ⟨(readsField_iff f.kind cur x _).mp hv.symm, ih sub curs hg' h⟩)
      | err e =>
        refine leftRow_named ht (.inl ⟨?_, hl (by simp), rfl⟩)
        rintro ⟨y, hy⟩; rw [← readsField_iff, ← hv] at hy; cases hy
      | panic =>
        refine leftRow_named ht (.inl ⟨?_, hl (by simp), rfl⟩)
        rintro ⟨y, hy⟩; rw [← readsField_iff, ← hv] at hy; cases hy

end

end Verif.Adc
