import Verif.Props.AdcSafety
import Verif.Props.AdcWire
import Verif.Props.NmdcPanics

/-!
# Exactly which ADC lines make the decoder panic (C45)

`AdcSafety` gives sufficient conditions and examples; here they are made exact.
-/

namespace Verif.Props.AdcPanics

open Verif.Go Verif.Adc Verif.Tiger Verif.Spec Verif.Spec.AdcWire Verif.Props.AdcSafety Verif.Props.AdcPackets
open Verif.Props.NmdcPanics (Overfull bind_eq_panic)

/-! ## Specification -/

/-- A text that is accepted as a number. -/
def Number [ParseFloat] (s : Bytes) : Prop := ∃ v, ReadsInt 0 s v

/-- Payloads of a command that make its decoder panic.

* `RCM` and `GFI` need two parts;
* `CTM` needs three parts; its second part is read before the third is missed;
* the hash of `PAS` is too long;
* the hash of `SCH` or `RES` is too long, and the fields before it are given at most once and can be read. -/
def FatalPayload [ParseFloat] (cmd data : Bytes) : Prop :=
  ((cmd = b!"RCM" ∨ cmd = b!"GFI") ∧ c!" " ∉ data) ∨
  (cmd = b!"CTM" ∧ (c!" " ∉ data ∨ ∃ a p, c!" " ∉ a ∧ c!" " ∉ p ∧ data = a ++ b!" " ++ p ∧ Number p)) ∨
  (cmd = b!"PAS" ∧ ∃ s ps, Parts c!" " data (s :: ps) ∧ Overfull s) ∨
  (cmd = b!"SCH" ∧ ∃ ps, Parts c!" " data ps ∧ (valuesOf b!"TO" ps).length ≤ 1 ∧
    (∀ tag ∈ [b!"LE", b!"GE", b!"EQ", b!"TY"], (valuesOf tag ps).length ≤ 1 ∧ ∀ s ∈ valuesOf tag ps, Number s) ∧
    ∃ s, valuesOf b!"TR" ps = [s] ∧ Overfull s) ∨
  (cmd = b!"RES" ∧ ∃ ps, Parts c!" " data ps ∧ (∀ tag ∈ [b!"TO", b!"FN"], (valuesOf tag ps).length ≤ 1) ∧
    (∀ tag ∈ [b!"SI", b!"SL"], (valuesOf tag ps).length ≤ 1 ∧ ∀ s ∈ valuesOf tag ps, Number s) ∧
    ∃ s, valuesOf b!"TR" ps = [s] ∧ Overfull s)

/-- Complete selectors and spaces. -/
inductive Selectors : Bytes → Prop where
  | nil : Selectors []
  | space {t : Bytes} (h : Selectors t) : Selectors (c!" " :: t)
  | sel {c : Byte} {f t : Bytes} (hc : c = c!"+" ∨ c = c!"-") (hf : f.length = 4) (h : Selectors t) : Selectors (c :: (f ++ t))

/-- The text after the address of a feature packet makes the decoder panic: a selector is cut off by the end of the line and there
is not enough room after it to quote five bytes; `room` is the capacity after the line. -/
def FatalSelectors (room : Nat) (s : Bytes) : Prop :=
  ∃ pre c rest, Selectors pre ∧ (c = c!"+" ∨ c = c!"-") ∧ s = pre ++ c :: rest ∧ rest.length + room < 3

/-- A feature packet with such a text: kind, command, address, text, line end; there are no zero bytes.  In bytes that are not one
line there may be a newline for a space; before the address it then counts as part of it. -/
def FatalPacket (room : Nat) (p : Bytes) : Prop :=
  ∃ cmd gap id sep s, cmd.length = 3 ∧ id.length = 4 ∧ (gap = b!" " ∨ (gap = [] ∧ id.head? = some c!"\n")) ∧ (sep = b!" " ∨ sep = b!"\n") ∧
    p = b!"F" ++ cmd ++ gap ++ id ++ sep ++ s ++ b!"\n" ∧ (0 : Byte) ∉ p ∧ FatalSelectors room s

variable [ParseFloat]

/-! ## Fields -/

theorem int_ok' {s : Bytes} {cur : Int} : (∃ v, unmarshalValue s .int cur = .ok v) ↔ Number s := by
  have e : ∀ v : Int, unmarshalValue s .int cur = .ok v ↔ ReadsInt cur s v := fun v => readsInt_iff s cur v
  constructor
  · rintro ⟨v, h⟩
    have h := (e v).mp h
    unfold ReadsInt at h
    unfold Number ReadsInt
    split at h
    · exact ⟨0, by simp [*]⟩
    · rename_i hs
      rcases h with h | ⟨h1, h2 | ⟨h2, -⟩⟩
      · exact ⟨v, by rw [if_neg hs]; exact .inl h⟩
      · exact ⟨v, by rw [if_neg hs]; exact .inr ⟨h1, .inl h2⟩⟩
      · exact ⟨0, by rw [if_neg hs]; exact .inr ⟨h1, .inr ⟨h2, rfl⟩⟩⟩
  · rintro ⟨v, h⟩
    unfold ReadsInt at h
    split at h
    · exact ⟨(0 : Int), (e 0).mpr (by simp [ReadsInt, *])⟩
    · rename_i hs
      rcases h with h | ⟨h1, h2 | ⟨h2, -⟩⟩
      · exact ⟨v, (e v).mpr (by rw [ReadsInt, if_neg hs]; exact .inl h)⟩
      · exact ⟨v, (e v).mpr (by rw [ReadsInt, if_neg hs]; exact .inr ⟨h1, .inl h2⟩)⟩
      · exact ⟨cur, (e cur).mpr (by rw [ReadsInt, if_neg hs]; exact .inr ⟨h1, .inr ⟨h2, rfl⟩⟩)⟩

theorem int_ok {s : Bytes} {cur : Kind.int.T} : (∃ v, unmarshalValue s .int cur = .ok v) ↔ Number s := int_ok'

theorem str_ok {s : Bytes} {cur : Kind.str.T} : ∃ v, unmarshalValue s .str cur = .ok v := by
  show ∃ x, (if s.length = 0 then Res.ok ([] : Bytes) else .ok (unescape s)) = .ok x
  split <;> exact ⟨_, rfl⟩

/-- How reading ends, apart from the value. -/
def shape {α : Type} : Res α → Option Bool
  | .ok _ => some true
  | .err _ => some false
  | .panic => none

omit [ParseFloat] in
theorem shape_panic {α : Type} {r : Res α} : shape r = none ↔ r = .panic := by cases r <;> simp [shape]

omit [ParseFloat] in
theorem shape_ok {α : Type} {r : Res α} : shape r = some true ↔ ∃ v, r = .ok v := by cases r <;> simp [shape]

/-- How a value is read does not depend on the old one. -/
theorem value_shape (s : Bytes) (k : Kind) (cur cur' : k.T) : shape (unmarshalValue s k cur) = shape (unmarshalValue s k cur') := by
  cases k with
  | sid => rfl
  | cid => rfl
  | tth => rfl
  | str => rfl
  | ptr => rfl
  | bool => rfl
  | slice => rfl
  | int =>
    show shape (if s.length = 0 then Res.ok (0 : Int) else unmarshalInt s cur) = shape (if s.length = 0 then Res.ok (0 : Int) else unmarshalInt s cur')
    unfold unmarshalInt
    repeat' split
    all_goals simp_all [shape]
  | feats =>
    show shape (ExtFeatures.unmarshal s cur) = shape (ExtFeatures.unmarshal s cur')
    unfold ExtFeatures.unmarshal
    split <;> rfl
  | path =>
    show shape (Path.unmarshalLoop cur (split s c!"/")) = shape (Path.unmarshalLoop cur' (split s c!"/"))
    have e : ∀ c : Path, shape (Path.unmarshalLoop c (split s c!"/")) = some true := fun c => by rw [path_loop]; rfl
    exact (e cur).trans (e cur').symm

theorem tagged_shape (vals : List Bytes) (k : Kind) (cur cur' : k.T) : shape (unmarshalTagged vals k cur) = shape (unmarshalTagged vals k cur') := by
  by_cases hs : ∃ k', k = .slice k'
  · obtain ⟨k', rfl⟩ := hs
    show shape (if vals.length > 0 then unmarshalSlice k' vals else .ok cur) = shape (if vals.length > 0 then unmarshalSlice k' vals else .ok cur')
    split <;> rfl
  · cases vals with
    | nil => rw [unmarshalTagged_nil, unmarshalTagged_nil]; rfl
    | cons s rest =>
      have e : ∀ cur : k.T, unmarshalTagged (s :: rest) k cur =
          if k.custom then unmarshalValue s k cur else if rest.length > 0 then .err (.other 104) else unmarshalValue s k cur := by
        intro cur
        cases k <;> first | rfl | exact absurd ⟨_, rfl⟩ hs
      rw [e, e]
      split
      · exact value_shape _ _ _ _
      · split
        · rfl
        · exact value_shape _ _ _ _

/-- Where reading fields panics. -/
def PanicAt : List Fld → List Bytes → Prop
  | [], _ => False
  | f :: fs, ps =>
    if f.tag = b!"#" then
      match ps with
      | [] => True
      | s :: rest => unmarshalValue s f.kind f.kind.zero = .panic ∨ ((∃ v, unmarshalValue s f.kind f.kind.zero = .ok v) ∧ PanicAt fs rest)
    else
      unmarshalTagged (valuesOf f.tag ps) f.kind f.kind.zero = .panic ∨
        ((∃ v, unmarshalTagged (valuesOf f.tag ps) f.kind f.kind.zero = .ok v) ∧ PanicAt fs ps)

theorem fields_panic : ∀ (fs : List Fld) (ps : List Bytes) (row : Row fs), (∀ f ∈ fs, f.tag = b!"#" ∨ f.tag.length = 2) →
    (unmarshalFields fs ps row = .panic ↔ PanicAt fs ps) := by
  intro fs
  induction fs with
  | nil => intro ps row _; simp [unmarshalFields, PanicAt]
  | cons f fs ih =>
    rintro ps ⟨cur, row⟩ hl
    have ih' := fun ps => ih ps row (fun g hg => hl g (by simp [hg]))
    by_cases hf : f.tag = b!"#"
    · cases ps with
      | nil => simp [unmarshalFields, PanicAt, if_pos hf]
      | cons s rest =>
        simp only [unmarshalFields, PanicAt, if_pos hf, bind_eq_panic, reduceCtorEq, and_false, exists_false, or_false]
        have hv := value_shape s f.kind cur f.kind.zero
        have h1 : unmarshalValue s f.kind cur = .panic ↔ unmarshalValue s f.kind f.kind.zero = .panic := by rw [← shape_panic, hv, shape_panic]
        have h2 : (∃ v, unmarshalValue s f.kind cur = .ok v) ↔ ∃ v, unmarshalValue s f.kind f.kind.zero = .ok v := by rw [← shape_ok, hv, shape_ok]
        rw [← ih', h1, ← h2]
        grind
    · have hl' : f.tag.length = 2 := (hl f (by simp)).resolve_left hf
      simp only [unmarshalFields, PanicAt, if_neg hf, bind_eq_panic, reduceCtorEq, and_false, exists_false, or_false, taggedVals_eq _ hl']
      have hv := tagged_shape (valuesOf f.tag ps) f.kind cur f.kind.zero
      have h1 : unmarshalTagged (valuesOf f.tag ps) f.kind cur = .panic ↔ unmarshalTagged (valuesOf f.tag ps) f.kind f.kind.zero = .panic := by
        rw [← shape_panic, hv, shape_panic]
      have h2 : (∃ v, unmarshalTagged (valuesOf f.tag ps) f.kind cur = .ok v) ↔ ∃ v, unmarshalTagged (valuesOf f.tag ps) f.kind f.kind.zero = .ok v := by
        rw [← shape_ok, hv, shape_ok]
      rw [← ih', h1, ← h2]
      grind

theorem tagged_not {vals : List Bytes} {k : Kind} (hk : noHash k = true) {cur : k.T} : unmarshalTagged vals k cur ≠ .panic :=
  tagged_ne_panic k cur vals (fun _ _ => .inl hk)

theorem str_tagged {vals : List Bytes} {cur : Kind.str.T} : (∃ v, unmarshalTagged vals .str cur = .ok v) ↔ vals.length ≤ 1 := by
  cases vals with
  | nil => exact ⟨fun _ => by simp, fun _ => ⟨cur, rfl⟩⟩
  | cons s rest =>
    have e : unmarshalTagged (s :: rest) .str cur = if rest.length > 0 then .err (.other 104) else unmarshalValue s .str cur := rfl
    rw [e]
    cases rest with
    | nil => simpa using str_ok
    | cons => simp

theorem int_tagged {vals : List Bytes} {cur : Kind.int.T} : (∃ v, unmarshalTagged vals .int cur = .ok v) ↔
    vals.length ≤ 1 ∧ ∀ s ∈ vals, Number s := by
  cases vals with
  | nil => exact ⟨fun _ => by simp, fun _ => ⟨cur, rfl⟩⟩
  | cons s rest =>
    have e : unmarshalTagged (s :: rest) .int cur = if rest.length > 0 then .err (.other 104) else unmarshalValue s .int cur := rfl
    rw [e]
    cases rest with
    | nil => simpa using int_ok
    | cons => simp

theorem slice_tagged {vals : List Bytes} {cur : (Kind.slice .str).T} : ∃ v, unmarshalTagged vals (.slice .str) cur = .ok v := by
  have key : ∀ vals : List Bytes, ∃ v, unmarshalSlice .str vals = .ok v := by
    intro vals
    induction vals with
    | nil => exact ⟨_, rfl⟩
    | cons s rest ih =>
      obtain ⟨v, hv⟩ := str_ok (s := s) (cur := Kind.zero .str)
      obtain ⟨vs, hvs⟩ := ih
      exact ⟨v :: vs, by rw [unmarshalSlice, hv, hvs]; rfl⟩
  show ∃ v, (if vals.length > 0 then unmarshalSlice .str vals else .ok cur) = .ok v
  split
  · exact key vals
  · exact ⟨_, rfl⟩

omit [ParseFloat] in
theorem overfull_ne {s : Bytes} (h : Overfull s) : s ≠ [] := by
  rintro rfl; have := h.1; simp at this

omit [ParseFloat] in
theorem hash_panic {s : Bytes} : Hash.unmarshalBase32 s = .panic ↔ Overfull s := Identifiers.unmarshalBase32_panic_iff s

theorem hash_tagged {vals : List Bytes} {cur : (Kind.ptr .tth).T} : unmarshalTagged vals (.ptr .tth) cur = .panic ↔
    ∃ s, vals = [s] ∧ Overfull s := by
  cases vals with
  | nil => constructor
           · intro h; cases h
           · rintro ⟨s, h, -⟩; cases h
  | cons s rest =>
    have e : unmarshalTagged (s :: rest) (.ptr .tth) cur = if rest.length > 0 then .err (.other 104) else
      if s.length = 0 then .ok (none : Option Hash) else (Hash.unmarshalBase32 s).bind (fun v => .ok (some v)) := rfl
    rw [e]
    cases rest with
    | cons => simp
    | nil =>
      have : (Hash.unmarshalBase32 s).bind (fun v => Res.ok (some v)) = (.panic : Res (Option Hash)) ↔ Overfull s := by
        rw [← hash_panic]
        cases Hash.unmarshalBase32 s <;> simp [Res.bind]
      simp only [List.length_nil, gt_iff_lt, Nat.lt_irrefl, if_false, List.cons.injEq, and_true]
      split
      · rename_i h0
        constructor
        · intro h; cases h
        · rintro ⟨s', rfl, h⟩; exact absurd (List.length_eq_zero_iff.mp h0) (overfull_ne h)
      · refine Iff.trans this ?_
        constructor
        · intro h; exact ⟨s, rfl, h⟩
        · rintro ⟨s', rfl, h⟩; exact h

/-! ## Messages -/

theorem row_panic {t : StructType} {row : Row t.fields} {data : Bytes} :
    (Msg.struct t row).unmarshalTo data = .panic ↔ PanicAt t.fields (split data c!" ") := by
  show (unmarshalRow t.fields data row >>= fun row => Res.ok (Msg.struct t row)) = .panic ↔ _
  have ht : ∀ f ∈ t.fields, f.tag = b!"#" ∨ f.tag.length = 2 := by
    have : t.fields.all (fun f => decide (f.tag = b!"#" ∨ f.tag.length = 2)) = true := by cases t <;> decide +kernel
    simpa using this
  rw [bind_eq_panic, ← fields_panic _ _ row ht]
  simp [unmarshalRow]

omit [ParseFloat] in
theorem one_part {data s : Bytes} : split data c!" " = [s] ↔ c!" " ∉ data ∧ s = data := by
  rw [← parts_iff]
  constructor
  · rintro ⟨-, h, e⟩
    simp at h e
    subst e
    exact ⟨h, rfl⟩
  · rintro ⟨h, rfl⟩
    exact ⟨by simp, by simpa using h, by simp⟩

omit [ParseFloat] in
theorem two_parts {data s s' : Bytes} : split data c!" " = [s, s'] ↔ c!" " ∉ s ∧ c!" " ∉ s' ∧ data = s ++ b!" " ++ s' := by
  rw [← parts_iff]
  constructor
  · rintro ⟨-, h, e⟩
    simp [List.intercalate, List.intersperse] at h e
    exact ⟨h.1, h.2, by simpa using e⟩
  · rintro ⟨h, h', rfl⟩
    exact ⟨by simp, by simp [h, h'], by simp [List.intercalate, List.intersperse]⟩

theorem str_not {s : Bytes} {cur : Kind.str.T} : unmarshalValue s .str cur ≠ .panic := value_ne_panic _ _ _ (.inl rfl)

theorem int_not {s : Bytes} {cur : Kind.int.T} : unmarshalValue s .int cur ≠ .panic := value_ne_panic _ _ _ (.inl rfl)

theorem str_tagged_not {vals : List Bytes} {cur : Kind.str.T} : unmarshalTagged vals .str cur ≠ .panic := tagged_not rfl

theorem int_tagged_not {vals : List Bytes} {cur : Kind.int.T} : unmarshalTagged vals .int cur ≠ .panic := tagged_not rfl

theorem slice_tagged_not {vals : List Bytes} {cur : (Kind.slice .str).T} : unmarshalTagged vals (.slice .str) cur ≠ .panic := tagged_not rfl

theorem two_texts (n m : _root_.String) (data : Bytes) :
    PanicAt [⟨n, b!"#", false, .str⟩, ⟨m, b!"#", false, .str⟩] (split data c!" ") ↔ c!" " ∉ data := by
  rcases h : split data c!" " with - | ⟨s, - | ⟨s', ps⟩⟩
  · exact absurd h (split_ne_nil _ _)
  · have := (one_part.mp h).1
    simp [PanicAt, str_ok, str_not, this]
  · have : ¬ (c!" " ∉ data) := fun hn => by rw [one_part.mpr ⟨hn, rfl⟩] at h; simp at h
    simp only [PanicAt, str_not, str_ok, if_true, this]
    simp

theorem connect_panic (data : Bytes) : PanicAt StructType.connect.fields (split data c!" ") ↔
      c!" " ∉ data ∨ ∃ a p, c!" " ∉ a ∧ c!" " ∉ p ∧ data = a ++ b!" " ++ p ∧ Number p := by
  have one : c!" " ∉ data → split data c!" " = [data] := fun h => one_part.mpr ⟨h, rfl⟩
  have two : (∃ a p, c!" " ∉ a ∧ c!" " ∉ p ∧ data = a ++ b!" " ++ p ∧ Number p) ↔ ∃ a p, split data c!" " = [a, p] ∧ Number p := by
    simp only [two_parts, and_assoc]
  rw [two]
  rcases h : split data c!" " with - | ⟨s, - | ⟨s', - | ⟨s'', ps⟩⟩⟩
  · exact absurd h (split_ne_nil _ _)
  · have := (one_part.mp h).1
    simp [StructType.fields, PanicAt, str_ok, str_not, this]
  · have : ¬ (c!" " ∉ data) := fun hn => by rw [one hn] at h; simp at h
    simp only [StructType.fields, PanicAt, if_true, str_not, str_ok, int_not, int_ok, this]
    simp only [and_true, true_and, false_or, List.cons.injEq]
    constructor
    · intro hn; exact ⟨s, s', ⟨rfl, rfl⟩, hn⟩
    · rintro ⟨_, _, ⟨rfl, rfl⟩, hn⟩; exact hn
  · have : ¬ (c!" " ∉ data) := fun hn => by rw [one hn] at h; simp at h
    simp only [StructType.fields, PanicAt, if_true, str_not, str_ok, int_not, int_ok, this]
    simp

theorem password_panic (data : Bytes) : PanicAt StructType.password.fields (split data c!" ") ↔
    ∃ s ps, Parts c!" " data (s :: ps) ∧ Overfull s := by
  simp only [parts_iff]
  rcases h : split data c!" " with - | ⟨s, ps⟩
  · exact absurd h (split_ne_nil _ _)
  · have : unmarshalValue s .tth (Kind.zero .tth) = .panic ↔ Overfull s := hash_panic
    simp [StructType.fields, PanicAt, this]

theorem result_panic (data : Bytes) : PanicAt StructType.result.fields (split data c!" ") ↔
      ∃ ps, Parts c!" " data ps ∧ (∀ tag ∈ [b!"TO", b!"FN"], (valuesOf tag ps).length ≤ 1) ∧
        (∀ tag ∈ [b!"SI", b!"SL"], (valuesOf tag ps).length ≤ 1 ∧ ∀ s ∈ valuesOf tag ps, Number s) ∧
        ∃ s, valuesOf b!"TR" ps = [s] ∧ Overfull s := by
  simp only [parts_iff, exists_eq_left']
  generalize split data c!" " = ps
  simp only [StructType.fields, PanicAt, List.cons.injEq, reduceCtorEq, and_false, if_false, str_tagged_not, int_tagged_not, false_or, str_tagged, int_tagged,
    hash_tagged, or_false, List.mem_cons, List.not_mem_nil, forall_eq_or_imp]
  grind

theorem search_panic (data : Bytes) : PanicAt StructType.search.fields (split data c!" ") ↔
      ∃ ps, Parts c!" " data ps ∧ (valuesOf b!"TO" ps).length ≤ 1 ∧
        (∀ tag ∈ [b!"LE", b!"GE", b!"EQ", b!"TY"], (valuesOf tag ps).length ≤ 1 ∧ ∀ s ∈ valuesOf tag ps, Number s) ∧
        ∃ s, valuesOf b!"TR" ps = [s] ∧ Overfull s := by
  simp only [parts_iff, exists_eq_left']
  generalize split data c!" " = ps
  simp only [StructType.fields, PanicAt, List.cons.injEq, reduceCtorEq, and_false, if_false, str_tagged_not, int_tagged_not, slice_tagged_not, slice_tagged,
    true_and, false_or, str_tagged, int_tagged, hash_tagged, or_false, List.mem_cons, List.not_mem_nil, forall_eq_or_imp]
  grind

/-- **C45, messages, exactly.** The decoder of a command panics on the payloads of the specification and on no other. -/
theorem payload_panics_iff {typ : MsgType} {data : Bytes} : unmarshalMessage typ data = .panic ↔ FatalPayload typ.bytes data := by
  have key : ∀ t : StructType, (∀ row, (Msg.struct t row).unmarshalTo data = .panic ↔ FatalPayload t.cmd.bytes data) → t ∈ unsafeTypes →
      (unmarshalMessage t.cmd data = .panic ↔ FatalPayload t.cmd.bytes data) := by
    intro t h ht
    simp only [unsafeTypes, List.mem_cons, List.not_mem_nil, or_false] at ht
    rw [← h (Row.zero _)]
    rcases ht with rfl | rfl | rfl | rfl | rfl | rfl <;> rfl
  have struct : ∀ t ∈ unsafeTypes, ∀ row, (Msg.struct t row).unmarshalTo data = .panic ↔ FatalPayload t.cmd.bytes data := by
    intro t ht row
    rw [row_panic]
    simp only [unsafeTypes, List.mem_cons, List.not_mem_nil, or_false] at ht
    rcases ht with rfl | rfl | rfl | rfl | rfl | rfl
    · rw [show PanicAt StructType.revConnect.fields (split data c!" ") ↔ _ from two_texts _ _ data]
      simp [FatalPayload, StructType.cmd]
    · rw [connect_panic]; simp [FatalPayload, StructType.cmd]
    · rw [show PanicAt StructType.getInfo.fields (split data c!" ") ↔ _ from two_texts _ _ data]
      simp [FatalPayload, StructType.cmd]
    · rw [password_panic]; simp [FatalPayload, StructType.cmd]
    · rw [search_panic]; simp [FatalPayload, StructType.cmd]
    · rw [result_panic]; simp [FatalPayload, StructType.cmd]
  have final : ∀ t ∈ unsafeTypes, typ.bytes = t.cmd.bytes → (unmarshalMessage typ data = .panic ↔ FatalPayload typ.bytes data) := by
    intro t ht he
    have : typ = t.cmd := by cases typ; cases hc : t.cmd; simp_all
    rw [this]
    exact key t (struct t ht) ht
  by_cases hm : typ.bytes ∈ [b!"RCM", b!"CTM", b!"GFI", b!"PAS", b!"SCH", b!"RES"]
  · simp only [List.mem_cons, List.not_mem_nil, or_false] at hm
    rcases hm with hm | hm | hm | hm | hm | hm
    · exact final .revConnect (by decide) hm
    · exact final .connect (by decide) hm
    · exact final .getInfo (by decide) hm
    · exact final .password (by decide) hm
    · exact final .search (by decide) hm
    · exact final .result (by decide) hm
  · constructor
    · intro h; exact absurd (panic_commands h) hm
    · intro h
      refine absurd ?_ hm
      rcases h with ⟨h | h, -⟩ | ⟨h, -⟩ | ⟨h, -⟩ | ⟨h, -⟩ | ⟨h, -⟩ <;> simp [h]

/-! ## Packets -/

omit [ParseFloat] in
theorem selAt_panic {room : Nat} {data : Bytes} {i : Nat} (hi : i < data.length) :
    selAt room data i = .panic ↔ (data.drop i).length + room < 5 := by
  unfold selAt
  rw [List.length_drop]
  split
  · split
    · simp; omega
    · simp; omega
  · simp; omega

/-- Where the loop panics. -/
def Cut (room : Nat) (s : Bytes) : Prop :=
  ∃ pre c rest, Selectors pre ∧ (c = c!"+" ∨ c = c!"-") ∧ s = pre ++ c :: rest ∧ rest.length + 1 + room < 5

omit [ParseFloat] in
theorem selLoop_panic (room : Nat) (acc : List FeatureSel) (data : Bytes) (i : Nat) :
    selLoop room acc data i = .panic ↔ Cut room (data.drop i) := by
  generalize hn : data.length - i = n
  induction n using Nat.strongRecOn generalizing acc data i with
  | _ n ih =>
    rw [selLoop]
    split
    · rename_i hnone
      have : data.drop i = [] := List.drop_eq_nil_iff.mpr (by simpa using hnone)
      rw [this]
      simp only [reduceCtorEq, false_iff]
      rintro ⟨pre, c, rest, -, -, h, -⟩
      simp at h
    · rename_i c hc
      have hlt := (List.getElem?_eq_some_iff.mp hc).1
      have hd : data.drop i = c :: data.drop (i + 1) := by
        rw [List.drop_eq_getElem_cons hlt, ← (List.getElem?_eq_some_iff.mp hc).2]
      split
      · rename_i hsel
        by_cases hp : selAt room data i = .panic
        · rw [hp]
          simp only [true_iff]
          rw [selAt_panic hlt] at hp
          rw [hd] at hp ⊢
          exact ⟨[], c, _, .nil, hsel, rfl, by simpa using hp⟩
        · have hlen : ¬ (data.drop i).length + room < 5 := fun h => hp ((selAt_panic hlt).mpr h)
          have start : Cut room (data.drop i) ↔ 5 ≤ (data.drop i).length ∧ Cut room (data.drop (i + 5)) := by
            rw [show data.drop (i + 5) = (data.drop i).drop 5 by rw [List.drop_drop]]
            rw [hd] at hlen ⊢
            generalize data.drop (i + 1) = r at hlen ⊢
            constructor
            · rintro ⟨pre, d, rest, hs, hd', he, hr⟩
              cases hs with
              | nil =>
                simp only [List.nil_append, List.cons.injEq] at he
                obtain ⟨rfl, rfl⟩ := he
                simp at hlen; omega
              | space h =>
                simp only [List.cons_append, List.cons.injEq] at he
                rcases hsel with h' | h' <;> (rw [h'] at he; simp at he)
              | @sel _ f t hc' hf h =>
                simp only [List.cons_append, List.cons.injEq, List.append_assoc] at he
                obtain ⟨rfl, rfl⟩ := he
                refine ⟨by simp; omega, t, d, rest, h, hd', ?_, hr⟩
                rw [List.drop_succ_cons, ← hf, List.drop_left]
            · rintro ⟨h5, pre, d, rest, hs, hd', he, hr⟩
              simp only [List.length_cons] at h5
              refine ⟨c :: (r.take 4 ++ pre), d, rest, .sel hsel (by simp; omega) hs, hd', ?_, hr⟩
              rw [List.drop_succ_cons] at he
              simp only [List.cons_append, List.append_assoc, ← he, List.take_append_drop]
          rw [start]
          cases hs : selAt room data i with
          | panic => exact absurd hs hp
          | err e =>
            have : ¬ 5 ≤ (data.drop i).length := by
              rw [List.length_drop]
              unfold selAt at hs
              split at hs
              · omega
              · cases hs
            simp only [reduceCtorEq, this, false_and]
          | ok fea =>
            have h5 : 5 ≤ (data.drop i).length := by
              rw [List.length_drop]
              unfold selAt at hs
              split at hs
              · split at hs <;> cases hs
              · omega
            simp only [h5, true_and]
            split
            · rename_i he
              have : data.drop (i + 5) = [] := List.drop_eq_nil_iff.mpr (by omega)
              rw [this]
              simp only [reduceCtorEq, false_iff]
              rintro ⟨pre, c, rest, -, -, h, -⟩
              simp at h
            · exact ih _ (by omega) _ _ _ rfl
      · rename_i hsel
        split
        · rename_i hsp
          subst hsp
          have start : Cut room (data.drop i) ↔ Cut room ((data.drop i).drop 1) := by
            rw [hd]
            constructor
            · rintro ⟨pre, d, rest, hs, hd', he, hr⟩
              cases hs with
              | nil => simp only [List.nil_append, List.cons.injEq] at he; rcases hd' with h | h <;> (rw [h] at he; simp at he)
              | space h => simp only [List.cons_append, List.cons.injEq, true_and] at he; exact ⟨_, d, rest, h, hd', by simpa using he, hr⟩
              | sel hc' hf h =>
                simp only [List.cons_append, List.cons.injEq] at he
                rcases hc' with h' | h' <;> (rw [h'] at he; simp at he)
            · rintro ⟨pre, d, rest, hs, hd', he, hr⟩
              refine ⟨c!" " :: pre, d, rest, .space hs, hd', ?_, hr⟩
              rw [List.drop_succ_cons, List.drop_zero] at he
              rw [he]; rfl
          rw [start]
          simp only
          split
          · rename_i he
            have : (data.drop i).drop 1 = [] := List.drop_eq_nil_iff.mpr (by omega)
            rw [this]
            simp only [reduceCtorEq, false_iff]
            rintro ⟨pre, c, rest, -, -, h, -⟩
            simp at h
          · rename_i hne
            exact ih _ (by simp at hne ⊢; omega) _ _ _ rfl
        · rename_i hsp
          simp only [reduceCtorEq, false_iff]
          rw [hd]
          rintro ⟨pre, d, rest, hs, hd', he, hr⟩
          cases hs with
          | nil => simp only [List.nil_append, List.cons.injEq] at he; exact hsel (he.1 ▸ hd')
          | space h => simp only [List.cons_append, List.cons.injEq] at he; exact hsp he.1
          | sel hc' hf h => simp only [List.cons_append, List.cons.injEq] at he; exact hsel (he.1 ▸ hc')

omit [ParseFloat] in
theorem cut_iff {room : Nat} {s : Bytes} : Cut (room + 1) s ↔ FatalSelectors room s := by
  unfold Cut FatalSelectors
  constructor
  · rintro ⟨pre, c, rest, h1, h2, h3, h4⟩; exact ⟨pre, c, rest, h1, h2, h3, by omega⟩
  · rintro ⟨pre, c, rest, h1, h2, h3, h4⟩; exact ⟨pre, c, rest, h1, h2, h3, by omega⟩

omit [ParseFloat] in
theorem cut_ne {room : Nat} {s : Bytes} (h : FatalSelectors room s) : s ≠ [] := by
  rintro rfl
  obtain ⟨pre, c, rest, -, -, h, -⟩ := h
  simp at h

omit [ParseFloat] in
theorem feature_panic {room : Nat} {nm : MsgType} {d : Bytes} : unmarshalFeature room nm d = .panic ↔
    ∃ id sep s, id.length = 4 ∧ (sep = b!" " ∨ sep = b!"\n") ∧ d = id ++ sep ++ s ++ b!"\n" ∧ FatalSelectors room s := by
  constructor
  · intro hres
    unfold unmarshalFeature at hres
    by_cases h4 : d.length < 4
    · rw [if_pos h4] at hres; cases hres
    rw [if_neg h4] at hres
    by_cases hl : d.getLast? ≠ some c!"\n"
    · rw [if_pos hl] at hres; cases hres
    rw [if_neg hl] at hres
    by_cases hbad : badSep d 4
    · rw [if_pos hbad] at hres; cases hres
    rw [if_neg hbad] at hres
    have hsid : ∀ s, SID.unmarshal s ≠ .panic := by intro s; unfold SID.unmarshal; split <;> simp
    simp only [bind_eq_panic, hsid, false_or, reduceCtorEq, and_false, exists_false, or_false] at hres
    obtain ⟨id, -, hres⟩ := hres
    rw [selLoop_panic, List.drop_zero, cut_iff] at hres
    have hr5 : 6 < d.length := by
      have := cut_ne hres
      unfold payloadAfter at this
      split at this
      · rename_i h; simp at h; omega
      · exact absurd rfl this
    obtain ⟨w, x, y, z, sp, q, rfl⟩ : ∃ w x y z sp q, d = w :: x :: y :: z :: sp :: q := by
      match d with
      | w :: x :: y :: z :: sp :: q => exact ⟨_, _, _, _, _, _, rfl⟩
      | [] | [_] | [_, _] | [_, _, _] | [_, _, _, _] => simp at hr5
    obtain ⟨s, nl, rfl⟩ : ∃ s nl, q = s ++ [nl] := by
      rcases List.eq_nil_or_concat q with h | ⟨s, nl, h⟩
      · subst h; simp at hr5
      · exact ⟨s, nl, by simp [h]⟩
    have e : w :: x :: y :: z :: sp :: (s ++ [nl]) = [w, x, y, z] ++ [sp] ++ s ++ [nl] := by simp
    rw [e] at hl hres hbad ⊢
    have hnl : nl = c!"\n" := by
      rw [List.getLast?_concat] at hl
      simpa using hl
    subst hnl
    have hspc : sp = c!" " ∨ sp = c!"\n" := by
      unfold badSep at hbad
      simp only [List.cons_append, List.nil_append, List.getElem?_cons_succ, List.getElem?_cons_zero] at hbad
      by_cases h1 : sp = c!" "
      · exact .inl h1
      · by_cases h2 : sp = c!"\n"
        · exact .inr h2
        · refine absurd ⟨by simp, ?_, ?_⟩ hbad <;> simpa
    refine ⟨[w, x, y, z], [sp], s, rfl, ?_, rfl, ?_⟩
    · rcases hspc with rfl | rfl
      · exact .inl rfl
      · exact .inr rfl
    · rw [List.dropLast_concat] at hres
      unfold payloadAfter at hres
      split at hres
      · simpa using hres
      · exact absurd rfl (cut_ne hres)
  · rintro ⟨id, sep, s, hid, hsep, rfl, hs⟩
    have hsl : sep.length = 1 := by rcases hsep with rfl | rfl <;> rfl
    have hs0 : 0 < s.length := List.length_pos_iff.mpr (cut_ne hs)
    unfold unmarshalFeature
    rw [if_neg (by simp; omega), if_neg (by rw [List.getLast?_concat]; simp), if_neg ?_]
    · have htake : (id ++ sep ++ s ++ b!"\n").take 4 = id := by rw [← hid]; simp [List.append_assoc]
      have hpay : payloadAfter (id ++ sep ++ s ++ b!"\n").dropLast 4 = s := by
        rw [List.dropLast_concat]
        unfold payloadAfter
        rw [if_pos (by simp; omega), show 4 + 1 = (id ++ sep).length by simp; omega, List.drop_left]
      have hp : selLoop (room + 1) [] s 0 = .panic := by rw [selLoop_panic, List.drop_zero, cut_iff]; exact hs
      rw [htake, hpay, hp, SID.unmarshal, dif_pos hid]
      rfl
    · unfold badSep
      have : (id ++ sep ++ s ++ b!"\n")[4]? = sep.head? := by
        rw [List.append_assoc, List.append_assoc, List.getElem?_append_right (by omega), hid]
        rcases hsep with rfl | rfl <;> rfl
      rw [this]
      rcases hsep with rfl | rfl <;> simp

/-- **C45, packets, exactly.** A line panics before its payload is looked at if and only if it is a feature packet whose last
selector is cut off. -/
theorem packet_panics_iff {room : Nat} {p : Bytes} : decodePacketRaw room p = .panic ↔ FatalPacket room p := by
  constructor
  · intro h
    have hF : p.head? = some c!"F" := by
      by_cases hh : p.head? = some c!"F"
      · exact hh
      · exact absurd h (raw_no_panic_partial room p (.inl hh))
    unfold decodePacketRaw at h
    split at h
    · cases h
    rename_i hlen
    split at h
    · cases h
    rename_i h0
    simp only at h
    obtain ⟨a, b, c, d, e, r, rfl⟩ := five_or_more hlen
    simp only [List.head?_cons, Option.some.injEq] at hF
    subst hF
    split at h
    · cases h
    rename_i res hres
    split at h
    · cases h
    split at h
    · cases h
    rename_i hsep
    subst h
    simp only [List.getElem_cons_zero] at hres
    have hk : ∀ nm dd, unmarshalKind room c!"F" nm dd = some (unmarshalFeature room nm dd) := fun _ _ => rfl
    rw [hk] at hres
    simp only [Option.some.injEq, feature_panic] at hres
    simp only [List.getElem?_cons_succ, List.getElem?_cons_zero, Option.some.injEq, List.drop_succ_cons, List.drop_zero] at hres hsep
    obtain ⟨id, sep, s, h1, h2, h3, h4⟩ := hres
    by_cases he : e = c!" "
    · subst he
      simp only [if_true] at h3
      subst h3
      exact ⟨[b, c, d], b!" ", id, sep, s, rfl, h1, .inl rfl, h2, by simp, h0, h4⟩
    · simp only [he, if_false] at h3
      have he' : e = c!"\n" := by
        by_cases he' : e = c!"\n"
        · exact he'
        · exact absurd ⟨by simpa using he, by simpa using he'⟩ hsep
      refine ⟨[b, c, d], [], id, sep, s, rfl, h1, .inr ⟨rfl, ?_⟩, h2, by simp [h3], h0, h4⟩
      cases id with
      | nil => simp at h1
      | cons i id => simp only [List.cons_append, List.cons.injEq] at h3; simp [← h3.1, he']
  · rintro ⟨cmd, gap, id, sep, s, hcmd, hid, hgap, hsep, hp, h0, hs⟩
    obtain ⟨b, c, d, rfl⟩ : ∃ b c d, cmd = [b, c, d] := by
      match cmd with
      | [b, c, d] => exact ⟨b, c, d, rfl⟩
      | [] | [_] | [_, _] | _ :: _ :: _ :: _ :: _ => simp at hcmd
    have hlast : p.getLast? = some c!"\n" := by rw [hp, List.getLast?_concat]
    have key : ∀ nm, unmarshalFeature room nm (id ++ sep ++ s ++ b!"\n") = .panic := fun nm =>
      feature_panic.mpr ⟨id, sep, s, hid, hsep, rfl, hs⟩
    have hk : ∀ nm dd, unmarshalKind room c!"F" nm dd = some (unmarshalFeature room nm dd) := fun _ _ => rfl
    rcases hgap with rfl | ⟨rfl, hn⟩
    · have hp' : p = c!"F" :: b :: c :: d :: c!" " :: (id ++ sep ++ s ++ b!"\n") := by rw [hp]; simp
      unfold decodePacketRaw
      rw [dif_neg (by rw [hp']; simp), if_neg h0]
      simp only [hlast]
      simp only [hp', List.getElem_cons_zero, hk, List.getElem?_cons_succ, List.getElem?_cons_zero, List.drop_succ_cons, List.drop_zero, if_true, key]
      simp
    · obtain ⟨i, id', rfl⟩ : ∃ i id', id = i :: id' := by cases id <;> simp_all
      simp only [List.head?_cons, Option.some.injEq] at hn
      subst hn
      have hp' : p = c!"F" :: b :: c :: d :: (c!"\n" :: id' ++ sep ++ s ++ b!"\n") := by rw [hp]; simp
      unfold decodePacketRaw
      rw [dif_neg (by rw [hp']; simp), if_neg h0]
      simp only [hlast]
      simp only [hp', List.getElem_cons_zero, hk, List.getElem?_cons_succ, List.getElem?_cons_zero, List.drop_succ_cons, List.drop_zero, List.cons_append]
      have key := key ⟨(b :: c :: d :: (c!"\n" :: id' ++ sep ++ s ++ b!"\n")).take 3, by simp⟩
      simp only [List.cons_append] at key
      rw [if_neg (by simp), if_neg (by simp), if_neg (by simp)]
      exact key

omit [ParseFloat] in
theorem kind_raw {room : Nat} {k : Byte} {typ : MsgType} {d : Bytes} {pk : Packet} (h : unmarshalKind room k typ d = some (.ok pk)) :
    ∃ typ data, pk.message = .raw typ data := by
  unfold unmarshalKind at h
  split at h
  · simp only [Option.some.injEq] at h; obtain ⟨rfl, _⟩ := info_inv h; exact ⟨_, _, rfl⟩
  split at h
  · simp only [Option.some.injEq] at h; obtain ⟨rfl, _⟩ := hub_inv h; exact ⟨_, _, rfl⟩
  split at h
  · simp only [Option.some.injEq] at h; obtain ⟨_, _, rfl, _⟩ := pair_inv h; exact ⟨_, _, rfl⟩
  split at h
  · simp only [Option.some.injEq] at h; obtain ⟨_, _, rfl, _⟩ := pair_inv h; exact ⟨_, _, rfl⟩
  split at h
  · simp only [Option.some.injEq] at h; obtain ⟨_, rfl, _⟩ := broadcast_inv h; exact ⟨_, _, rfl⟩
  split at h
  · simp only [Option.some.injEq] at h; obtain ⟨_, _, _, rfl, _⟩ := feature_inv h; exact ⟨_, _, rfl⟩
  split at h
  · simp only [Option.some.injEq] at h; obtain ⟨rfl, _⟩ := client_inv h; exact ⟨_, _, rfl⟩
  split at h
  · simp only [Option.some.injEq] at h; obtain ⟨_, rfl, _⟩ := udp_inv h; exact ⟨_, _, rfl⟩
  · cases h

/-- **C45, exactly.** Decoding a line panics if and only if its packet is fatal, or the packet is read and its payload is fatal for
its command. -/
theorem line_panics_iff {room : Nat} {p : Bytes} : decodePacket room p = .panic ↔
    FatalPacket room p ∨ ∃ pk typ data, decodePacketRaw room p = .ok pk ∧ pk.message = .raw typ data ∧ FatalPayload typ.bytes data := by
  have raw : ∀ {pk}, decodePacketRaw room p = .ok pk → ∃ typ data, pk.message = .raw typ data := by
    intro pk h
    unfold decodePacketRaw at h
    split at h
    · cases h
    split at h
    · cases h
    simp only at h
    split at h
    · cases h
    rename_i res hres
    split at h
    · cases h
    split at h
    · cases h
    subst h
    exact kind_raw hres
  unfold decodePacket
  simp only [bind_eq_panic, packet_panics_iff, reduceCtorEq, and_false, exists_false, or_false]
  constructor
  · rintro (h | ⟨pk, h1, h2⟩)
    · exact .inl h
    · obtain ⟨typ, data, hm⟩ := raw h1
      rw [hm] at h2
      exact .inr ⟨pk, typ, data, h1, hm, payload_panics_iff.mp h2⟩
  · rintro (h | ⟨pk, typ, data, h1, h2, h3⟩)
    · exact .inl h
    · exact .inr ⟨pk, h1, by rw [h2]; exact payload_panics_iff.mpr h3⟩

/-- A search with a selector that is cut off, in a buffer with nothing after the line, is such a line; with room after it is not. -/
example : FatalPacket 0 b!"FSCH AAAA +AB\n" ∧ ¬ FatalPacket 1 b!"FSCH AAAA +AB\n" := by
  rw [← packet_panics_iff, ← packet_panics_iff]
  refine ⟨by with_unfolding_all rfl, fun h => ?_⟩
  have e : (match decodePacketRaw 1 b!"FSCH AAAA +AB\n" with | .panic => true | _ => false) = false := by with_unfolding_all rfl
  rw [h] at e
  cases e

/-- A reverse connection request without a token is read as a packet, and its payload is fatal. -/
example : decodePacket 0 b!"CRCM ADC/1.0\n" = .panic :=
  line_panics_iff.mpr (.inr ⟨.client (.raw ⟨b!"RCM", rfl⟩ b!"ADC/1.0"), ⟨b!"RCM", rfl⟩, b!"ADC/1.0", by with_unfolding_all rfl, rfl,
    .inl ⟨.inl rfl, by decide⟩⟩)

end Verif.Props.AdcPanics
