import Verif.Adc.ListMemoryLemmas

/-! # C125: lists decoded into a variable that was used before -/

namespace Verif.Props.ListMemory

open Verif.Go Verif.Adc

/-- A slice has elements only where decoding into `s` leaves the arrays alone if it keeps what is before `from'`: in other arrays, before that, or
behind the capacity of `s`. -/
def Apart (t s : Slc) (from' : Nat) : Prop := t.arr ≠ s.arr ∨ t.off + t.len ≤ from' ∨ s.off + s.cap ≤ t.off

/-- The text of a field. -/
def text (x : Field) : Bytes := x.tag ++ x.value

/-- The text is that of `items`, up to a part that is too short for a field, if there is one. -/
def Parts (data : Bytes) (items : List Field) (refused : Bool) : Prop :=
  ∃ rest, split data c!" " = items.map text ++ rest ∧ (∀ v, rest.head? = some v → v.length < 2) ∧ (refused = true ↔ rest ≠ [])

/-- **C125.** A path decoded into a variable reads as if nothing were shared: the elements are appended to what the variable read before. -/
theorem path_value (extra : Nat → Nat) (data : Bytes) {h : Arrays Bytes} {p : Slc} (hp : p.Within h) :
    ((Path.mem extra data h p).2.1.read (Path.mem extra data h p).1, (Path.mem extra data h p).2.2) = Path.fill data (p.read h) ∧
      (Path.mem extra data h p).2.1.Within (Path.mem extra data h p).1 := by
  have a := pushAll_read [] extra ((split data c!"/").map unescape) h p hp
  simp only [Path.mem, Path.memLoop_eq, Path.fill, Path.fillLoop_eq]
  exact ⟨by rw [a.1], a.2⟩

/-- **C125.** Decoding a path changes no list but those that reach into the room behind the elements of the variable. -/
theorem path_others (extra : Nat → Nat) (data : Bytes) {h : Arrays Bytes} {p t : Slc} (hp : p.Within h) (ht : t.Within h)
    (hd : Apart t p (p.off + p.len)) : t.read (Path.mem extra data h p).1 = t.read h := by
  simp only [Path.mem, Path.memLoop_eq]
  exact pushAll_others _ _ _ hp ht hd

/-- **C125.** A copy of the path made before keeps its elements. -/
theorem path_copy (extra : Nat → Nat) (data : Bytes) {h : Arrays Bytes} {p : Slc} (hp : p.Within h) :
    p.read (Path.mem extra data h p).1 = p.read h := path_others extra data hp hp (Or.inr (Or.inl (Nat.le_refl _)))

/-- **C125.** Two copies of a path are decoded into, one after the other, and the array has room for what the first gets: afterwards the first has
the elements of the second in place of its own, as far as they go. -/
theorem path_twice (extra : Nat → Nat) (data1 data2 : Bytes) {h : Arrays Bytes} {p : Slc} (hp : p.Within h)
    (hl : p.len + (Path.fill data1 []).1.length ≤ p.cap) :
    (Path.mem extra data1 h p).2.1.read (Path.mem extra data2 (Path.mem extra data1 h p).1 p).1 =
      p.read h ++ ((Path.fill data2 []).1.take (Path.fill data1 []).1.length ++ (Path.fill data1 []).1.drop (Path.fill data2 []).1.length) := by
  simp only [Path.mem, Path.memLoop_eq, Path.fill, Path.fillLoop_eq, List.nil_append] at hl ⊢
  exact pushAll_twice _ _ _ _ hp hl

/-- **C125.** Fields decoded into a variable read as if nothing were shared. -/
theorem fields_value (extra : Nat → Nat) (data : Bytes) {h : Arrays Field} {f : Slc} (hf : f.Within h) :
    ((Fields.mem extra data h f).2.1.read (Fields.mem extra data h f).1, (Fields.mem extra data h f).2.2) = Fields.fill data ∧
      (Fields.mem extra data h f).2.1.Within (Fields.mem extra data h f).1 := by
  have hc : ({ f with len := 0 } : Slc).Within h := ⟨Nat.zero_le _, hf.2⟩
  by_cases h0 : data.length = 0
  · simp only [Fields.mem, if_pos h0, Fields.fill, Fields.unmarshal, assigned]
    exact ⟨by simp [Slc.read], hc⟩
  · obtain ⟨good, rest, e, hg, hr⟩ := exists_split (split data c!" ")
    have a := pushAll_read Field.zero extra (good.filterMap fieldOf) h _ hc
    simp only [Fields.mem, if_neg h0, Fields.fill, Fields.unmarshal, e, Fields.memLoop_eq extra good rest _ _ hg hr,
      Fields.unmarshalLoop_eq good rest _ hg hr]
    by_cases hn : rest = []
    · simp only [if_pos hn, assigned, a.1]
      exact ⟨by simp [Slc.read], a.2⟩
    · simp only [if_neg hn, assigned]
      refine ⟨by simp [Slc.read], Nat.zero_le _, ?_⟩
      rcases hf.2 with h1 | h1
      · exact Or.inl h1
      · right
        obtain ⟨fresh, hh⟩ := pushAll_heap Field.zero extra (good.filterMap fieldOf) h _ hc
        rw [hh]
        refine ⟨by simp; omega, ?_⟩
        simp only [List.getD]
        rw [List.getElem?_append_left (by simpa using h1.1), List.getElem?_set_self h1.1]
        have h2 := h1.2
        simp only [List.getD] at h2
        simp [written]
        omega

private theorem good_items : ∀ items : List Field, (items.map text).filterMap fieldOf = items ∧ ∀ v ∈ items.map text, 2 ≤ v.length
  | [] => by simp
  | x :: items => by
    have ih := good_items items
    have h2 : 2 ≤ (text x).length := by simp [text, x.size]
    have e : fieldOf (text x) = some x := by
      rw [fieldOf, dif_neg (by omega)]
      obtain ⟨t, ht, v⟩ := x
      simp [text, ← ht]
    constructor
    · rw [List.map_cons, List.filterMap_cons, e, ih.1]
    · intro v hv
      rw [List.map_cons] at hv
      rcases List.mem_cons.1 hv with rfl | hv
      · exact h2
      · exact ih.2 v hv

private theorem heap_eq (extra : Nat → Nat) {data : Bytes} {items : List Field} {refused : Bool} (hd : data ≠ []) (hi : Parts data items refused)
    (h : Arrays Field) (f : Slc) : (Fields.mem extra data h f).1 = (pushAll Field.zero extra h { f with len := 0 } items).1 ∧
      ((Fields.mem extra data h f).2.2 = .ok () ↔ refused = false) := by
  obtain ⟨rest, e, hr, hb⟩ := hi
  have h0 : ¬ data.length = 0 := by simpa using hd
  have hg := good_items items
  simp only [Fields.mem, if_neg h0, e, Fields.memLoop_eq extra _ rest _ _ hg.2 hr, hg.1]
  by_cases hn : rest = []
  · simp only [if_pos hn, true_and, true_iff]
    cases refused
    · rfl
    · exact absurd hn (hb.1 rfl)
  · simp only [if_neg hn, true_and]
    have := hb.2 hn
    simp [this]

/-- **C125.** What a copy of the fields made before reads afterwards: the new fields, as many as it has room for, and its own after them; also if
the text is refused, with the fields before the part that is refused. -/
theorem fields_copy (extra : Nat → Nat) {data : Bytes} {items : List Field} {refused : Bool} (hd : data ≠ []) (hi : Parts data items refused)
    {h : Arrays Field} {f : Slc} (hf : f.Within h) :
    f.read (Fields.mem extra data h f).1 = items.take f.len ++ (f.read h).drop items.length ∧
      ((Fields.mem extra data h f).2.2 = .ok () ↔ refused = false) := by
  have a := heap_eq extra hd hi h f
  rw [a.1]
  exact ⟨pushAll_copy _ _ _ hf, a.2⟩

/-- **C125.** Decoding fields changes no list but those that reach into the array of the variable. -/
theorem fields_others (extra : Nat → Nat) (data : Bytes) {h : Arrays Field} {f t : Slc} (hf : f.Within h) (ht : t.Within h)
    (hd : Apart t f f.off) : t.read (Fields.mem extra data h f).1 = t.read h := by
  by_cases h0 : data.length = 0
  · simp only [Fields.mem, if_pos h0]
  · obtain ⟨good, rest, e, hg, hr⟩ := exists_split (split data c!" ")
    have a : (Fields.mem extra data h f).1 = (pushAll Field.zero extra h { f with len := 0 } (good.filterMap fieldOf)).1 := by
      simp only [Fields.mem, if_neg h0, e, Fields.memLoop_eq extra good rest _ _ hg hr]
      by_cases hn : rest = []
      · simp only [if_pos hn]
      · simp only [if_neg hn]
    rw [a]
    exact pushAll_others (s := { f with len := 0 }) _ _ _ ⟨Nat.zero_le _, hf.2⟩ ht hd

/-- The nil slice, the value of a new variable. -/
def nilSlice : Slc := ⟨0, 0, 0, 0⟩

/-- **C125.** Decoding into a new variable, as the readers do, changes no list at all. -/
theorem new_variable (extra : Nat → Nat) (data : Bytes) :
    (∀ (h : Arrays Bytes) (t : Slc), t.Within h → t.read (Path.mem extra data h nilSlice).1 = t.read h) ∧
      ∀ (h : Arrays Field) (t : Slc), t.Within h → t.read (Fields.mem extra data h nilSlice).1 = t.read h :=
  ⟨fun _ _ ht => path_others extra data ⟨Nat.le_refl _, Or.inl rfl⟩ ht (Or.inr (Or.inr (Nat.zero_le _))),
    fun _ _ ht => fields_others extra data ⟨Nat.le_refl _, Or.inl rfl⟩ ht (Or.inr (Or.inr (Nat.zero_le _)))⟩

/-! ## Non-vacuity and findings -/

private def fld (t v : Bytes) (h : t.length = 2 := by decide) : Field := ⟨t, h, v⟩

/-- The fields `NIa SS1` in an array of two. -/
private def heap1 : Arrays Field := [[fld b!"NI" b!"a", fld b!"SS" b!"1"]]

private def var1 : Slc := ⟨0, 0, 2, 2⟩

example : var1.Within heap1 := ⟨Nat.le_refl _, Or.inr ⟨by decide, by decide⟩⟩

example : Parts b!"NIb HN2 x" [fld b!"NI" b!"b", fld b!"HN" b!"2"] true :=
  ⟨[b!"x"], by decide +kernel, by intro v hv; cases hv; decide, by simp⟩

/-- **C125, finding.** A copy of the fields, made by an assignment, is changed by decoding the next update into the same variable. -/
theorem copy_changes : var1.read heap1 = [fld b!"NI" b!"a", fld b!"SS" b!"1"] ∧
    var1.read (Fields.mem id b!"NIb" heap1 var1).1 = [fld b!"NI" b!"b", fld b!"SS" b!"1"] := by decide +kernel

/-- **C125, finding.** The same where the update is refused: the variable is empty afterwards, and the copy has some of the new fields. -/
theorem refused_changes : (Fields.mem id b!"NIb x" heap1 var1).2.2 = .err (.other 106) ∧
    (Fields.mem id b!"NIb x" heap1 var1).2.1.read (Fields.mem id b!"NIb x" heap1 var1).1 = [] ∧
    var1.read (Fields.mem id b!"NIb x" heap1 var1).1 = [fld b!"NI" b!"b", fld b!"SS" b!"1"] := by decide +kernel

/-- **C125, finding.** Two paths that began as copies of one overwrite each other: `a` with room for one more, then `b` decoded into one
copy and `c` into the other; the first reads `a/c` afterwards. -/
theorem paths_overwrite :
    let start : Arrays Bytes := [[b!"a", []]]
    let p : Slc := ⟨0, 0, 1, 2⟩
    let one := Path.mem id b!"b" start p
    let two := Path.mem id b!"c" one.1 p
    one.2.1.read one.1 = [b!"a", b!"b"] ∧ one.2.1.read two.1 = [b!"a", b!"c"] := by decide +kernel

example : (⟨0, 0, 1, 2⟩ : Slc).Within ([[b!"a", []]] : Arrays Bytes) := ⟨by decide, Or.inr ⟨by decide, by decide⟩⟩

/-- Growth: a list of one element and no room gets a new array, and the old one is left alone. -/
example : (Path.mem id b!"b/c" [[b!"a"]] ⟨0, 0, 1, 1⟩).1 = [[b!"a"], [b!"a", b!"b", b!"c"]] := by decide +kernel

end Verif.Props.ListMemory
