import Verif.Props.ListMemory

/-! # C125: programs that decode into several variables -/

namespace Verif.Props.ListMemory

open Verif.Go Verif.Adc

/-- Variables of the types `Path` (`adc/types.go:275`) and `Fields` (`adc/messages.go:112`), and the arrays behind them. -/
structure LState where
  pathArrays : Arrays Bytes
  fieldArrays : Arrays Field
  paths : Nat → Slc
  fields : Nat → Slc

/-- The variables are nil at first. -/
def LState.start : LState := ⟨[], [], fun _ => nilSlice, fun _ => nilSlice⟩

/-- A step of a program: `paths[v].UnmarshalADC(data)` or `fields[v].UnmarshalADC(data)`. -/
inductive LOp where
  | path (v : Nat) (data : Bytes)
  | fields (v : Nat) (data : Bytes)

/-- One call, `adc/types.go:290-300` or `adc/messages.go:127-148`. -/
def LState.step (extra : Nat → Nat) (st : LState) : LOp → LState × Res Unit
  | .path v data =>
    let r := Path.mem extra data st.pathArrays (st.paths v)
    ({ st with pathArrays := r.1, paths := fun x => if x = v then r.2.1 else st.paths x }, r.2.2)
  | .fields v data =>
    let r := Fields.mem extra data st.fieldArrays (st.fields v)
    ({ st with fieldArrays := r.1, fields := fun x => if x = v then r.2.1 else st.fields x }, r.2.2)

/-- A program: the final state and what the calls returned. -/
def LState.run (extra : Nat → Nat) (st : LState) : List LOp → LState × List (Res Unit)
  | [] => (st, [])
  | op :: ops => (((st.step extra op).1.run extra ops).1, (st.step extra op).2 :: ((st.step extra op).1.run extra ops).2)

/-- Specification: the same program where every variable has a value of its own. -/
def lvals (p : Nat → Path) (f : Nat → Fields) : List LOp → (Nat → Path) × (Nat → Fields) × List (Res Unit)
  | [] => (p, f, [])
  | .path v data :: ops =>
    let r := lvals (fun x => if x = v then (Path.fill data (p v)).1 else p x) f ops
    (r.1, r.2.1, (Path.fill data (p v)).2 :: r.2.2)
  | .fields v data :: ops =>
    let r := lvals p (fun x => if x = v then (Fields.fill data).1 else f x) ops
    (r.1, r.2.1, (Fields.fill data).2 :: r.2.2)

/-- Every slice lies within its array, and no two of them have room in the same array. -/
private def Good {α : Type} (h : Arrays α) (s : Nat → Slc) : Prop :=
  (∀ v, (s v).Within h) ∧ ∀ v w, v ≠ w → (s v).arr ≠ (s w).arr ∨ (s v).cap = 0 ∨ (s w).cap = 0

/-- From the slice `s` to the slice `t`: the same array or a new one, and the old arrays keep their sizes. -/
private def Moves {α : Type} (h : Arrays α) (s : Slc) (h' : Arrays α) (t : Slc) : Prop :=
  h.length ≤ h'.length ∧ (∀ x : Slc, x.Within h → x.Within h') ∧ (t.cap = 0 ∨ (t.arr = s.arr ∧ s.cap ≠ 0) ∨ h.length ≤ t.arr)

private theorem moves_push {α : Type} (zero : α) (extra : Nat → Nat) (x : α) (h : Arrays α) (s : Slc) :
    Moves h s (push zero extra x h s).1 (push zero extra x h s).2 := by
  unfold push
  split
  · refine ⟨by simp, fun t ht => ⟨ht.1, ht.2.imp id fun h2 => ⟨by simpa using h2.1, ?_⟩⟩, Or.inr (Or.inl ⟨rfl, by omega⟩)⟩
    by_cases e : s.arr = t.arr
    · simp only [← e]
      rw [getD_set_self _ _ _ (by rw [e]; exact h2.1), List.length_set, e]
      exact h2.2
    · have : (h.set s.arr ((h.getD s.arr []).set (s.off + s.len) x)).getD t.arr [] = h.getD t.arr [] := by
        simp [List.getD, e]
      simp only [this]
      exact h2.2
  · refine ⟨by simp, fun t ht => ⟨ht.1, ht.2.imp id fun h2 => ⟨?_, ?_⟩⟩, Or.inr (Or.inr (Nat.le_refl _))⟩
    · simp only [List.length_append]
      exact Nat.lt_of_lt_of_le h2.1 (Nat.le_add_right _ _)
    · have : ∀ l : List α, (h ++ [l]).getD t.arr [] = h.getD t.arr [] := by
        intro l
        simp [List.getD, List.getElem?_append, h2.1]
      simp only [this]
      exact h2.2

private theorem moves_same {α : Type} (h : Arrays α) (s : Slc) (n : Nat) : Moves h s h { s with len := n } :=
  ⟨Nat.le_refl _, fun _ hx => hx, by
    by_cases e : s.cap = 0
    · exact Or.inl e
    · exact Or.inr (Or.inl ⟨rfl, e⟩)⟩

private theorem moves_pushAll {α : Type} (zero : α) (extra : Nat → Nat) : ∀ (xs : List α) (h : Arrays α) (s : Slc),
    Moves h s (pushAll zero extra h s xs).1 (pushAll zero extra h s xs).2
  | [], h, s => moves_same h s s.len
  | x :: xs, h, s => by
    have a := moves_push zero extra x h s
    have b := moves_pushAll zero extra xs (push zero extra x h s).1 (push zero extra x h s).2
    simp only [pushAll]
    refine ⟨Nat.le_trans a.1 b.1, fun t ht => b.2.1 t (a.2.1 t ht), ?_⟩
    rcases b.2.2 with b2 | ⟨b2, b3⟩ | b2
    · exact Or.inl b2
    · rcases a.2.2 with a2 | a2 | a2
      · exact absurd a2 b3
      · exact Or.inr (Or.inl ⟨b2.trans a2.1, a2.2⟩)
      · exact Or.inr (Or.inr (by rw [b2]; exact a2))
    · exact Or.inr (Or.inr (Nat.le_trans a.1 b2))

private theorem moves_path (extra : Nat → Nat) (data : Bytes) (h : Arrays Bytes) (p : Slc) :
    Moves h p (Path.mem extra data h p).1 (Path.mem extra data h p).2.1 := by
  simp only [Path.mem, Path.memLoop_eq]
  exact moves_pushAll _ _ _ _ _

private theorem moves_fields (extra : Nat → Nat) (data : Bytes) (h : Arrays Field) (f : Slc) :
    Moves h f (Fields.mem extra data h f).1 (Fields.mem extra data h f).2.1 := by
  by_cases h0 : data.length = 0
  · simp only [Fields.mem, if_pos h0]
    exact moves_same h f 0
  · obtain ⟨good, rest, e, hg, hr⟩ := exists_split (split data c!" ")
    have a := moves_pushAll Field.zero extra (good.filterMap fieldOf) h { f with len := 0 }
    simp only [Fields.mem, if_neg h0, e, Fields.memLoop_eq extra good rest _ _ hg hr]
    by_cases hn : rest = []
    · simp only [if_pos hn]
      exact a
    · simp only [if_neg hn]
      exact ⟨a.1, a.2.1, (moves_same h f 0).2.2⟩

private theorem good_step {α : Type} {h h' : Arrays α} {s : Nat → Slc} (hg : Good h s) (v : Nat) (t : Slc) (hm : Moves h (s v) h' t)
    (ht : t.Within h') : Good h' (fun x => if x = v then t else s x) := by
  have key : ∀ w, w ≠ v → t.arr ≠ (s w).arr ∨ t.cap = 0 ∨ (s w).cap = 0 := by
    intro w hw
    rcases hm.2.2 with e | ⟨e, hc⟩ | e
    · exact Or.inr (Or.inl e)
    · rcases hg.2 v w (fun e => hw e.symm) with h1 | h1 | h1
      · left; rw [e]; exact h1
      · exact absurd h1 hc
      · exact Or.inr (Or.inr h1)
    · rcases (hg.1 w).2 with h1 | h1
      · exact Or.inr (Or.inr h1)
      · exact Or.inl (by omega)
  refine ⟨fun w => ?_, fun w x hwx => ?_⟩
  · simp only
    split
    · exact ht
    · exact hm.2.1 _ (hg.1 w)
  · simp only
    by_cases h1 : w = v
    · have h2 : x ≠ v := fun e => hwx (h1.trans e.symm)
      simp only [h1, if_true, if_neg h2]
      exact key x h2
    · by_cases h2 : x = v
      · simp only [h2, if_true, if_neg h1]
        rcases key w h1 with k | k | k
        · exact Or.inl (fun e => k e.symm)
        · exact Or.inr (Or.inr k)
        · exact Or.inr (Or.inl k)
      · simp only [if_neg h1, if_neg h2]
        exact hg.2 w x hwx

private theorem read_none {α : Type} {t : Slc} {h : Arrays α} (ht : t.Within h) (hc : t.cap = 0) (h' : Arrays α) : t.read h' = [] := by
  have : t.len = 0 := by have := ht.1; omega
  simp [Slc.read, this]

private theorem pushAll_zero {α : Type} (zero : α) (extra : Nat → Nat) (xs : List α) {h : Arrays α} {s t : Slc} (hs : s.Within h) (ht : t.Within h)
    (hc : s.cap = 0) : t.read (pushAll zero extra h s xs).1 = t.read h := by
  obtain ⟨fresh, hf⟩ := pushAll_heap zero extra xs h s hs
  rw [hf, show s.cap - s.len = 0 by omega, List.take_zero, written_nil, set_getD_self]
  by_cases h0 : t.cap = 0
  · rw [read_none ht h0, read_none ht h0]
  · have hta : t.arr < h.length := (ht.2.resolve_left h0).1
    simp [Slc.read, List.getD, List.getElem?_append, hta]

private theorem path_zero (extra : Nat → Nat) (data : Bytes) {h : Arrays Bytes} {p t : Slc} (hp : p.Within h) (ht : t.Within h) (hc : p.cap = 0) :
    t.read (Path.mem extra data h p).1 = t.read h := by
  simp only [Path.mem, Path.memLoop_eq]
  exact pushAll_zero _ _ _ hp ht hc

private theorem fields_zero (extra : Nat → Nat) (data : Bytes) {h : Arrays Field} {f t : Slc} (hf : f.Within h) (ht : t.Within h) (hc : f.cap = 0) :
    t.read (Fields.mem extra data h f).1 = t.read h := by
  by_cases h0 : data.length = 0
  · simp only [Fields.mem, if_pos h0]
  · obtain ⟨good, rest, e, hg, hr⟩ := exists_split (split data c!" ")
    have a := pushAll_zero (s := { f with len := 0 }) Field.zero extra (good.filterMap fieldOf) ⟨Nat.zero_le _, hf.2⟩ ht hc
    simp only [Fields.mem, if_neg h0, e, Fields.memLoop_eq extra good rest _ _ hg hr]
    by_cases hn : rest = []
    · simp only [if_pos hn]
      exact a
    · simp only [if_neg hn]
      exact a

private theorem run_good (extra : Nat → Nat) : ∀ (ops : List LOp) (st : LState), Good st.pathArrays st.paths → Good st.fieldArrays st.fields →
    ((fun v => ((st.run extra ops).1.paths v).read (st.run extra ops).1.pathArrays),
      (fun v => ((st.run extra ops).1.fields v).read (st.run extra ops).1.fieldArrays), (st.run extra ops).2) =
    lvals (fun v => (st.paths v).read st.pathArrays) (fun v => (st.fields v).read st.fieldArrays) ops
  | [], _, _, _ => rfl
  | .path v data :: ops, st, hp, hf => by
    have a := path_value extra data (hp.1 v)
    have ih := run_good extra ops (st.step extra (.path v data)).1 (good_step hp v _ (moves_path extra data _ _) a.2) hf
    have e : (fun x => ((st.step extra (.path v data)).1.paths x).read (st.step extra (.path v data)).1.pathArrays) =
        fun x => if x = v then (Path.fill data ((st.paths v).read st.pathArrays)).1 else (st.paths x).read st.pathArrays := by
      funext x
      simp only [LState.step]
      by_cases hx : x = v
      · simp only [if_pos hx, ← a.1]
      · simp only [if_neg hx]
        rcases hp.2 x v hx with h1 | h1 | h1
        · exact path_others extra data (hp.1 v) (hp.1 x) (Or.inl h1)
        · rw [read_none (hp.1 x) h1, read_none (hp.1 x) h1]
        · exact path_zero extra data (hp.1 v) (hp.1 x) h1
    rw [e] at ih
    simp only [LState.run, lvals]
    rw [show (fun x => (st.fields x).read st.fieldArrays) = fun x => ((st.step extra (.path v data)).1.fields x).read
      (st.step extra (.path v data)).1.fieldArrays from rfl, ← ih, ← congrArg Prod.snd a.1]
    rfl
  | .fields v data :: ops, st, hp, hf => by
    have a := fields_value extra data (hf.1 v)
    have ih := run_good extra ops (st.step extra (.fields v data)).1 hp (good_step hf v _ (moves_fields extra data _ _) a.2)
    have e : (fun x => ((st.step extra (.fields v data)).1.fields x).read (st.step extra (.fields v data)).1.fieldArrays) =
        fun x => if x = v then (Fields.fill data).1 else (st.fields x).read st.fieldArrays := by
      funext x
      simp only [LState.step]
      by_cases hx : x = v
      · simp only [if_pos hx, ← a.1]
      · simp only [if_neg hx]
        rcases hf.2 x v hx with h1 | h1 | h1
        · exact fields_others extra data (hf.1 v) (hf.1 x) (Or.inl h1)
        · rw [read_none (hf.1 x) h1, read_none (hf.1 x) h1]
        · exact fields_zero extra data (hf.1 v) (hf.1 x) h1
    rw [e] at ih
    simp only [LState.run, lvals]
    rw [show (fun x => (st.paths x).read st.pathArrays) = fun x => ((st.step extra (.fields v data)).1.paths x).read
      (st.step extra (.fields v data)).1.pathArrays from rfl, ← ih, ← congrArg Prod.snd a.1]
    rfl

/-- **C125.** A program that decodes into any number of variables, in any order and as often as it likes, and copies none of them reads what it would
read if every variable had a list of its own; every call returns the same. -/
theorem program_values (extra : Nat → Nat) (ops : List LOp) :
    ((fun v => ((LState.start.run extra ops).1.paths v).read (LState.start.run extra ops).1.pathArrays),
      (fun v => ((LState.start.run extra ops).1.fields v).read (LState.start.run extra ops).1.fieldArrays), (LState.start.run extra ops).2) =
    lvals (fun _ => []) (fun _ => []) ops := by
  have g : ∀ α : Type, Good ([] : Arrays α) (fun _ => nilSlice) := fun α => ⟨fun _ => ⟨Nat.le_refl _, Or.inl rfl⟩, fun _ _ _ => Or.inr (Or.inl rfl)⟩
  exact run_good extra ops LState.start (g _) (g _)

/-- Two paths and two lists of fields, decoded in turn with arrays that have room to spare. -/
example : let st := (LState.start.run (fun _ => 3) [.path 0 b!"a/b", .path 1 b!"x", .fields 0 b!"NIa SSb", .path 0 b!"c", .fields 1 b!"NIq",
      .fields 0 b!"X"]).1
    (st.paths 0).read st.pathArrays = [b!"a", b!"b", b!"c"] ∧ (st.paths 1).read st.pathArrays = [b!"x"] ∧
      (st.fields 0).read st.fieldArrays = [] ∧ ((st.fields 1).read st.fieldArrays).map text = [b!"NIq"] := by decide

end Verif.Props.ListMemory
