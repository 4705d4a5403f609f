import Verif.Adc.FeatureMemory

/-! # C126: variables that hold feature maps -/

namespace Verif.Props.FeatureMemory

open Verif.Go Verif.Adc

/-! ## Specification: variables with values of their own -/

/-- A variable gets a value. -/
def upd (s : Nat → ModFeatures) (v : Nat) (m : ModFeatures) : Nat → ModFeatures := fun x => if x = v then m else s x

/-- The same steps where every variable holds a value of its own. -/
def vstep [ParseFloat] (s : Nat → ModFeatures) : FOp → (Nat → ModFeatures) × Res Unit
  | .copy v w => (upd s v (s w), .ok ())
  | .clone v w => (upd s v (some (s w).clone), .ok ())
  | .setFrom v w x => (upd s v ((s w).setFrom (s x)), .ok ())
  | .intersect v w x => (upd s v ((s w).intersect (s x)), .ok ())
  | .unmarshal v data => (upd s v (ModFeatures.fill data (s v)).1, (ModFeatures.fill data (s v)).2)
  | .put v fea b =>
    match s v with
    | none => (s, .panic)
    | some l => (upd s v (some (l.assign fea b)), .ok ())

def vrun [ParseFloat] (s : Nat → ModFeatures) : List FOp → (Nat → ModFeatures) × List (Res Unit)
  | [] => (s, [])
  | op :: ops => ((vrun (vstep s op).1 ops).1, (vstep s op).2 :: (vrun (vstep s op).1 ops).2)

/-- The step assigns no variable to another. -/
def NoCopy : FOp → Prop
  | .copy _ _ => False
  | _ => True

/-- Two variables hold the same map. -/
def Share (st : FState) (v w : Nat) : Prop := st.vars v ≠ none ∧ st.vars v = st.vars w

/-- The variable a step sets or changes. -/
def target : FOp → Nat
  | .copy v _ => v
  | .clone v _ => v
  | .setFrom v _ _ => v
  | .intersect v _ _ => v
  | .unmarshal v _ => v
  | .put v _ _ => v

/-- The step changes the map of its variable in place. -/
def InPlace : FOp → Prop
  | .unmarshal _ _ => True
  | .put _ _ _ => True
  | _ => False

/-! ## Proofs -/

private def Ok (st : FState) : Prop := ∀ v a, st.vars v = some a → a < st.maps.length

private theorem read_setVar (st : FState) (v w : Nat) (a : Option Nat) :
    (st.setVar v a).read w = if w = v then a.map (fun a => st.maps.getD a []) else st.read w := by
  unfold FState.setVar FState.read
  simp only
  split <;> rfl

private theorem read_fresh {st : FState} (hok : Ok st) (v w : Nat) (m : ModFeatures) :
    (st.fresh v m).read w = if w = v then m else st.read w := by
  cases m with
  | none => exact read_setVar st v w none
  | some l =>
    unfold FState.fresh FState.read
    simp only
    by_cases h : w = v
    · simp [h]
    · simp only [if_neg h]
      cases hw : st.vars w with
      | none => rfl
      | some a =>
        have := hok w a hw
        simp only [Option.map_some, List.getD]
        rw [List.getElem?_append_left this]

private theorem read_setMap {st : FState} (hok : Ok st) {v a : Nat} (ha : st.vars v = some a) (w : Nat) (l : FeaList) :
    ((st.setMap a l).read w = some l ∧ st.vars w = some a) ∨ ((st.setMap a l).read w = st.read w ∧ st.vars w ≠ some a) := by
  unfold FState.setMap FState.read
  simp only
  cases hw : st.vars w with
  | none => right; simp
  | some b =>
    by_cases h : b = a
    · subst h
      left
      simp [List.getD, List.getElem?_set_self (hok v b ha)]
    · right
      refine ⟨?_, by simpa using h⟩
      simp only [Option.map_some, List.getD]
      rw [List.getElem?_set_ne (fun e => h e.symm)]

private theorem fill_some [ParseFloat] (data : Bytes) (l : FeaList) :
    (ModFeatures.fill data (some l)).1 = some (ModFeatures.fill data (some l)).1.entries := by
  unfold ModFeatures.fill
  split
  · rfl
  · rfl
  · split <;> rfl

private theorem ok_fresh {st : FState} (hok : Ok st) (v : Nat) (m : ModFeatures) : Ok (st.fresh v m) := by
  intro w a h
  cases m with
  | none =>
    simp only [FState.fresh, FState.setVar] at h ⊢
    split at h
    · cases h
    · exact hok w a h
  | some l =>
    simp only [FState.fresh, List.length_append, List.length_cons, List.length_nil] at h ⊢
    split at h
    · cases h; omega
    · have := hok w a h; omega

private theorem ok_step [ParseFloat] {st : FState} (hok : Ok st) (op : FOp) : Ok (st.step op).1 := by
  cases op with
  | copy v w =>
    intro x a h
    simp only [FState.step, FState.setVar] at h ⊢
    split at h
    · exact hok w a h
    · exact hok x a h
  | clone v w => exact ok_fresh hok v (some (st.read w).clone)
  | setFrom v w x => exact ok_fresh hok _ _
  | intersect v w x => exact ok_fresh hok _ _
  | unmarshal v data =>
    simp only [FState.step]
    split
    · exact ok_fresh hok _ _
    · intro w b h
      simpa [FState.setMap] using hok w b h
  | put v fea b =>
    simp only [FState.step]
    split
    · exact hok
    · intro w b h
      simpa [FState.setMap] using hok w b h

private theorem ok_run [ParseFloat] (ops : List FOp) : ∀ {st : FState}, Ok st → Ok (st.run ops).1 := by
  induction ops with
  | nil => exact fun h => h
  | cons op ops ih => exact fun h => ih (ok_step h op)

private theorem ok_start : Ok FState.start := by intro v a h; cases h

private theorem read_some {st : FState} {v a : Nat} (h : st.vars v = some a) : st.read v = some (st.maps.getD a []) := by
  simp [FState.read, h]

private theorem effect [ParseFloat] {st : FState} (hok : Ok st) (op : FOp) (w : Nat) :
    (st.step op).2 = (vstep st.read op).2 ∧
    (w = target op ∨ (InPlace op ∧ Share st (target op) w) → (st.step op).1.read w = (vstep st.read op).1 (target op)) ∧
    (¬ (w = target op ∨ (InPlace op ∧ Share st (target op) w)) → (st.step op).1.read w = st.read w) := by
  cases op with
  | copy v x =>
    refine ⟨rfl, fun h => ?_, fun h => ?_⟩
    · have : w = v := by simpa [target, InPlace] using h
      simp only [FState.step, read_setVar, vstep, upd, target, this, if_true]
      rfl
    · have : w ≠ v := by simpa [target, InPlace] using h
      simp [FState.step, read_setVar, this]
  | clone v x =>
    refine ⟨rfl, fun h => ?_, fun h => ?_⟩
    · have : w = v := by simpa [target, InPlace] using h
      simp [FState.step, read_fresh hok, vstep, upd, target, this]
    · have : w ≠ v := by simpa [target, InPlace] using h
      simp [FState.step, read_fresh hok, this]
  | setFrom v x y =>
    refine ⟨rfl, fun h => ?_, fun h => ?_⟩
    · have : w = v := by simpa [target, InPlace] using h
      simp [FState.step, read_fresh hok, vstep, upd, target, this]
    · have : w ≠ v := by simpa [target, InPlace] using h
      simp [FState.step, read_fresh hok, this]
  | intersect v x y =>
    refine ⟨rfl, fun h => ?_, fun h => ?_⟩
    · have : w = v := by simpa [target, InPlace] using h
      simp [FState.step, read_fresh hok, vstep, upd, target, this]
    · have : w ≠ v := by simpa [target, InPlace] using h
      simp [FState.step, read_fresh hok, this]
  | unmarshal v data =>
    simp only [target, InPlace, true_and, Share, vstep, upd, if_true]
    cases hv : st.vars v with
    | none =>
      simp only [FState.step, hv, ne_eq, not_true_eq_false, false_and, or_false, read_fresh hok, true_and]
      exact ⟨fun h => by simp [h], fun h => by simp [h]⟩
    | some a =>
      have hr := read_some hv
      have hs := read_setMap hok hv w (ModFeatures.fill data (st.read v)).1.entries
      have hf : (ModFeatures.fill data (st.read v)).1 = some (ModFeatures.fill data (st.read v)).1.entries := by
        rw [hr]; exact fill_some _ _
      simp only [FState.step, hv, ne_eq, reduceCtorEq, not_false_eq_true, true_and]
      refine ⟨fun h => ?_, fun h => ?_⟩
      · have hw : st.vars w = some a := by
          rcases h with h | h
          · rw [h, hv]
          · exact h.symm
        rcases hs with hs | hs
        · rw [hs.1, ← hf]
        · exact absurd hw hs.2
      · rcases hs with hs | hs
        · exact absurd (Or.inr hs.2.symm) h
        · exact hs.1
  | put v fea b =>
    simp only [target, InPlace, true_and, Share]
    cases hv : st.vars v with
    | none =>
      have hr : st.read v = none := by simp [FState.read, hv]
      simp only [FState.step, hv, vstep, hr, ne_eq, not_true_eq_false, false_and, or_false, true_and]
      exact ⟨fun h => by rw [h, hr], fun _ => trivial⟩
    | some a =>
      have hr := read_some hv
      have hs := read_setMap hok hv w ((st.maps.getD a []).assign fea b)
      simp only [FState.step, hv, vstep, hr, ne_eq, reduceCtorEq, not_false_eq_true, true_and, upd, if_true]
      refine ⟨fun h => ?_, fun h => ?_⟩
      · have hw : st.vars w = some a := by
          rcases h with h | h
          · rw [h, hv]
          · exact h.symm
        rcases hs with hs | hs
        · exact hs.1
        · exact absurd hw hs.2
      · rcases hs with hs | hs
        · exact absurd (Or.inr hs.2.symm) h
        · exact hs.1

/-- **C126.** In every program, what a step does is what it does where all variables have values of their own, for its result and its variable;
if it decodes into a variable or assigns to a map, all variables that hold the same map read the same afterwards; all other variables keep
their values. -/
theorem step_effect [ParseFloat] (ops : List FOp) (op : FOp) (w : Nat) :
    let st := (FState.start.run ops).1
    (st.step op).2 = (vstep st.read op).2 ∧
    (w = target op ∨ (InPlace op ∧ Share st (target op) w) → (st.step op).1.read w = (vstep st.read op).1 (target op)) ∧
    (¬ (w = target op ∨ (InPlace op ∧ Share st (target op) w)) → (st.step op).1.read w = st.read w) :=
  effect (ok_run ops ok_start) op w

/-- **C126.** Which variables share a map after a step: those that did, and after `v = w` also `v` with `w` and all that share with `w`; a variable
that was set to a result of `Clone`, `SetFrom` or `Intersect`, or that was nil and is decoded into, shares with no other. -/
theorem step_share [ParseFloat] (ops : List FOp) (op : FOp) (x y : Nat) (hxy : x ≠ y) :
    let st := (FState.start.run ops).1
    (Share (st.step op).1 x y ↔ match op with
      | .copy v w => if x = v then Share st w y ∨ (y = w ∧ st.vars w ≠ none) else if y = v then Share st x w ∨ (x = w ∧ st.vars w ≠ none)
        else Share st x y
      | .clone v _ => x ≠ v ∧ y ≠ v ∧ Share st x y
      | .setFrom v _ _ => x ≠ v ∧ y ≠ v ∧ Share st x y
      | .intersect v _ _ => x ≠ v ∧ y ≠ v ∧ Share st x y
      | .unmarshal _ _ => Share st x y
      | .put _ _ _ => Share st x y) := by
  intro st
  have hok : Ok st := ok_run ops ok_start
  have key : ∀ v m, Share (st.fresh v m) x y ↔ x ≠ v ∧ y ≠ v ∧ Share st x y := by
    intro v m
    unfold Share
    cases m with
    | none =>
      simp only [FState.fresh, FState.setVar]
      by_cases h1 : x = v
      · simp [h1]
      · by_cases h2 : y = v
        · simp [h1, h2]
        · simp [h1, h2]
    | some l =>
      simp only [FState.fresh]
      by_cases h1 : x = v
      · have h2 : y ≠ v := fun e => hxy (h1.trans e.symm)
        simp only [h1, if_true, if_neg h2, ne_eq, not_true_eq_false, false_and, iff_false, not_and]
        intro _ e
        have := hok y _ e.symm
        omega
      · by_cases h2 : y = v
        · simp only [h2, if_true, if_neg h1, ne_eq, not_true_eq_false, false_and, and_false, iff_false, not_and]
          intro _ e
          have := hok x _ e
          omega
        · simp [h1, h2]
  cases op with
  | copy v w =>
    simp only [FState.step, FState.setVar, Share]
    by_cases h1 : x = v
    · have h2 : y ≠ v := fun e => hxy (h1.trans e.symm)
      simp only [if_pos h1, if_neg h2]
      constructor
      · exact Or.inl
      · rintro (h | ⟨rfl, h⟩)
        · exact h
        · exact ⟨h, rfl⟩
    · by_cases h2 : y = v
      · simp only [if_neg h1, if_pos h2]
        constructor
        · exact Or.inl
        · rintro (h | ⟨rfl, h⟩)
          · exact h
          · exact ⟨h, rfl⟩
      · simp only [if_neg h1, if_neg h2]
  | clone v w => exact key v (some (st.read w).clone)
  | setFrom v w z => exact key _ _
  | intersect v w z => exact key _ _
  | unmarshal v data =>
    simp only [FState.step]
    cases hv : st.vars v with
    | none =>
      simp only
      rw [key]
      constructor
      · exact fun h => h.2.2
      · intro h
        refine ⟨?_, ?_, h⟩
        · rintro rfl; exact h.1 hv
        · rintro rfl; exact h.1 (h.2.trans hv)
    | some a => exact Iff.rfl
  | put v fea b =>
    simp only [FState.step]
    cases hv : st.vars v with
    | none => exact Iff.rfl
    | some a => exact Iff.rfl

private theorem apart_run [ParseFloat] (ops : List FOp) (hn : ∀ op ∈ ops, NoCopy op) : ∀ pre : List FOp,
    (∀ x y, x ≠ y → ¬ Share (FState.start.run pre).1 x y) →
    ∀ s : Nat → ModFeatures, (FState.start.run pre).1.read = s →
      ((FState.start.run pre).1.run ops).2 = (vrun s ops).2 ∧ ((FState.start.run pre).1.run ops).1.read = (vrun s ops).1 := by
  have run_append : ∀ (ops : List FOp) (st : FState) (op : FOp), (st.run (ops ++ [op])).1 = ((st.run ops).1.step op).1 := by
    intro ops
    induction ops with
    | nil => intro st op; rfl
    | cons o ops ih => intro st op; simp only [List.cons_append, FState.run]; exact ih _ _
  induction ops with
  | nil => intro pre _ s h; exact ⟨rfl, h⟩
  | cons op ops ih =>
    intro pre hs s h
    have hop := hn op (by simp)
    have e : (FState.start.run (pre ++ [op])).1.read = (vstep s op).1 := by
      funext w
      rw [run_append]
      have ef := step_effect pre op w
      simp only [h] at ef
      by_cases hw : w = target op
      · rw [ef.2.1 (Or.inl hw), hw]
      · rw [ef.2.2 (by
          rintro (h1 | ⟨_, h1⟩)
          · exact hw h1
          · exact hs _ _ (fun e => hw e.symm) h1)]
        cases op <;> simp only [vstep, upd, target] at hw ⊢ <;> try simp [hw]
        split
        · rfl
        · simp [upd, hw]
    have hs' : ∀ x y, x ≠ y → ¬ Share (FState.start.run (pre ++ [op])).1 x y := by
      intro x y hxy hsh
      rw [run_append] at hsh
      have := (step_share pre op x y hxy).1 hsh
      cases op with
      | copy v w => exact hop
      | clone v w => exact hs x y hxy this.2.2
      | setFrom v w z => exact hs x y hxy this.2.2
      | intersect v w z => exact hs x y hxy this.2.2
      | unmarshal v data => exact hs x y hxy this
      | put v fea b => exact hs x y hxy this
    have r := ih (fun o ho => hn o (by simp [ho])) (pre ++ [op]) hs' _ e
    rw [run_append] at r
    simp only [FState.run, vrun]
    refine ⟨?_, r.2⟩
    rw [r.1]
    have ef := (step_effect pre op 0).1
    simp only [h] at ef
    rw [ef]

/-- **C126.** A program that assigns no variable to another, but makes all its copies by `Clone`, `SetFrom` and `Intersect`, runs as if all
variables had values of their own. -/
theorem own_values [ParseFloat] (ops : List FOp) (hn : ∀ op ∈ ops, NoCopy op) :
    (FState.start.run ops).2 = (vrun (fun _ => none) ops).2 ∧ (FState.start.run ops).1.read = (vrun (fun _ => none) ops).1 :=
  apart_run ops hn [] (fun _ _ _ h => h.1 rfl) _ rfl

/-- **C126, finding.** A copy of the features made by an assignment changes with the next update that is decoded into the variable: first `ADBASE`
into 0, then 1 is set to 0, then `RMBASE ADTIGR` is decoded into 0. A copy of a nil variable does not. -/
theorem copy_follows [ParseFloat] :
    let base : Feature := ⟨b!"BASE", rfl⟩
    let tigr : Feature := ⟨b!"TIGR", rfl⟩
    (FState.start.run [.unmarshal 0 b!"ADBASE", .copy 1 0]).1.read 1 = some [(base, true)] ∧
    (FState.start.run [.unmarshal 0 b!"ADBASE", .copy 1 0, .unmarshal 0 b!"RMBASE ADTIGR"]).1.read 1 = some [(base, false), (tigr, true)] ∧
    (FState.start.run [.copy 1 0, .unmarshal 0 b!"ADBASE"]).1.read 1 = none := by
  refine ⟨?_, ?_, ?_⟩ <;> rfl

/-- A program without assignments: the clone keeps its value. -/
example [ParseFloat] : (∀ op ∈ [FOp.unmarshal 0 b!"ADBASE", .clone 1 0, .unmarshal 0 b!"RMBASE"], NoCopy op) ∧
    (FState.start.run [.unmarshal 0 b!"ADBASE", .clone 1 0, .unmarshal 0 b!"RMBASE"]).1.read 1 = some [(⟨b!"BASE", rfl⟩, true)] := by
  refine ⟨?_, rfl⟩
  intro op h
  simp only [List.mem_cons, List.not_mem_nil, or_false] at h
  rcases h with rfl | rfl | rfl <;> trivial

/-- Two variables that share a map. -/
example [ParseFloat] : Share (FState.start.run [.unmarshal 0 b!"ADBASE", .copy 1 0]).1 0 1 := ⟨Option.some_ne_none 0, rfl⟩

end Verif.Props.FeatureMemory
