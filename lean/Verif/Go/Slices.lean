import Verif.Go.Basic

/-!
# Slices and the parts of package `bytes` / `strings` that the code uses

Indexing and slicing panic out of range.  Searches work on bytes.
-/

namespace Verif.Go

/-- `s[i]`. -/
def at' (s : List α) (i : Nat) : Res α :=
  match s[i]? with
  | some b => .ok b
  | none => .panic

/-- `s[i:]`. -/
def sliceFrom (s : List α) (i : Nat) : Res (List α) := if i ≤ s.length then .ok (s.drop i) else .panic

/-- `s[:i]` (of a slice whose capacity is not known to be larger). -/
def sliceTo (s : List α) (i : Nat) : Res (List α) := if i ≤ s.length then .ok (s.take i) else .panic

/-- `s[i:j]`. -/
def slice (s : List α) (i j : Nat) : Res (List α) :=
  if i ≤ j ∧ j ≤ s.length then .ok ((s.take j).drop i) else .panic

theorem at'_ok {s : List α} {i : Nat} (h : i < s.length) : at' s i = .ok s[i] := by simp [at', h]

theorem sliceFrom_ok {s : List α} {i : Nat} (h : i ≤ s.length) : sliceFrom s i = .ok (s.drop i) := by
  simp [sliceFrom, h]

theorem sliceTo_ok {s : List α} {i : Nat} (h : i ≤ s.length) : sliceTo s i = .ok (s.take i) := by
  simp [sliceTo, h]

theorem slice_ok {s : List α} {i j : Nat} (h : i ≤ j) (h' : j ≤ s.length) :
    slice s i j = .ok ((s.take j).drop i) := by
  simp [slice, h, h']

@[simp] theorem sliceFrom_append (a b : List α) : sliceFrom (a ++ b) a.length = .ok b := by
  simp [sliceFrom]

@[simp] theorem sliceFrom_append' (a : List α) (c : α) (b : List α) :
    sliceFrom (a ++ c :: b) (a.length + 1) = .ok b := by
  have : a ++ c :: b = (a ++ [c]) ++ b := by simp
  rw [this]
  have h2 : a.length + 1 = (a ++ [c]).length := by simp
  rw [h2, sliceFrom_append]

@[simp] theorem sliceTo_append (a b : List α) : sliceTo (a ++ b) a.length = .ok a := by
  simp [sliceTo]

/-- `bytes.IndexByte`. -/
def indexByte (s : Bytes) (c : Byte) : Option Nat :=
  match s with
  | [] => none
  | b :: bs => if b = c then some 0 else (indexByte bs c).map (· + 1)

theorem indexByte_none {s : Bytes} {c : Byte} : indexByte s c = none ↔ c ∉ s := by
  induction s with
  | nil => simp [indexByte]
  | cons b bs ih =>
    simp only [indexByte]
    split
    · simp_all
    · rename_i h
      simp only [Option.map_eq_none_iff, ih, List.mem_cons, not_or]
      exact ⟨fun h' => ⟨fun e => h e.symm, h'⟩, fun h' => h'.2⟩

@[simp] theorem indexByte_append {a b : Bytes} {c : Byte} (h : c ∉ a) :
    indexByte (a ++ c :: b) c = some a.length := by
  induction a with
  | nil => simp [indexByte]
  | cons x a ih =>
    simp at h
    simp [indexByte, Ne.symm h.1, ih h.2]

theorem indexByte_some {s : Bytes} {c : Byte} {i : Nat} (h : indexByte s c = some i) :
    ∃ a b, s = a ++ c :: b ∧ c ∉ a ∧ a.length = i := by
  induction s generalizing i with
  | nil => simp [indexByte] at h
  | cons x s ih =>
    simp only [indexByte] at h
    split at h
    · rename_i hx; cases h; exact ⟨[], s, by simp [hx], by simp, rfl⟩
    · rename_i hx
      cases hi : indexByte s c with
      | none => simp [hi] at h
      | some j =>
        simp [hi] at h
        obtain ⟨a, b, rfl, h2, h3⟩ := ih hi
        exact ⟨x :: a, b, by simp, by simp [h2, Ne.symm hx], by simp [h3, h]⟩

theorem indexByte_lt {s : Bytes} {c : Byte} {i : Nat} (h : indexByte s c = some i) : i < s.length := by
  obtain ⟨a, b, rfl, _, rfl⟩ := indexByte_some h
  simp

/-- `bytes.HasPrefix`. -/
def hasPrefix (s p : Bytes) : Bool := p.isPrefixOf s

theorem hasPrefix_iff {s p : Bytes} : hasPrefix s p = true ↔ p <+: s := by simp [hasPrefix]

/-- `bytes.Index`. The empty pattern is found at 0. -/
def index (s p : Bytes) : Option Nat :=
  if p.isPrefixOf s then some 0
  else match s with
    | [] => none
    | _ :: bs => (index bs p).map (· + 1)

/-- `bytes.Contains`. -/
def contains (s p : Bytes) : Bool := (index s p).isSome

theorem index_some {s p : Bytes} {i : Nat} (h : index s p = some i) :
    ∃ a b, s = a ++ p ++ b ∧ a.length = i ∧ ∀ j < i, ¬ p <+: s.drop j := by
  induction s generalizing i with
  | nil =>
    unfold index at h
    split at h
    · rename_i hp
      cases h
      have : p = [] := by simpa using hp
      exact ⟨[], [], by simp [this], rfl, by simp⟩
    · simp at h
  | cons x s ih =>
    unfold index at h
    split at h
    · rename_i hp
      cases h
      have hp : p <+: x :: s := by simpa using hp
      obtain ⟨b, hb⟩ := hp
      exact ⟨[], b, by simp [hb], rfl, by simp⟩
    · rename_i hp
      cases hi : index s p with
      | none => simp [hi] at h
      | some j =>
        simp [hi] at h
        obtain ⟨a, b, h1, h2, h3⟩ := ih hi
        refine ⟨x :: a, b, by simp [h1], by simp [h2, h], ?_⟩
        intro k hk
        cases k with
        | zero => simpa using hp
        | succ k => simpa using h3 k (by omega)

theorem index_none {s p : Bytes} (h : index s p = none) : ∀ j ≤ s.length, ¬ p <+: s.drop j := by
  induction s with
  | nil =>
    intro j hj
    unfold index at h
    simp at h hj
    simpa [hj] using h
  | cons x s ih =>
    unfold index at h
    split at h
    · simp at h
    · rename_i hp
      simp at h
      intro j hj
      cases j with
      | zero => simpa using hp
      | succ j => simpa using ih h j (by simpa using hj)

theorem index_eq {s p : Bytes} {i : Nat} (h : p <+: s.drop i) (hi : i ≤ s.length) (hn : ∀ j < i, ¬ p <+: s.drop j) :
    index s p = some i := by
  cases hx : index s p with
  | none => exact absurd h (index_none hx i hi)
  | some k =>
    obtain ⟨a, b, h1, h2, h3⟩ := index_some hx
    rcases Nat.lt_trichotomy k i with hlt | heq | hgt
    · refine absurd ?_ (hn k hlt)
      rw [h1, ← h2]
      simp
    · rw [heq]
    · exact absurd h (h3 i hgt)

/-- `bytes.Index` finds the pattern right after text that does not hold its first byte. -/
theorem index_append {a p b : Bytes} {c : Byte} (h : c ∉ a) : index (a ++ (c :: p) ++ b) (c :: p) = some a.length := by
  refine index_eq ?_ (by simp) ?_
  · simp
  · intro j hj hp
    obtain ⟨t, ht⟩ := hp
    have h1 : ((a ++ (c :: p) ++ b).drop j).head? = some c := by rw [← ht]; rfl
    rw [List.append_assoc, List.drop_append_of_le_length (by omega), List.drop_eq_getElem_cons hj] at h1
    simp only [List.cons_append, List.head?_cons, Option.some.injEq] at h1
    exact h (h1 ▸ List.getElem_mem hj)

/-- `bytes.LastIndexByte`, `strings.LastIndexByte`. -/
def lastIndexByte (s : Bytes) (c : Byte) : Option Nat :=
  match s with
  | [] => none
  | b :: bs =>
    match lastIndexByte bs c with
    | some i => some (i + 1)
    | none => if b = c then some 0 else none

theorem lastIndexByte_none {s : Bytes} {c : Byte} : lastIndexByte s c = none ↔ c ∉ s := by
  induction s with
  | nil => simp [lastIndexByte]
  | cons b bs ih =>
    simp only [lastIndexByte]
    split
    · rename_i i hi
      have : ¬ c ∉ bs := by rw [← ih, hi]; simp
      simp at this
      simp [this]
    · rename_i hn
      have hbs := ih.mp hn
      split
      · rename_i h; simp [h]
      · rename_i h; simp [hbs]; exact fun h' => h h'.symm

@[simp] theorem lastIndexByte_append {a b : Bytes} {c : Byte} (h : c ∉ b) :
    lastIndexByte (a ++ c :: b) c = some a.length := by
  induction a with
  | nil => simp [lastIndexByte, lastIndexByte_none.mpr h]
  | cons x a ih => simp [lastIndexByte, ih]

theorem lastIndexByte_some {s : Bytes} {c : Byte} {i : Nat} (h : lastIndexByte s c = some i) :
    ∃ a b, s = a ++ c :: b ∧ c ∉ b ∧ a.length = i := by
  induction s generalizing i with
  | nil => simp [lastIndexByte] at h
  | cons x s ih =>
    simp only [lastIndexByte] at h
    split at h
    · rename_i j hj
      cases h
      obtain ⟨a, b, rfl, h2, h3⟩ := ih hj
      exact ⟨x :: a, b, by simp, h2, by simp [h3]⟩
    · rename_i hn
      split at h
      · rename_i hx; cases h
        exact ⟨[], s, by simp [hx], lastIndexByte_none.mp hn, rfl⟩
      · simp at h

theorem lastIndexByte_lt {s : Bytes} {c : Byte} {i : Nat} (h : lastIndexByte s c = some i) : i < s.length := by
  obtain ⟨a, b, rfl, _, rfl⟩ := lastIndexByte_some h
  simp

/-- `bytes.Split(s, []byte{sep})`: always at least one piece. -/
def split (s : Bytes) (sep : Byte) : List Bytes :=
  match s with
  | [] => [[]]
  | b :: bs =>
    if b = sep then [] :: split bs sep
    else
      match split bs sep with
      | [] => [[b]]
      | p :: ps => (b :: p) :: ps

/-- `bytes.Join(ps, []byte{sep})`. -/
def join (ps : List Bytes) (sep : Byte) : Bytes :=
  match ps with
  | [] => []
  | [p] => p
  | p :: ps => p ++ sep :: join ps sep

theorem split_ne_nil (s : Bytes) (sep : Byte) : split s sep ≠ [] := by
  cases s with
  | nil => simp [split]
  | cons b bs =>
    simp only [split]
    split
    · simp
    · split <;> simp

theorem split_of_not_mem {s : Bytes} {sep : Byte} (h : sep ∉ s) : split s sep = [s] := by
  induction s with
  | nil => rfl
  | cons b bs ih =>
    simp at h
    simp [split, Ne.symm h.1, ih h.2]

@[simp] theorem split_append {a b : Bytes} {sep : Byte} (h : sep ∉ a) :
    split (a ++ sep :: b) sep = a :: split b sep := by
  induction a with
  | nil => simp [split]
  | cons x a ih =>
    simp at h
    simp [split, Ne.symm h.1, ih h.2]

/-- Splitting undoes joining. -/
theorem split_join {ps : List Bytes} {sep : Byte} (hne : ps ≠ []) (h : ∀ p ∈ ps, sep ∉ p) :
    split (join ps sep) sep = ps := by
  induction ps with
  | nil => simp at hne
  | cons p ps ih =>
    cases ps with
    | nil => simp [join, split_of_not_mem (h p (by simp))]
    | cons q ps =>
      rw [join, split_append (h p (by simp)), ih (by simp) (fun x hx => h x (by simp [hx]))]
      simp

/-- `bytes.SplitN(s, []byte{sep}, n)` for `n ≥ 1`: at most `n` pieces. -/
def splitMax (s : Bytes) (sep : Byte) : Nat → List Bytes
  | 0 => []
  | 1 => [s]
  | n + 2 =>
    match indexByte s sep with
    | none => [s]
    | some i => s.take i :: splitMax (s.drop (i + 1)) sep (n + 1)

theorem splitMax_of_not_mem {s : Bytes} {sep : Byte} (h : sep ∉ s) (n : Nat) : splitMax s sep (n + 1) = [s] := by
  cases n with
  | zero => rfl
  | succ n => simp [splitMax, indexByte_none.mpr h]

theorem splitMax_append {a b : Bytes} {sep : Byte} (h : sep ∉ a) (n : Nat) :
    splitMax (a ++ sep :: b) sep (n + 2) = a :: splitMax b sep (n + 1) := by
  simp [splitMax, indexByte_append h]

/-- `bytes.TrimLeft(s, cutset)` for a set of ASCII bytes. -/
def trimLeft (s : Bytes) (cut : Byte → Bool) : Bytes := s.dropWhile cut

/-- `bytes.TrimRight(s, cutset)` for a set of ASCII bytes. -/
def trimRight (s : Bytes) (cut : Byte → Bool) : Bytes := (s.reverse.dropWhile cut).reverse

theorem dropWhile_nil {l : List α} {p : α → Bool} : l.dropWhile p = [] ↔ ∀ x ∈ l, p x = true := by
  induction l with
  | nil => simp
  | cons a l ih =>
    simp only [List.dropWhile_cons, List.mem_cons, forall_eq_or_imp]
    cases h : p a <;> simp [ih]

theorem trimRight_append_cut {s : Bytes} {c : Byte} {cut : Byte → Bool} (h : cut c = true) :
    trimRight (s ++ [c]) cut = trimRight s cut := by simp [trimRight, h]

theorem trimRight_snoc {s : Bytes} {c : Byte} {cut : Byte → Bool} (h : cut c = false) :
    trimRight (s ++ [c]) cut = s ++ [c] := by simp [trimRight, h]

theorem trimRight_nil (cut : Byte → Bool) : trimRight [] cut = [] := rfl

/-- Nothing to trim at the end. -/
theorem trimRight_id {s : Bytes} {cut : Byte → Bool} (h : ∀ c, s.getLast? = some c → cut c = false) :
    trimRight s cut = s := by
  rcases List.eq_nil_or_concat s with rfl | ⟨a, x, rfl⟩
  · rfl
  · exact (by simpa using trimRight_snoc (s := a) (h x (by simp)))

theorem trimLeft_id {s : Bytes} {cut : Byte → Bool} (h : ∀ c, s.head? = some c → cut c = false) :
    trimLeft s cut = s := by
  cases s with
  | nil => rfl
  | cons x s => simp [trimLeft, h x rfl]

end Verif.Go
