import Verif.Go.Base64

/-!
# `encoding/pem`: `Decode`
-/

namespace Verif.Go.Pem

/-- `pemStart`. -/
def start : Bytes := b!"\n-----BEGIN "
/-- `pemEnd`. -/
def fin : Bytes := b!"\n-----END "
/-- `pemEndOfLine`. -/
def dashes : Bytes := b!"-----"

/-- Spaces and tabs. -/
def blank (c : Byte) : Bool := c = c!" " || c = c!"\t"

/-- `bytes.HasSuffix`. -/
def hasSuffix (s p : Bytes) : Bool := p.isSuffixOf s

/-- `getLine`: the first line without its end and without blanks before it, and the rest. -/
def getLine (d : Bytes) : Bytes × Bytes :=
  match indexByte d c!"\n" with
  | none => (trimRight d blank, [])
  | some i => (trimRight (d.take (if 0 < i ∧ d[i - 1]? = some c!"\r" then i - 1 else i)) blank, d.drop (i + 1))

theorem getLine_rest (d : Bytes) : (getLine d).2.length ≤ d.length ∧ (d ≠ [] → (getLine d).2.length < d.length) := by
  unfold getLine
  split
  · refine ⟨by simp, fun h => ?_⟩
    have := List.length_pos_iff.mpr h
    simpa using this
  · rename_i i hi
    have := indexByte_lt hi
    simp
    omega

/-- The loop over the header lines: whether there were any, and what follows; `none` if there is no other line. -/
def headers (had : Bool) (rest : Bytes) : Option (Bool × Bytes) :=
  if h : rest = [] then none
  else if c!":" ∈ (getLine rest).1 then headers true (getLine rest).2
  else some (had, rest)
termination_by rest.length
decreasing_by exact (getLine_rest rest).2 h

/-- The start of a block: what follows `-----BEGIN ` at the beginning of the data, or else at the beginning of the first line that has it. -/
def begin? (data : Bytes) : Option Bytes :=
  if hasPrefix data (start.drop 1) then some (data.drop 11)
  else (index data start).map fun i => data.drop (i + 12)

/-- Where the last line begins, and where it goes on after `-----END `. -/
def end? (had : Bool) (rest : Bytes) : Option (Nat × Nat) :=
  if had = false ∧ hasPrefix rest (fin.drop 1) = true then some (0, 9)
  else (index rest fin).map fun i => (i, i + 10)

/-- What comes of the first block: nothing, a block with its type, its bytes and the rest, or a place to start over from (`decodeError`). -/
inductive Step where
  | none
  | block (typ b rest : Bytes)
  | again (rest : Bytes)
deriving DecidableEq

/-- The last line, from `rest`, the data after the headers. -/
def last (typ : Bytes) (had : Bool) (rest : Bytes) : Step :=
  match end? had rest with
  | .none => .again rest
  | some (i, j) =>
    let trailer := rest.drop j
    let n := typ.length + dashes.length
    if trailer.length < n then .again rest
    else if ¬ hasPrefix (trailer.take n) typ ∨ ¬ hasSuffix (trailer.take n) dashes then .again rest
    else if (getLine (trailer.drop n)).1 ≠ [] then .again rest
    else match Base64.decode ((rest.take i).filter fun c => !blank c) with
      | .none => .again rest
      | some b => .block typ b (getLine (rest.drop (i + 9))).2

/-- `Decode` up to the point where it gives a block or starts over. Headers are read and forgotten. -/
def step (data : Bytes) : Step :=
  match begin? data with
  | .none => .none
  | some rest =>
    let line := (getLine rest).1
    let rest := (getLine rest).2
    if ¬ hasSuffix line dashes then .again rest
    else match headers false rest with
      | .none => .none
      | some (had, rest) => last (line.take (line.length - dashes.length)) had rest

theorem headers_rest {had had' : Bool} {rest rest' : Bytes} (h : headers had rest = some (had', rest')) : rest'.length ≤ rest.length := by
  induction hn : rest.length using Nat.strongRecOn generalizing had rest with
  | _ n ih =>
    subst hn
    unfold headers at h
    split at h
    · cases h
    · rename_i hr
      split at h
      · have h1 := (getLine_rest rest).2 hr
        have := ih _ h1 h rfl
        omega
      · cases h; exact Nat.le_refl _

theorem begin_rest {data rest : Bytes} (h : begin? data = some rest) : rest.length < data.length := by
  unfold begin? at h
  split at h
  · rename_i hp
    cases h
    obtain ⟨t, rfl⟩ := hasPrefix_iff.mp hp
    simp [start]
    omega
  · cases hi : index data start with
    | none => rw [hi] at h; cases h
    | some i =>
      rw [hi] at h
      cases h
      obtain ⟨a, b, rfl, rfl, _⟩ := index_some hi
      simp [start]
      omega

theorem step_rest {data : Bytes} : (∀ rest, step data = .again rest → rest.length < data.length) ∧
    (∀ t b rest, step data = .block t b rest → rest.length < data.length) := by
  unfold step
  split
  · simp
  · rename_i rest hb
    have h1 := begin_rest hb
    have h2 := (getLine_rest rest).1
    simp only
    split
    · refine ⟨?_, by simp⟩
      intro r h; cases h; omega
    · split
      · simp
      · rename_i had rest' hh
        have h3 := headers_rest hh
        unfold last
        split
        · refine ⟨?_, by simp⟩
          intro r h; cases h; omega
        · rename_i i j _
          simp only
          split
          · refine ⟨?_, by simp⟩
            intro r h; cases h; omega
          · split
            · refine ⟨?_, by simp⟩
              intro r h; cases h; omega
            · split
              · refine ⟨?_, by simp⟩
                intro r h; cases h; omega
              · split
                · refine ⟨?_, by simp⟩
                  intro r h; cases h; omega
                · refine ⟨by simp, ?_⟩
                  intro t b r h
                  cases h
                  have := (getLine_rest (rest'.drop (i + 9))).1
                  simp at this
                  omega

/-- `Decode`: the type and the bytes of the first block and the rest, or nothing. -/
def decode (data : Bytes) : Option (Bytes × Bytes × Bytes) :=
  match h : step data with
  | .none => none
  | .block t b rest => some (t, b, rest)
  | .again rest => decode rest
termination_by data.length
decreasing_by exact step_rest.1 rest h

theorem decode_shorter (d t b rest : Bytes) (h : decode d = some (t, b, rest)) : rest.length < d.length := by
  induction hn : d.length using Nat.strongRecOn generalizing d with
  | _ n ih =>
    subst hn
    unfold decode at h
    split at h
    · cases h
    · rename_i hs
      cases h
      exact step_rest.2 _ _ _ hs
    · rename_i r hs
      have h1 := step_rest.1 _ hs
      have := ih _ h1 r h rfl
      omega

end Verif.Go.Pem
