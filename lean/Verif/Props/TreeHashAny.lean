import Verif.Props.TreeHash

/-!
# The tree hash of a reader that splits its data in any way (C53)

`TreeHash.split_independent_partial` covers readers that fill their buffer.  Here the reader is arbitrary: the hash is the root
of the THEX tree whose leaves are what the single calls of `Read` returned.
-/

namespace Verif.Props.TreeHashAny

open Verif.Go Verif.Lineproto Verif.Spec Verif.Tiger Verif.Props.TreeHash

variable (H : Bytes → Hash)

/-- `Served first s cs e`: calls of `Read` with room for 1024 bytes return the pieces `cs` and then end the data, or fail with `e`.
The first piece may be empty; a later empty one, with `io.EOF` or without, ends the data. -/
inductive Served : Bool → Src → List Bytes → Option Err → Prop where
  | fail (first : Bool) (s s' : Src) (d : Bytes) (e : Err) (h : s.read 1024 = ((d, some e), s')) (he : e ≠ .eof) :
      Served first s [] (some e)
  | stop (s s' : Src) (e : Option Err) (h : s.read 1024 = (([], e), s')) (he : e = none ∨ e = some .eof) : Served false s [] none
  | last (first : Bool) (s s' : Src) (d : Bytes) (h : s.read 1024 = ((d, some .eof), s')) (hd : first = true ∨ d ≠ []) :
      Served first s [d] none
  | more (first : Bool) (s s' : Src) (d : Bytes) (cs : List Bytes) (e : Option Err) (h : s.read 1024 = ((d, none), s'))
      (hd : first = true ∨ d ≠ []) (t : Served false s' cs e) : Served first s (d :: cs) e

/-- Every reader is served in some way. -/
theorem served_exists (first : Bool) (s : Src) : ∃ cs e, Served first s cs e := by
  generalize hn : srcSize s = n
  induction n using Nat.strongRecOn generalizing first s with
  | _ n ih =>
    obtain ⟨d, e, s', hr⟩ : ∃ d e s', s.read 1024 = ((d, e), s') := ⟨_, _, _, rfl⟩
    by_cases hs : first = false ∧ d = [] ∧ (e = none ∨ e = some .eof)
    · obtain ⟨rfl, rfl, he⟩ := hs
      exact ⟨_, _, .stop s s' e hr he⟩
    · have hd : (e = none ∨ e = some .eof) → first = true ∨ d ≠ [] := by
        intro he
        cases first
        · exact .inr fun hd => hs ⟨rfl, hd, he⟩
        · exact .inl rfl
      cases e with
      | none =>
        obtain ⟨cs, e, h⟩ := ih _ (by rw [← hn]; exact srcSize_read (by decide) hr (by simp)) false s' rfl
        exact ⟨_, _, .more first s s' d cs e hr (hd (.inl rfl)) h⟩
      | some e =>
        by_cases he : e = .eof
        · subst he; exact ⟨_, _, .last first s s' d hr (hd (.inr rfl))⟩
        · exact ⟨_, _, .fail first s s' d e hr he⟩

/-- In one way only. -/
theorem served_unique {first : Bool} {s : Src} {cs cs' : List Bytes} {e e' : Option Err} (h : Served first s cs e)
    (h' : Served first s cs' e') : cs = cs' ∧ e = e' := by
  induction h generalizing cs' e' with
  | fail first s s' d e h he => cases h' <;> simp_all
  | stop s s' e h he => rcases he with rfl | rfl <;> cases h' <;> simp_all
  | last first s s' d h hd => cases h' <;> simp_all
  | more first s s' d cs e h hd t ih =>
    cases h' with
    | more _ _ s'' d' cs'' _ h2 hd2 t2 =>
      rw [h] at h2
      simp only [Prod.mk.injEq, and_true] at h2
      obtain ⟨rfl, rfl⟩ := h2
      have := ih t2
      simp [this]
    | fail | stop | last => simp_all

/-- No piece is longer than a block. -/
theorem served_short {first : Bool} {s : Src} {cs : List Bytes} {e : Option Err} (h : Served first s cs e) :
    ∀ c ∈ cs, c.length ≤ 1024 := by
  have key : ∀ (s s' : Src) (d : Bytes) (e : Option Err), s.read 1024 = ((d, e), s') → d.length ≤ 1024 := by
    intro s s' d e h
    unfold Src.read at h
    split at h
    · simp only [Prod.mk.injEq] at h; rw [← h.1.1]; simp
    · split at h <;> (simp only [Prod.mk.injEq] at h; rw [← h.1.1])
      · assumption
      · simp; omega
  induction h with
  | fail | stop => simp
  | last first s s' d h hd => simpa using key _ _ _ _ h
  | more first s s' d cs e h hd t ih => intro c hc; cases hc with
    | head => exact key _ _ _ _ h
    | tail _ hc => exact ih c hc

theorem leaves_served {first : Bool} {s : Src} {cs : List Bytes} {e : Option Err} (h : Served first s cs e) (lvl : List Hash)
    (hl : first = true ↔ lvl = []) : leavesLoop H lvl s = (lvl ++ cs.map fun b => H (0 :: b), e) := by
  induction h generalizing lvl with
  | fail first s s' d e h he =>
    rw [leavesLoop_read H lvl s s' _ _ h]
    simp [he]
  | stop s s' e h he =>
    rw [leavesLoop_read H lvl s s' _ _ h]
    rcases he with rfl | rfl <;> simp_all
  | last first s s' d h hd =>
    rw [leavesLoop_read H lvl s s' _ _ h]
    have : ¬ (d = [] ∧ lvl ≠ []) := by rintro ⟨h1, h2⟩; rcases hd with hd | hd <;> simp_all
    simp [this]
  | more first s s' d cs e h hd t ih =>
    rw [leavesLoop_read H lvl s s' _ _ h]
    have : ¬ (d = [] ∧ lvl ≠ []) := by rintro ⟨h1, h2⟩; rcases hd with hd | hd <;> simp_all
    simp only [this, if_false]
    rw [ih _ (by simp)]
    simp

/-- **C53, for every reader.** Without an error the result is the root of the THEX tree over the pieces that were read, one leaf
for each; `TreeLeaves` are their digests. -/
theorem any_reader {s : Src} {cs : List Bytes} (hs : Served true s cs none) {t : Tree Bytes} (ht : Thex t) (hl : t.leaves = cs) :
    treeHash H s = .ok (t.root H) ∧ treeLeaves H s = (cs.map fun b => H (0 :: b), none) := by
  have hl' := leaves_served H hs [] (by simp)
  refine ⟨?_, hl'⟩
  obtain ⟨t', l1, l2, l3⟩ := value_root H t
  rw [treeHash, treeLoop_eq, hl']
  simp only [List.nil_append]
  rw [treeLevels_eq, ← hl, ← l1, levels_value H t' (l3 ht), l2]

/-- There is such a tree: without an error there was a piece. -/
theorem served_ne_nil {s : Src} {cs : List Bytes} (hs : Served true s cs none) : cs ≠ [] := by
  cases hs <;> simp

/-- Errors of the reader are errors of both functions. -/
theorem reader_error {s : Src} {cs : List Bytes} {e : Err} (hs : Served true s cs (some e)) :
    treeHash H s = .err e ∧ (treeLeaves H s).2 = some e := by
  have hl' := leaves_served H hs [] (by simp)
  exact ⟨by rw [treeHash, treeLoop_eq, hl'], by rw [treeLeaves, hl']⟩

/-- A reader that fills its buffer serves blocks. -/
theorem full_served {s : Src} {d : Bytes} (h : FullReader s d) : Served true s (blocks d) none := by
  have key : ∀ {s : Src} {d : Bytes}, FullReader s d → ∀ first, (first = true ∨ d ≠ []) → Served first s (blocks d) none := by
    intro s d h
    induction h with
    | eof s s' h =>
      intro first hf
      have : first = true := by simpa using hf
      subst this
      rw [blocks]; exact .last _ s s' [] h (.inl rfl)
    | lastWithEof s s' d hl h => intro first hf; rw [blocks, if_pos hl]; exact .last _ s s' d h hf
    | last s s' s'' d hne hl h h' =>
      intro first hf
      rw [blocks, if_pos hl]
      exact .more _ s s' d [] none h (.inr hne) (.stop s' s'' _ h' (.inr rfl))
    | block s s' b d hl h hd t ih =>
      intro first hf
      have hlen : 0 < d.length := List.length_pos_iff.mpr hd
      rw [blocks, if_neg (by simp; omega)]
      have := Served.more first s s' b _ _ h (.inr (by intro h; subst h; simp at hl)) (ih false (.inr hd))
      simpa [← hl] using this
  exact key h true (.inl rfl)

/-- **C53, when it holds.** A reader whose pieces are the blocks of the data gives the hash of the data. -/
theorem blocks_served {s : Src} {d : Bytes} (hs : Served true s (blocks d) none) {t : Tree Bytes} (ht : IsTreeOf d t) :
    treeHash H s = .ok (t.root H) :=
  (any_reader H hs ht.1 ht.2).1

/-- **C53, when it fails.** A reader that splits the data in another way gives another hash than the data has, unless two
different strings that were hashed on the way have the same digest. -/
theorem other_split {s : Src} {cs : List Bytes} (hs : Served true s cs none) (hne : cs ≠ blocks cs.flatten) {t t' : Tree Bytes}
    (ht : Thex t) (hl : t.leaves = cs) (ht' : IsTreeOf cs.flatten t') (h : treeHash H s = .ok (t'.root H)) :
    ∃ x ∈ t.inputs H, ∃ y ∈ t'.inputs H, x ≠ y ∧ H x = H y := by
  rw [(any_reader H hs ht hl).1] at h
  refine trees_collide H t t' (Res.ok.inj h) ?_
  rintro rfl
  exact hne (hl.symm.trans ht'.2)

/-- **C78.** Two readers whose reads give different pieces have different tree hashes, unless two different strings that were
hashed on the way have the same digest. -/
theorem splits_collide {s s' : Src} {cs cs' : List Bytes} (hs : Served true s cs none) (hs' : Served true s' cs' none) (hne : cs ≠ cs')
    {t t' : Tree Bytes} (ht : Thex t) (hl : t.leaves = cs) (ht' : Thex t') (hl' : t'.leaves = cs') (h : treeHash H s = treeHash H s') :
    ∃ x ∈ t.inputs H, ∃ y ∈ t'.inputs H, x ≠ y ∧ H x = H y := by
  rw [(any_reader H hs ht hl).1, (any_reader H hs' ht' hl').1] at h
  refine trees_collide H t t' (Res.ok.inj h) ?_
  rintro rfl
  exact hne (hl.symm.trans hl')

/-- A network connection that delivers two packets of 100 bytes: two leaves instead of one. -/
example (a b : Bytes) (ha : a.length = 100) (hb : b.length = 100) :
    Served true [⟨a, none⟩, ⟨b, none⟩] [a, b] none ∧ [a, b] ≠ blocks [a, b].flatten := by
  have ha' : a ≠ [] := by intro h; subst h; simp at ha
  have hb' : b ≠ [] := by intro h; subst h; simp at hb
  refine ⟨.more _ _ [⟨b, none⟩] a _ _ (by simp [Src.read, ha]) (.inr ha')
    (.more _ _ [] b _ _ (by simp [Src.read, hb]) (.inr hb') (.stop _ [] (some .eof) rfl (.inr rfl))), ?_⟩
  rw [blocks, if_pos (by simp [ha, hb])]
  intro h; simp at h

/-- An empty first read is a leaf of its own. -/
example (a : Bytes) (ha : a.length = 100) : Served true [⟨[], none⟩, ⟨a, none⟩] [[], a] none := by
  have ha' : a ≠ [] := by intro h; subst h; simp at ha
  exact .more _ _ [⟨a, none⟩] [] _ _ (by simp [Src.read]) (.inl rfl)
    (.more _ _ [] a _ _ (by simp [Src.read, ha]) (.inr ha') (.stop _ [] (some .eof) rfl (.inr rfl)))

/-- An error after some data. -/
example (a : Bytes) (ha : a.length = 100) : Served true [⟨a, none⟩, ⟨[], some (.other 0)⟩] [a] (some (.other 0)) := by
  have ha' : a ≠ [] := by intro h; subst h; simp at ha
  exact .more _ _ [⟨[], some (.other 0)⟩] a _ _ (by simp [Src.read, ha]) (.inr ha') (.fail _ _ [] [] _ (by simp [Src.read]) (by simp))

end Verif.Props.TreeHashAny
