import Verif.Tiger.TreeLemmas

/-!
# The tree hash (C52, C53, C54, C55)

The specification is `Verif/Spec/Thex.lean`.  `H` is the hash function, any function to 24 bytes.
-/

namespace Verif.Props.TreeHash

open Verif.Go Verif.Lineproto Verif.Spec Verif.Tiger

variable (H : Bytes → Hash)

/-! ## The trees of the specification -/

/-- For every non-empty list of leaves there is one THEX tree. -/
theorem tree_exists {α : Type} (l : List α) (h : l ≠ []) : ∃ t : Tree α, Thex t ∧ t.leaves = l := by
  generalize hn : l.length = n
  induction n using Nat.strongRecOn generalizing l with
  | _ n ih =>
    by_cases h1 : n ≤ 1
    · match l, h, hn with
      | [a], _, _ => exact ⟨.leaf a, .leaf a, rfl⟩
      | _ :: _ :: _, _, hn => simp at hn; omega
    · have : ∃ e, 2 ^ e < n ∧ n ≤ 2 * 2 ^ e := by
        clear ih hn h
        induction n with
        | zero => omega
        | succ m ihm =>
          by_cases hm : m ≤ 1
          · exact ⟨0, by omega, by omega⟩
          · obtain ⟨e, h1, h2⟩ := ihm hm
            by_cases h3 : m + 1 ≤ 2 * 2 ^ e
            · exact ⟨e, by omega, h3⟩
            · exact ⟨e + 1, by rw [Nat.pow_succ]; omega, by rw [Nat.pow_succ]; omega⟩
      obtain ⟨e, h2, h3⟩ := this
      have hp : 0 < 2 ^ e := Nat.pow_pos (by decide)
      obtain ⟨tl, t1, l1⟩ := ih (2 ^ e) h2 (l.take (2 ^ e)) (by intro h; have := congrArg List.length h; rw [List.length_take, hn, List.length_nil] at this; omega) (by simp; omega)
      obtain ⟨tr, t2, l2⟩ := ih (n - 2 ^ e) (by omega) (l.drop (2 ^ e)) (by intro h; have := congrArg List.length h; simp at this; omega) (by simp; omega)
      refine ⟨.node tl tr, .node _ _ t1 t2 ?_, by simp [Tree.leaves, l1, l2]⟩
      rw [l1, l2, List.take_append_drop]
      refine ⟨⟨e, by simp; omega⟩, ?_, ?_⟩ <;> simp <;> omega

theorem largestPow_unique {k k' n : Nat} (h : LargestPow k n) (h' : LargestPow k' n) : k = k' := by
  obtain ⟨⟨a, rfl⟩, h1, h2⟩ := h
  obtain ⟨⟨b, rfl⟩, h3, h4⟩ := h'
  have lt : ∀ x y : Nat, 2 ^ x < 2 * 2 ^ y → x ≤ y := by
    intro x y h
    have : 2 ^ x < 2 ^ (y + 1) := by rw [Nat.pow_succ]; omega
    have := (Nat.pow_lt_pow_iff_right (by decide : 1 < 2)).mp this
    omega
  have := lt a b (by omega)
  have := lt b a (by omega)
  rw [show a = b by omega]

theorem tree_unique {α : Type} {t t' : Tree α} (h : Thex t) (h' : Thex t') (hl : t.leaves = t'.leaves) : t = t' := by
  induction h generalizing t' with
  | leaf a =>
    cases h' with
    | leaf b => simp [Tree.leaves] at hl; rw [hl]
    | node l r =>
      have := leaves_pos l; have := leaves_pos r
      have := congrArg List.length hl
      simp [Tree.leaves] at this; omega
  | node l r _ _ hk ih1 ih2 =>
    cases h' with
    | leaf b =>
      have := leaves_pos l; have := leaves_pos r
      have := congrArg List.length hl
      simp [Tree.leaves] at this; omega
    | node l' r' hl' hr' hk' =>
      simp only [Tree.leaves] at hl
      rw [hl] at hk
      obtain ⟨h1, h2⟩ := List.append_inj hl (largestPow_unique hk hk')
      rw [ih1 hl' h1, ih2 hr' h2]

theorem blocks_flatten (d : Bytes) : (blocks d).flatten = d := by
  induction d using blocks.induct with
  | case1 d h => rw [blocks, if_pos h]; simp
  | case2 d h ih => rw [blocks, if_neg h]; simp [ih]

theorem blocks_ne_nil (d : Bytes) : blocks d ≠ [] := by
  rw [blocks]; split <;> simp

/-- The THEX tree of a file. -/
def IsTreeOf (d : Bytes) (t : Tree Bytes) : Prop := Thex t ∧ t.leaves = blocks d

/-- Every file has exactly one. -/
theorem file_tree (d : Bytes) : ∃ t, IsTreeOf d t ∧ ∀ t', IsTreeOf d t' → t' = t := by
  obtain ⟨t, h1, h2⟩ := tree_exists (blocks d) (blocks_ne_nil d)
  exact ⟨t, ⟨h1, h2⟩, fun t' h' => tree_unique h'.1 h1 (by rw [h'.2, h2])⟩

/-! ## C52 -/

/-- A reader that gives the bytes `d` and fills its buffer: full blocks, then the rest, `io.EOF` with the last bytes or after
them. -/
inductive FullReader : Src → Bytes → Prop where
  | eof (s s' : Src) (h : s.read 1024 = (([], some .eof), s')) : FullReader s []
  | lastWithEof (s s' : Src) (d : Bytes) (hl : d.length ≤ 1024) (h : s.read 1024 = ((d, some .eof), s')) : FullReader s d
  | last (s s' s'' : Src) (d : Bytes) (hne : d ≠ []) (hl : d.length ≤ 1024) (h : s.read 1024 = ((d, none), s'))
      (h' : s'.read 1024 = (([], some .eof), s'')) : FullReader s d
  | block (s s' : Src) (b d : Bytes) (hl : b.length = 1024) (h : s.read 1024 = ((b, none), s')) (hd : d ≠ []) (t : FullReader s' d) :
      FullReader s (b ++ d)

theorem leaves_full {s : Src} {d : Bytes} (h : FullReader s d) (lvl : List Hash) (hl : lvl = [] ∨ d ≠ []) :
    leavesLoop H lvl s = (lvl ++ (blocks d).map fun b => H (0 :: b), none) := by
  induction h generalizing lvl with
  | eof s s' h =>
    rw [leavesLoop_read H lvl s s' _ _ h]
    have : lvl = [] := by rcases hl with h | h <;> simp_all
    subst this
    rw [blocks]
    simp
  | lastWithEof s s' d h1 h =>
    rw [leavesLoop_read H lvl s s' _ _ h]
    have : ¬ (d = [] ∧ lvl ≠ []) := by rcases hl with h | h <;> simp [h]
    rw [blocks]
    simp [this, h1]
  | last s s' s'' d hne h1 h h' =>
    rw [leavesLoop_read H lvl s s' _ _ h, leavesLoop_read H _ s' s'' _ _ h']
    rw [blocks]
    simp [h1, hne]
  | block s s' b d h1 h hd t ih =>
    rw [leavesLoop_read H lvl s s' _ _ h]
    have hb : b ≠ [] := by intro h; subst h; simp at h1
    simp only [hb, false_and, if_false]
    rw [ih _ (.inr hd)]
    have hlen : 0 < d.length := List.length_pos_iff.mpr hd
    conv => rhs; rw [blocks, if_neg (by simp; omega)]
    simp [← h1]

/-- The digests of the leaves under the tree. -/
theorem value_root (t : Tree Bytes) : ∃ t' : Tree Hash, t'.leaves = t.leaves.map (fun b => H (0 :: b)) ∧
    value (nodeHash H) t' = t.root H ∧ (Thex t → Thex t') := by
  induction t with
  | leaf b => exact ⟨.leaf (H (0 :: b)), rfl, rfl, fun _ => .leaf _⟩
  | node l r ihl ihr =>
    obtain ⟨l', l1, l2, l3⟩ := ihl
    obtain ⟨r', r1, r2, r3⟩ := ihr
    refine ⟨.node l' r', by simp [Tree.leaves, l1, r1], by simp only [value, l2, r2, Tree.root, nodeHash], ?_⟩
    intro h
    cases h with
    | node _ _ hl hr hk => exact .node _ _ (l3 hl) (r3 hr) (by simpa [l1, r1] using hk)

/-- **C52.** For a reader that fills its buffer, `TreeHash` is the root of the THEX tree of the bytes, and `TreeLeaves` are the
digests of its leaves. -/
theorem treeHash_correct {s : Src} {d : Bytes} (hs : FullReader s d) {t : Tree Bytes} (ht : IsTreeOf d t) :
    treeHash H s = .ok (t.root H) ∧ treeLeaves H s = ((blocks d).map fun b => H (0 :: b), none) := by
  have hl := leaves_full H hs [] (.inl rfl)
  refine ⟨?_, hl⟩
  obtain ⟨t', l1, l2, l3⟩ := value_root H t
  rw [treeHash, treeLoop_eq, hl]
  simp only [List.nil_append]
  rw [treeLevels_eq, ← ht.2, ← l1, levels_value H t' (l3 ht.1), l2]

/-- `bytes.Reader` fills its buffer. -/
theorem bytesReader_full (d : Bytes) (h : d ≠ []) : FullReader [⟨d, none⟩] d := by
  induction d using blocks.induct with
  | case1 d hl => exact .last _ [] [] d h hl (by simp [Src.read, hl]) rfl
  | case2 d hl ih =>
    have hd : d.drop 1024 ≠ [] := by intro h; have := congrArg List.length h; simp at this; omega
    have := FullReader.block [⟨d, none⟩] [⟨d.drop 1024, none⟩] (d.take 1024) (d.drop 1024) (by simp; omega)
      (by simp [Src.read]; omega) hd (ih hd)
    rwa [List.take_append_drop] at this

/-- So is the empty one. -/
example : FullReader [] [] := .eof [] [] rfl

/-- A file of 2500 bytes has three blocks and the tree ((0 1) 2). -/
example (d : Bytes) (h : d.length = 2500) : treeHash H [⟨d, none⟩] = .ok (H (1 :: ((H (1 :: ((H (0 :: d.take 1024)).bytes ++
    (H (0 :: (d.drop 1024).take 1024)).bytes))).bytes ++ (H (0 :: d.drop 2048)).bytes))) := by
  have hne : d ≠ [] := by intro h'; subst h'; simp at h
  refine (treeHash_correct H (bytesReader_full d hne) (t := .node (.node (.leaf (d.take 1024)) (.leaf ((d.drop 1024).take 1024)))
    (.leaf (d.drop 2048))) ⟨.node _ _ (.node _ _ (.leaf _) (.leaf _) ⟨⟨0, rfl⟩, by simp [Tree.leaves], by simp [Tree.leaves]⟩) (.leaf _) ⟨⟨1, rfl⟩, by simp [Tree.leaves], by simp [Tree.leaves]⟩, ?_⟩).1
  rw [blocks, if_neg (by omega), blocks, if_neg (by simp; omega), blocks, if_pos (by simp; omega)]
  simp [Tree.leaves]

/-! ## C53: false in general -/

/-- **C53, in part.** All readers that fill their buffers give the same result. -/
theorem split_independent_partial {s s' : Src} {d : Bytes} (h : FullReader s d) (h' : FullReader s' d) :
    treeHash H s = treeHash H s' ∧ treeLeaves H s = treeLeaves H s' := by
  obtain ⟨t, ht, _⟩ := file_tree d
  have h1 := treeHash_correct H h ht
  have h2 := treeHash_correct H h' ht
  exact ⟨h1.1.trans h2.1.symm, h1.2.trans h2.2.symm⟩

/-- Two bytes read one at a time have another tree: the same hash as for reading both at once would be a collision of `H`. -/
theorem split_matters (a b : Byte) :
    treeHash H [⟨[a], none⟩, ⟨[b], none⟩] = .ok (H (1 :: ((H [0, a]).bytes ++ (H [0, b]).bytes))) ∧
    treeHash H [⟨[a, b], none⟩] = .ok (H [0, a, b]) := by
  constructor
  · rw [treeHash, treeLoop_eq, leavesLoop_read H _ _ [⟨[b], none⟩] [a] none (by simp [Src.read, tthBlock])]
    simp only [reduceCtorEq, false_and, if_false]
    rw [leavesLoop_read H _ _ [] [b] none (by simp [Src.read, tthBlock])]
    simp only [reduceCtorEq, false_and, if_false]
    rw [leavesLoop_read H _ _ [] [] (some .eof) (by simp [Src.read])]
    simp only [ne_eq, not_true_eq_false, if_false, List.append_eq_nil_iff, List.cons_ne_self, not_false_eq_true, and_self, if_true, List.nil_append]
    rw [treeLevels_eq, levels_step H _ (by simp)]
    simp only [List.cons_append, List.nil_append, pairUp, nodeHash]
    rw [levels_one]
  · rw [treeHash, treeLoop_eq, leavesLoop_read H _ _ [] [a, b] none (by simp [Src.read, tthBlock])]
    simp only [reduceCtorEq, false_and, if_false]
    rw [leavesLoop_read H _ _ [] [] (some .eof) (by simp [Src.read])]
    simp [treeLevels_eq, levels_one]

/-- A read that returns no bytes and no error, which `io.Reader` allows, ends the hash early: whatever follows is ignored, without
an error. -/
theorem empty_read_truncates (b : Bytes) (hb : b ≠ []) (hl : b.length ≤ 1024) (rest : Src) :
    treeHash H (⟨b, none⟩ :: ⟨[], none⟩ :: rest) = treeHash H [⟨b, none⟩] := by
  have e1 : Src.read tthBlock (⟨b, none⟩ :: ⟨[], none⟩ :: rest) = ((b, none), ⟨[], none⟩ :: rest) := by
    simp [Src.read, tthBlock, hl]
  have e2 : Src.read tthBlock [⟨b, none⟩] = ((b, none), []) := by simp [Src.read, tthBlock, hl]
  simp only [treeHash, treeLoop_eq]
  rw [leavesLoop_read H _ _ _ _ _ e1, leavesLoop_read H _ _ _ _ _ e2]
  simp only [hb, false_and, if_false]
  rw [leavesLoop_read H _ (⟨[], none⟩ :: rest) rest [] none (by simp [Src.read]), leavesLoop_read H _ [] [] [] (some .eof) rfl]
  simp

/-! ## C54 -/

/-- **C54.** For every reader: the same error or, from the leaves, the same root.  There is always a leaf, so that the root
exists. -/
theorem leaves_same_root (s : Src) :
    treeHash H s = match treeLeaves H s with
      | (_, some e) => .err e
      | (l, none) => leavesTreeHash H l := by
  simp only [treeHash, treeLeaves, treeLoop_eq, leavesTreeHash]
  cases leavesLoop H [] s with
  | mk l e => cases e <;> simp [treeLevels_eq]

theorem leaves_ne_nil (lvl : List Hash) (s : Src) (l : List Hash) (h : leavesLoop H lvl s = (l, none)) : l ≠ [] := by
  generalize hn : srcSize s = n
  induction n using Nat.strongRecOn generalizing lvl s with
  | _ n ih =>
    obtain ⟨d, e, s', hr⟩ : ∃ d e s', s.read tthBlock = ((d, e), s') := ⟨_, _, _, rfl⟩
    rw [leavesLoop_read H lvl s s' d e hr] at h
    cases e with
    | some e =>
      simp only at h
      split at h
      · simp at h
      · split at h <;> simp only [Prod.mk.injEq, and_true] at h <;> subst h
        · rename_i hc; exact hc.2
        · simp
    | none =>
      simp only at h
      split at h
      · simp only [Prod.mk.injEq, and_true] at h; subst h; rename_i hc; exact hc.2
      · exact ih _ (by rw [← hn]; exact srcSize_read (by decide) hr (by simp)) _ _ h rfl

/-- Neither function panics on leaves that come from a reader. -/
theorem treeHash_no_panic (s : Src) : treeHash H s ≠ .panic := by
  have key : ∀ l : List Hash, l ≠ [] → ∃ r, levels H l = .ok r := by
    intro l hl
    obtain ⟨t, h1, h2⟩ := tree_exists l hl
    exact ⟨_, by rw [← h2]; exact levels_value H t h1⟩
  simp only [treeHash, treeLoop_eq]
  cases hl : leavesLoop H [] s with
  | mk l e =>
    cases e with
    | some e => simp
    | none =>
      obtain ⟨r, hr⟩ := key l (leaves_ne_nil H [] s l hl)
      simp [treeLevels_eq, hr]

/-- Leaves that do not come from a reader may be empty; then `TreeHash` panics. -/
theorem empty_leaves_panic : leavesTreeHash H [] = .panic := by
  rw [leavesTreeHash, levels]; simp

/-! ## C55 -/

/-- **C55, on trees.** Different trees with the same root: among the strings hashed for them are two different ones with the
same digest. -/
theorem trees_collide (t t' : Tree Bytes) (h : t.root H = t'.root H) (hne : t ≠ t') :
    ∃ x ∈ t.inputs H, ∃ y ∈ t'.inputs H, x ≠ y ∧ H x = H y := by
  induction t generalizing t' with
  | leaf b =>
    cases t' with
    | leaf b' =>
      refine ⟨_, List.mem_singleton.mpr rfl, _, List.mem_singleton.mpr rfl, ?_, h⟩
      intro e; simp at e; exact hne (by rw [e])
    | node l r => exact ⟨_, List.mem_singleton.mpr rfl, _, List.mem_cons_self, by simp, h⟩
  | node l r ih1 ih2 =>
    cases t' with
    | leaf b => exact ⟨_, List.mem_cons_self, _, List.mem_singleton.mpr rfl, by simp, h⟩
    | node l' r' =>
      by_cases hin : (l.root H).bytes ++ (r.root H).bytes = (l'.root H).bytes ++ (r'.root H).bytes
      · obtain ⟨h1, h2⟩ := List.append_inj hin (by rw [(l.root H).size, (l'.root H).size])
        have e1 : l.root H = l'.root H := by cases hx : l.root H; cases hy : l'.root H; simp_all
        have e2 : r.root H = r'.root H := by cases hx : r.root H; cases hy : r'.root H; simp_all
        by_cases hl : l = l'
        · have hr : r ≠ r' := fun hr => hne (by rw [hl, hr])
          obtain ⟨x, hx, y, hy, hxy⟩ := ih2 r' e2 hr
          exact ⟨x, by simp [Tree.inputs, hx], y, by simp [Tree.inputs, hy], hxy⟩
        · obtain ⟨x, hx, y, hy, hxy⟩ := ih1 l' e1 hl
          exact ⟨x, by simp [Tree.inputs, hx], y, by simp [Tree.inputs, hy], hxy⟩
      · exact ⟨_, List.mem_cons_self, _, List.mem_cons_self, by simpa using hin, h⟩

/-- **C55.** If `TreeHash` gives the same result for two different byte strings, then two different strings that were hashed on
the way have the same digest. -/
theorem collision {s s' : Src} {d d' : Bytes} (hs : FullReader s d) (hs' : FullReader s' d') (hne : d ≠ d')
    (h : treeHash H s = treeHash H s') {t t' : Tree Bytes} (ht : IsTreeOf d t) (ht' : IsTreeOf d' t') :
    ∃ x ∈ t.inputs H, ∃ y ∈ t'.inputs H, x ≠ y ∧ H x = H y := by
  rw [(treeHash_correct H hs ht).1, (treeHash_correct H hs' ht').1] at h
  refine trees_collide H t t' (Res.ok.inj h) ?_
  rintro rfl
  exact hne (by rw [← blocks_flatten d, ← blocks_flatten d', ← ht.2, ← ht'.2])

/-- The hypotheses can be met, for example by a hash function that is constant. -/
example : ∃ x y : Bytes, x ≠ y ∧ (fun _ => Hash.zero : Bytes → Hash) x = (fun _ => Hash.zero) y := by
  obtain ⟨t, ht, _⟩ := file_tree [1]
  obtain ⟨t', ht', _⟩ := file_tree [2]
  have h1 := treeHash_correct (fun _ => Hash.zero) (bytesReader_full [1] (by simp)) ht
  have h2 := treeHash_correct (fun _ => Hash.zero) (bytesReader_full [2] (by simp)) ht'
  have e : ∀ t : Tree Bytes, t.root (fun _ => Hash.zero) = Hash.zero := fun t => by cases t <;> rfl
  obtain ⟨x, _, y, _, h⟩ := collision (fun _ => Hash.zero) (bytesReader_full [1] (by simp)) (bytesReader_full [2] (by simp)) (by simp)
    (by rw [h1.1, h2.1, e, e]) ht ht'
  exact ⟨x, y, h⟩

end Verif.Props.TreeHash
