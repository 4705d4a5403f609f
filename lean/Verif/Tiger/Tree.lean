import Verif.Tiger.Hash
import Verif.Lineproto.Reader

/-!
# Tiger tree hash (`tiger/tth.go`)

`H` is `HashBytes` (`tiger/tiger.go:27-34`), any function from byte strings to 24 bytes.  The reader is a script of results
(`Src`).  `TreeHash` repeats the code of `TreeLeaves` and `Leaves.TreeHash`; so does the model.  That `Leaves.TreeHash` works on
a copy (line 34) is reflected by lists being values.
-/

namespace Verif.Tiger

open Verif.Go Verif.Lineproto

/-- `tthBlock`, `tiger/tth.go:5`. -/
def tthBlock : Nat := 1024

/-- What a script can still return, to see that the loops below end. -/
def srcSize (s : Src) : Nat := (s.map fun e => e.data.length + 1).sum

theorem srcSize_read {n : Nat} (hn : 0 < n) {s s' : Src} {d : Bytes} {e : Option Err} (h : s.read n = ((d, e), s'))
    (he : e ≠ some .eof) : srcSize s' < srcSize s := by
  unfold Src.read at h
  split at h
  · simp only [Prod.mk.injEq] at h; exact absurd h.1.2.symm he
  · rename_i ev s0
    split at h <;> (simp only [Prod.mk.injEq] at h; obtain ⟨_, rfl⟩ := h)
    · simp [srcSize]
    · simp only [srcSize, List.map_cons, List.sum_cons, List.length_drop]; omega

variable (H : Bytes → Hash)

/-- `TreeLeaves`, `tiger/tth.go:16-26`. -/
def leavesLoop (lvl : List Hash) (s : Src) : List Hash × Option Err :=
  match _h : s.read tthBlock with
  | ((d, some e), _) =>
    if e ≠ .eof then (lvl, some e)
    else if d = [] ∧ lvl ≠ [] then (lvl, none)
    else (lvl ++ [H (0 :: d)], none)
  | ((d, none), s') =>
    if d = [] ∧ lvl ≠ [] then (lvl, none)
    else leavesLoop (lvl ++ [H (0 :: d)]) s'
termination_by srcSize s
decreasing_by exact srcSize_read (by decide) _h (by simp)

/-- `TreeLeaves`, `tiger/tth.go:12-29`. -/
def treeLeaves (s : Src) : List Hash × Option Err := leavesLoop H [] s

/-- The hash of an inner node, `tiger/tth.go:42-45`. -/
def nodeHash (a b : Hash) : Hash := H (1 :: (a.bytes ++ b.bytes))

/-- One level in place, `tiger/tth.go:38-47`. -/
def pairLoop (i : Nat) (lvl : List Hash) : List Hash :=
  if h : i < lvl.length then
    if h1 : i + 1 < lvl.length then pairLoop (i + 2) (lvl.set (i / 2) (nodeHash H lvl[i] lvl[i + 1]))
    else pairLoop (i + 2) (lvl.set (i / 2) lvl[i])
  else lvl
termination_by lvl.length - i
decreasing_by all_goals simp; omega

theorem pairLoop_length (i : Nat) (lvl : List Hash) : (pairLoop H i lvl).length = lvl.length := by
  induction i, lvl using pairLoop.induct H with
  | case1 i lvl h h1 ih => rw [pairLoop, dif_pos h, dif_pos h1, ih]; simp
  | case2 i lvl h h1 ih => rw [pairLoop, dif_pos h, dif_neg h1, ih]; simp
  | case3 i lvl h => rw [pairLoop, dif_neg h]

/-- All levels, `tiger/tth.go:37-54`; without leaves `lvl[0]` panics. -/
def levels (lvl : List Hash) : Res Hash :=
  if _h : 1 < lvl.length then
    levels ((pairLoop H 0 lvl).take (if lvl.length % 2 ≠ 0 then lvl.length / 2 + 1 else lvl.length / 2))
  else
    match lvl with
    | [] => .panic
    | h :: _ => .ok h
termination_by lvl.length
decreasing_by simp [pairLoop_length]; split <;> omega

/-- `Leaves.TreeHash`, `tiger/tth.go:32-55`. -/
def leavesTreeHash (l : List Hash) : Res Hash := levels H l

/-- The reading loop of `TreeHash`, `tiger/tth.go:64-74`. -/
def treeLoop (lvl : List Hash) (s : Src) : List Hash × Option Err :=
  match _h : s.read tthBlock with
  | ((d, some e), _) =>
    if e ≠ .eof then (lvl, some e)
    else if d = [] ∧ lvl ≠ [] then (lvl, none)
    else (lvl ++ [H (0 :: d)], none)
  | ((d, none), s') =>
    if d = [] ∧ lvl ≠ [] then (lvl, none)
    else treeLoop (lvl ++ [H (0 :: d)]) s'
termination_by srcSize s
decreasing_by exact srcSize_read (by decide) _h (by simp)

/-- One level in place, `tiger/tth.go:78-87`. -/
def treePairs (i : Nat) (lvl : List Hash) : List Hash :=
  if h : i < lvl.length then
    if h1 : i + 1 < lvl.length then treePairs (i + 2) (lvl.set (i / 2) (H (1 :: (lvl[i].bytes ++ lvl[i + 1].bytes))))
    else treePairs (i + 2) (lvl.set (i / 2) lvl[i])
  else lvl
termination_by lvl.length - i
decreasing_by all_goals simp; omega

theorem treePairs_length (i : Nat) (lvl : List Hash) : (treePairs H i lvl).length = lvl.length := by
  induction i, lvl using treePairs.induct H with
  | case1 i lvl h h1 ih => rw [treePairs, dif_pos h, dif_pos h1, ih]; simp
  | case2 i lvl h h1 ih => rw [treePairs, dif_pos h, dif_neg h1, ih]; simp
  | case3 i lvl h => rw [treePairs, dif_neg h]

/-- All levels, `tiger/tth.go:77-94`. -/
def treeLevels (lvl : List Hash) : Res Hash :=
  if _h : 1 < lvl.length then
    treeLevels ((treePairs H 0 lvl).take (if lvl.length % 2 ≠ 0 then lvl.length / 2 + 1 else lvl.length / 2))
  else
    match lvl with
    | [] => .panic
    | h :: _ => .ok h
termination_by lvl.length
decreasing_by simp [treePairs_length]; split <;> omega

/-- `TreeHash`, `tiger/tth.go:58-96`: on an error the root is zero. -/
def treeHash (s : Src) : Res Hash :=
  match treeLoop H [] s with
  | (_, some e) => .err e
  | (lvl, none) => treeLevels H lvl

end Verif.Tiger
