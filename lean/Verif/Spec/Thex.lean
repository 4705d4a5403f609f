import Verif.Tiger.Hash

/-!
# The THEX tree, without the algorithm

A hash tree over blocks of at most 1024 bytes, defined top down: a tree over more than one block splits them so that the
left part has the largest power of two of blocks that leaves something for the right part.
-/

namespace Verif.Spec

open Verif.Go Verif.Tiger

/-- The blocks of a file: 1024 bytes each, the last one not empty; an empty file is one empty block. -/
def blocks (d : Bytes) : List Bytes :=
  if d.length ≤ 1024 then [d] else d.take 1024 :: blocks (d.drop 1024)
termination_by d.length
decreasing_by simp; omega

/-- Hash trees. -/
inductive Tree (α : Type) where
  | leaf (a : α)
  | node (l r : Tree α)

/-- The digest of a tree: leaves are marked with 0, inner nodes with 1. -/
def Tree.root (H : Bytes → Hash) : Tree Bytes → Hash
  | .leaf b => H (0 :: b)
  | .node l r => H (1 :: ((l.root H).bytes ++ (r.root H).bytes))

/-- The byte strings that are hashed for a tree. -/
def Tree.inputs (H : Bytes → Hash) : Tree Bytes → List Bytes
  | .leaf b => [0 :: b]
  | .node l r => (1 :: ((l.root H).bytes ++ (r.root H).bytes)) :: (l.inputs H ++ r.inputs H)

/-- The leaves from left to right. -/
def Tree.leaves {α : Type} : Tree α → List α
  | .leaf a => [a]
  | .node l r => l.leaves ++ r.leaves

/-- `k` is the largest power of two below `n`. -/
def LargestPow (k n : Nat) : Prop := (∃ e, k = 2 ^ e) ∧ k < n ∧ n ≤ 2 * k

/-- The shape of a THEX tree. -/
inductive Thex {α : Type} : Tree α → Prop where
  | leaf (a : α) : Thex (.leaf a)
  | node (l r : Tree α) (hl : Thex l) (hr : Thex r) (h : LargestPow l.leaves.length (l.leaves ++ r.leaves).length) : Thex (.node l r)

end Verif.Spec
