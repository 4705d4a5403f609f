import Verif.Tiger.TreeLemmas

/-!
# Tree hashes in memory (`tiger/tth.go`)

`Verif/Tiger/Tree.lean` has the same functions with lists as values.  Here the leaves are in arrays that several goroutines see, each call has a
buffer it uses again and again, and the reader may use the buffer it is given as scratch space, as `io.Reader` allows.
-/

namespace Verif.Tiger

open Verif.Go Verif.Lineproto

variable (H : Bytes → Hash)

/-- The arrays of hashes, in the order in which they were made. -/
abbrev HHeap := List (List Hash)

/-- A value of type `Leaves` (`tiger/tth.go:9`): array, first element, length. -/
structure HSlice where
  arr : Nat
  off : Nat
  len : Nat

/-- The hashes of a slice. -/
def HSlice.read (s : HSlice) (h : HHeap) : List Hash := ((h.getD s.arr []).drop s.off).take s.len

/-- The slice lies within its array. -/
def HSlice.Within (s : HSlice) (h : HHeap) : Prop := s.arr < h.length ∧ s.off + s.len ≤ (h.getD s.arr []).length

/-- `copy(b[off:], d)` with room for `d`, or what a reader writes there. -/
def writeAt (b : Bytes) (off : Nat) (d : Bytes) : Bytes := b.take off ++ d ++ b.drop (off + d.length)

/-- A call of `Leaves.TreeHash` between two of its steps. -/
inductive TCall where
  /-- Called with these leaves; `extra` is how much longer than needed the array is that `append` makes. -/
  | start (leaves : HSlice) (extra : Nat)
  /-- In a level: `lvl` is the first `n` elements of the array, and `i` and `buf` are the variables of the code. -/
  | level (arr n i : Nat) (buf : Bytes)
  | done (root : Hash)
  | panicked

/-- The array a call writes to. -/
def TCall.owns : TCall → Option Nat
  | .level a _ _ _ => some a
  | _ => none

def TCall.finished : TCall → Bool
  | .done _ => true
  | .panicked => true
  | _ => false

/-- `buf` before it is hashed, `tiger/tth.go:42-44`. -/
def nodeBuf (buf : Bytes) (a b : Hash) : Bytes := writeAt (writeAt (buf.set 0 1) 1 a.bytes) (1 + 24) b.bytes

/-- One step of a call of `Leaves.TreeHash`, `tiger/tth.go:32-55`: the copy (lines 34-35), a turn of the inner loop (lines 39-46), the end of a level
(lines 48-52), the result (line 54).  Without leaves `lvl[0]` panics. -/
def TCall.step (h : HHeap) : TCall → HHeap × TCall
  | .start leaves extra =>
    let c := leaves.read h
    if c = [] then (h, .panicked)
    else (h ++ [c ++ List.replicate extra .zero], .level h.length c.length 0 (List.replicate 49 0))
  | .level a n i buf =>
    let l := h.getD a []
    if n ≤ 1 then (h, .done (l.getD 0 .zero))
    else if i < n then
      if n ≤ i + 1 then (h.set a (l.set (i / 2) (l.getD i .zero)), .level a n (i + 2) buf)
      else
        let b := nodeBuf buf (l.getD i .zero) (l.getD (i + 1) .zero)
        (h.set a (l.set (i / 2) (H b)), .level a n (i + 2) b)
    else (h, .level a (if n % 2 ≠ 0 then n / 2 + 1 else n / 2) 0 buf)
  | .done r => (h, .done r)
  | .panicked => (h, .panicked)

/-- The arrays, and the calls that are going on. -/
structure TPar where
  heap : HHeap
  calls : List TCall

/-- The call number `t` makes a step. -/
def TPar.step (p : TPar) (t : Nat) : TPar :=
  match p.calls[t]? with
  | none => p
  | some c => ⟨(c.step H p.heap).1, p.calls.set t (c.step H p.heap).2⟩

/-- The calls make steps in this order. -/
def TPar.run (p : TPar) (sched : List Nat) : TPar := sched.foldl (TPar.step H) p

/-- `TreeLeaves`, `tiger/tth.go:12-29`, and the reading loop of `TreeHash`, `tiger/tth.go:63-75`, with their buffer.  `scratch` says what the reader
leaves in the part of the buffer it was given, before it puts the bytes there that it returns; missing entries leave it alone. -/
def leavesBuf (lvl : List Hash) (buf : Bytes) (scratch : List Bytes) (s : Src) : List Hash × Option Err :=
  match _h : s.read tthBlock with
  | ((d, some e), _) =>
    let b := (writeAt (writeAt buf 1 ((scratch.headD []).take tthBlock)) 1 d).set 0 0
    if e ≠ .eof then (lvl, some e)
    else if d = [] ∧ lvl ≠ [] then (lvl, none)
    else (lvl ++ [H (b.take (d.length + 1))], none)
  | ((d, none), s') =>
    let b := (writeAt (writeAt buf 1 ((scratch.headD []).take tthBlock)) 1 d).set 0 0
    if d = [] ∧ lvl ≠ [] then (lvl, none)
    else leavesBuf (lvl ++ [H (b.take (d.length + 1))]) b scratch.tail s'
termination_by srcSize s
decreasing_by exact srcSize_read (by decide) _h (by simp)

end Verif.Tiger
