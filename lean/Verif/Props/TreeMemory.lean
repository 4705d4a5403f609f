import Verif.Tiger.TreeMemoryLemmas
import Verif.Props.TreeHash

/-!
# C124: tree hashes keep to their own memory

Model: `Verif/Tiger/TreeMemory.lean`.
-/

namespace Verif.Props.TreeMemory

open Verif Verif.Go Verif.Lineproto Verif.Tiger

variable (H : Bytes → Hash)

/-- The calls, before their first steps. -/
def begun (heap : HHeap) (leaves : List (HSlice × Nat)) : TPar := ⟨heap, leaves.map fun x => .start x.1 x.2⟩

theorem begun_inv {heap : HHeap} {leaves : List (HSlice × Nat)} (hl : ∀ x ∈ leaves, x.1.Within heap) :
    (begun heap leaves).Inv H heap (leaves.map fun x => levels H (x.1.read heap)) := by
  have key : ∀ (t : Nat) (c : TCall), (begun heap leaves).calls[t]? = some c → ∃ x ∈ leaves, leaves[t]? = some x ∧ c = TCall.start x.1 x.2 := by
    intro t c h
    simp only [begun, List.getElem?_map, Option.map_eq_some_iff] at h
    obtain ⟨x, hx, rfl⟩ := h
    exact ⟨x, List.mem_of_getElem? hx, hx, rfl⟩
  refine ⟨by simp [begun], by simp [begun], ?_, by simp [begun], ?_, ?_⟩
  · intro t c e hc he
    obtain ⟨x, hm, hx, rfl⟩ := key t c hc
    rw [List.getElem?_map, hx, Option.map_some, Option.some.injEq] at he
    exact ⟨hl x hm, he⟩
  · intro t c a hc ha
    obtain ⟨x, hm, hx, rfl⟩ := key t c hc
    cases ha
  · intro t u c d a _ hc hd ha
    obtain ⟨x, hm, hx, rfl⟩ := key t c hc
    cases ha

/-- Any number of calls of `Leaves.TreeHash` at the same time, on the same leaves, on parts of them or on others, in any order of their steps: no array
that was there before is changed, and a call that has ended has returned what it returns when it runs alone (`leavesTreeHash` of C54), also its panic
when there are no leaves. -/
theorem calls_apart {heap : HHeap} {leaves : List (HSlice × Nat)} (hl : ∀ x ∈ leaves, x.1.Within heap) (sched : List Nat) :
    ((begun heap leaves).run H sched).heap.take heap.length = heap ∧
    ∀ (t : Nat) (x : HSlice × Nat), leaves[t]? = some x →
      (∀ r, ((begun heap leaves).run H sched).calls[t]? = some (.done r) → leavesTreeHash H (x.1.read heap) = .ok r) ∧
      (((begun heap leaves).run H sched).calls[t]? = some .panicked → leavesTreeHash H (x.1.read heap) = .panic) := by
  have hi := (begun_inv H hl).run H sched
  refine ⟨hi.old, fun t x hx => ?_⟩
  have he : (leaves.map fun x => levels H (x.1.read heap))[t]? = some (levels H (x.1.read heap)) := by rw [List.getElem?_map, hx]; rfl
  exact ⟨fun r hr => hi.will t _ _ hr he, fun hr => hi.will t _ _ hr he⟩

/-- A call ends after so many of its own steps, however many steps the others make in between. -/
theorem call_ends {heap : HHeap} {leaves : List (HSlice × Nat)} {t : Nat} {x : HSlice × Nat} (hx : leaves[t]? = some x) (sched : List Nat)
    (hs : (x.1.len + 4) * x.1.len + 2 ≤ sched.count t) :
    ∃ c, ((begun heap leaves).run H sched).calls[t]? = some c ∧ c.finished = true := by
  obtain ⟨c, h1, h2⟩ := run_rank H t sched (begun heap leaves) (.start x.1 x.2) (by simp [begun, hx])
  refine ⟨c, h1, rank_zero.1 ?_⟩
  rw [show (TCall.start x.1 x.2).rank = (x.1.len + 3) * x.1.len + x.1.len + 2 from rfl] at h2
  have : (x.1.len + 4) * x.1.len = (x.1.len + 3) * x.1.len + x.1.len := by
    rw [show x.1.len + 4 = x.1.len + 3 + 1 from rfl, Nat.add_mul (x.1.len + 3) 1, Nat.one_mul]
  omega

theorem levels_no_panic {l : List Hash} (h : 0 < l.length) : levels H l ≠ .panic := by
  generalize hn : l.length = n at h
  induction n using Nat.strongRecOn generalizing l with
  | _ n ih =>
    rw [levels]
    split
    · refine ih _ ?_ rfl ?_ <;> simp only [List.length_take, pairLoop_length] <;> split <;> omega
    · cases l with
      | nil => simp at hn; omega
      | cons => simp

/-- A call alone: the root of the leaves, and the leaves are as before. -/
theorem call_alone {heap : HHeap} {s : HSlice} (hs : s.Within heap) (hne : s.len ≠ 0) (extra : Nat) :
    ∃ n r, leavesTreeHash H (s.read heap) = .ok r ∧ ((begun heap [(s, extra)]).run H (List.replicate n 0)).calls[0]? = some (.done r) ∧
      s.read ((begun heap [(s, extra)]).run H (List.replicate n 0)).heap = s.read heap := by
  have hl : ∀ x ∈ [(s, extra)], x.1.Within heap := by simpa using hs
  obtain ⟨c, h1, h2⟩ := call_ends H (heap := heap) (leaves := [(s, extra)]) (t := 0) (x := (s, extra)) rfl
    (List.replicate ((s.len + 4) * s.len + 2) 0) (by simp)
  obtain ⟨h3, h4⟩ := calls_apart H hl (List.replicate ((s.len + 4) * s.len + 2) 0)
  have h5 := h4 0 (s, extra) rfl
  refine ⟨(s.len + 4) * s.len + 2, ?_⟩
  cases c with
  | start => cases h2
  | level => cases h2
  | done r => exact ⟨r, h5.1 r h1, h1, read_grown hs h3⟩
  | panicked =>
    have h6 := h5.2 h1
    have h7 : 0 < (s.read heap).length := by
      have := hs.2
      simp only [HSlice.read, List.length_take, List.length_drop]; omega
    exact absurd h6 (levels_no_panic H h7)

/-- Reading: what the reader leaves in the rest of the buffer, and what an earlier call left there, has no effect on the leaves.  The buffer has
1025 bytes. -/
theorem scratch_ignored (buf : Bytes) (hb : buf.length = 1025) (scratch : List Bytes) (s : Src) :
    leavesBuf H [] buf scratch s = treeLeaves H s ∧ leavesBuf H [] buf scratch s = treeLoop H [] s := by
  rw [leavesBuf_eq H [] buf scratch s hb, treeLoop_eq]
  exact ⟨rfl, rfl⟩

/-! ## Examples -/

/-- Two calls on overlapping parts of one array. -/
example : ∀ x ∈ [((⟨0, 0, 3⟩ : HSlice), 1), (⟨0, 1, 2⟩, 0)], x.1.Within [[Hash.zero, Hash.zero, Hash.zero]] := by
  intro x hx
  simp only [List.mem_cons, List.not_mem_nil, or_false] at hx
  rcases hx with rfl | rfl <;> exact ⟨by decide, by decide⟩

end Verif.Props.TreeMemory
