import Verif.Lineproto.ReaderOps
import Verif.Lineproto.ReaderSmall
import Verif.Spec.Lines

/-!
# Properties C01-C07: the line reader

Vocabulary (from `Verif.Lineproto.Reader`, `Verif.Lineproto.ReaderOps`, `Verif.Spec.Lines`):
`newReader s d` is `NewReader` over an `io.Reader` that gives the results listed in `s`;
`Runs I r os r'` says that performing the operations `os` on `r` gives the results recorded in `os`;
`Spec.splitLines d bs` is the list of lines of `bs` and its unterminated tail.
-/

namespace Verif.Props.LineReader

open Verif Verif.Lineproto Verif.Spec

variable {Z : Type} (I : Inflater Z)

/-- The bytes a script delivers. -/
def bytesOf (s : Src) : Bytes := (s.map (·.data)).flatten

/-- Scripts in which an error never comes alone (it may accompany data, where it is suppressed). -/
def DataOnly (s : Src) : Prop := ∀ ev ∈ s, ev.data = [] → ev.err = none

/-- Result of reading the given lines through the hooks: accepted lines in order, errors of failing
hooks in their place, dropped lines left out. -/
def filtered (hooks : List (Bytes → Hook)) : List Bytes → List (Bytes × Option Err)
  | [] => []
  | l :: ls =>
    match runHooks l hooks with
    | .accept => (l, none) :: filtered hooks ls
    | .drop => filtered hooks ls
    | .fail e => ([], some e) :: filtered hooks ls

theorem items_of_dataOnly {s : Src} (h : DataOnly s) : s.items = (bytesOf s).map Item.byte := by
  induction s with
  | nil => rfl
  | cons ev s ih =>
    have ih := ih (fun e he => h e (by simp [he]))
    have h0 := h ev (by simp)
    simp only [Src.items, ih, bytesOf, List.map_cons, List.flatten_cons, List.map_append]
    split
    · simp_all
    · rfl

theorem rem_new (s : Src) (d : Byte) (max : Int) (hooks : List (Bytes → Hook)) :
    ({ (newReader s d : Reader Z) with maxLine := max, onLine := hooks }).Rem I s.items
      (Buf.weight ⟨s, []⟩) s.items.length := by
  exact Reader.Rem.plain (I := I) ⟨s, []⟩ rfl rfl rfl

/-- Reading lines and then the tail, from any open reader. -/
theorem runs_lines (tailItems : List Item) (htl : ∀ b tl', tailItems ≠ .byte b :: tl') :
    ∀ (ls : List Bytes) (t : Bytes) (r : Reader Z) (w m : Nat),
    r.Rem I ((ls.flatten ++ t).map Item.byte ++ tailItems) w m → (∀ l ∈ ls, IsLine r.delim l) → r.delim ∉ t →
    (r.maxLine ≤ 0 ∨ (∀ l ∈ ls, (l.length : Int) ≤ r.maxLine) ∧ (t.length : Int) < r.maxLine) →
    ∃ r' w' m', r.SameCfg r' ∧ r'.Rem I tailItems.tail w' m' ∧
      Reader.Runs I r ((filtered r.onLine ls ++ [(t, some (endErr tailItems))]).map Obs.line) r' := by
  intro ls
  induction ls with
  | nil =>
    intro t r w m hrem _ ht hmax
    obtain ⟨r', w', m', hcfg, hrem', hread⟩ := Reader.readsLine_tail (I := I) (r := r) (by simpa using hrem) ht
      (hmax.imp id (·.2)) htl
    exact ⟨r', w', m', hcfg, hrem', .line _ _ _ _ _ hread (.nil _)⟩
  | cons l ls ih =>
    intro t r w m hrem hl ht hmax
    obtain ⟨body, hb, rfl⟩ := hl l (by simp)
    have hrem : r.Rem I ((body ++ [r.delim]).map Item.byte ++ ((ls.flatten ++ t).map Item.byte ++ tailItems)) w m := by
      simpa using hrem
    have hmax1 : r.maxLine ≤ 0 ∨ ((body ++ [r.delim]).length : Int) ≤ r.maxLine :=
      hmax.imp id (fun h => h.1 _ (by simp))
    have key : ∀ r1 w1 m1, r.SameCfg r1 → r1.Rem I ((ls.flatten ++ t).map Item.byte ++ tailItems) w1 m1 →
        ∃ r' w' m', r.SameCfg r' ∧ r'.Rem I tailItems.tail w' m' ∧
          Reader.Runs I r1 ((filtered r.onLine ls ++ [(t, some (endErr tailItems))]).map Obs.line) r' := by
      intro r1 w1 m1 hcfg1 hrem1
      obtain ⟨hc1, hc2, hc3, hc4, hc5⟩ := hcfg1
      obtain ⟨r', w', m', hcfg, hrem', hrun⟩ := ih t r1 w1 m1 hrem1
        (fun l h => by rw [hc1]; exact hl l (by simp [h])) (by rwa [hc1])
        (by rw [hc2]; exact hmax.imp id (fun h => ⟨fun l hl => h.1 l (by simp [hl]), h.2⟩))
      rw [hc3] at hrun
      exact ⟨r', w', m', Reader.SameCfg.trans ⟨hc1, hc2, hc3, hc4, hc5⟩ hcfg, hrem', hrun⟩
    cases hh : runHooks (body ++ [r.delim]) r.onLine with
    | accept =>
      obtain ⟨r1, w1, m1, hcfg1, hrem1, _, hread⟩ := Reader.readsLine_accept I hrem hb hmax1 hh
      obtain ⟨r', w', m', hcfg, hrem', hrun⟩ := key r1 w1 m1 hcfg1 hrem1
      refine ⟨r', w', m', hcfg, hrem', ?_⟩
      simp only [filtered, hh, List.cons_append, List.map_cons]
      exact .line _ _ _ _ _ hread hrun
    | fail e =>
      obtain ⟨r1, w1, m1, hcfg1, hrem1, _, hread⟩ := Reader.readsLine_fail I hrem hb hmax1 hh
      obtain ⟨r', w', m', hcfg, hrem', hrun⟩ := key r1 w1 m1 hcfg1 hrem1
      refine ⟨r', w', m', hcfg, hrem', ?_⟩
      simp only [filtered, hh, List.cons_append, List.map_cons]
      exact .line _ _ _ _ _ hread hrun
    | drop =>
      obtain ⟨r1, w1, m1, hcfg1, hrem1, _, hdrop⟩ := Reader.readsLine_drop I hrem hb hmax1 hh
      obtain ⟨r', w', m', hcfg, hrem', hrun⟩ := key r1 w1 m1 hcfg1 hrem1
      refine ⟨r', w', m', hcfg, hrem', ?_⟩
      simp only [filtered, hh]
      cases hrun' : (filtered r.onLine ls ++ [(t, some (endErr tailItems))]).map Obs.line with
      | nil => simp at hrun'
      | cons o os =>
        rw [hrun'] at hrun
        obtain ⟨x, xs, _, rfl, _⟩ := List.map_eq_cons_iff.mp hrun'
        cases hrun with
        | line _ r2 _ res _ h t => exact .line _ _ _ _ _ (hdrop _ _ h) t

/-- **C01 (chunk independence) with C04 (end of stream).**
For every sequence of `Read` results whose data is `bs` -- however it is split, with empty results and
with errors that accompany data -- and for every line limit that the lines respect, the results of
successive `ReadLine` calls are exactly the lines of `bs`, then the unterminated tail with `io.EOF`,
then `io.EOF` with no data any number of times. -/
theorem readLine_chunk_independent (s : Src) (hs : DataOnly s) (delim : Byte) (max : Int) (n : Nat)
    (hmax : max ≤ 0 ∨ (∀ l ∈ (splitLines delim (bytesOf s)).1, (l.length : Int) ≤ max) ∧
      ((splitLines delim (bytesOf s)).2.length : Int) < max) :
    ∃ r', Reader.Runs I ((newReader s delim).setMaxLine max)
      ((((splitLines delim (bytesOf s)).1.map fun l => Obs.line (l, none)) ++
        [Obs.line ((splitLines delim (bytesOf s)).2, some .eof)]) ++
        List.replicate n (Obs.line ([], some Err.eof))) r' := by
  have hrem : ((newReader s delim : Reader Z).setMaxLine max).Rem I
      (((splitLines delim (bytesOf s)).1.flatten ++ (splitLines delim (bytesOf s)).2).map Item.byte ++ [])
      (Buf.weight ⟨s, []⟩) s.items.length := by
    rw [splitLines_flatten, List.append_nil, ← items_of_dataOnly hs]
    exact rem_new I s delim max []
  obtain ⟨r', w', m', hcfg, hrem', hrun⟩ := runs_lines I [] (by simp) _ _ _ _ _ hrem
    (splitLines_lines _ _) (splitLines_tail _ _) hmax
  have hf : ∀ ls : List Bytes, filtered [] ls = ls.map fun l => (l, none) := by
    intro ls; induction ls with
    | nil => rfl
    | cons l ls ih => simp [filtered, runHooks, ih]
  have heof : ∀ (n : Nat) (r : Reader Z) (w m : Nat), r.Rem I [] w m → r.maxLine = max →
      ∃ r', Reader.Runs I r (List.replicate n (Obs.line ([], some Err.eof))) r' := by
    intro n
    induction n with
    | zero => intro r _ _ _ _; exact ⟨r, .nil r⟩
    | succ n ih =>
      intro r w m hr hm
      obtain ⟨r1, w1, m1, hcfg1, hrem1, h1⟩ := Reader.readsLine_tail (I := I) (r := r) (l := []) (tl := [])
        (by simpa using hr) (by simp) (by rw [hm]; rcases hmax with h | h
                                          · exact .inl h
                                          · exact .inr (by have := h.2; simp; omega)) (by simp)
      obtain ⟨r2, h2⟩ := ih r1 w1 m1 hrem1 (hcfg1.2.1.trans hm)
      exact ⟨r2, .line _ _ _ _ _ h1 h2⟩
  obtain ⟨r2, hrun2⟩ := heof n r' w' m' hrem' (hcfg.2.1)
  refine ⟨r2, ?_⟩
  have hol : ((newReader s delim : Reader Z).setMaxLine max).onLine = [] := rfl
  rw [hol, hf] at hrun
  have := hrun.append I hrun2
  simpa [endErr, Function.comp_def] using this

/-- Two scripts with the same bytes, split differently, are read alike. -/
example : ∃ s1 s2 : Src, s1 ≠ s2 ∧ bytesOf s1 = bytesOf s2 ∧ DataOnly s1 ∧ DataOnly s2 ∧
    (splitLines 124 (bytesOf s1)).1 = [b!"ab|", b!"|", b!"c|"] ∧ (splitLines 124 (bytesOf s1)).2 = b!"d" :=
  ⟨[⟨b!"ab||c|d", none⟩], [⟨b!"a", none⟩, ⟨[], none⟩, ⟨b!"b||", none⟩, ⟨b!"c|d", some .eof⟩],
    by decide, by decide, by simp [DataOnly], by simp [DataOnly], by decide, by decide⟩

/-- **C03.** With hooks, the lines delivered are the lines of the stream that all hooks accept, in
order; a failing hook's error is returned in place of its line; dropped lines leave no trace. -/
theorem readLine_hooks_filter (s : Src) (hs : DataOnly s) (delim : Byte) (max : Int)
    (hooks : List (Bytes → Hook))
    (hmax : max ≤ 0 ∨ (∀ l ∈ (splitLines delim (bytesOf s)).1, (l.length : Int) ≤ max) ∧
      ((splitLines delim (bytesOf s)).2.length : Int) < max) :
    ∃ r', Reader.Runs I (hooks.foldl Reader.addHook ((newReader s delim).setMaxLine max))
      ((filtered hooks (splitLines delim (bytesOf s)).1 ++
        [((splitLines delim (bytesOf s)).2, some Err.eof)]).map Obs.line) r' := by
  have hfold : ∀ (hs : List (Bytes → Hook)) (r : Reader Z), hs.foldl Reader.addHook r = { r with onLine := r.onLine ++ hs } := by
    intro hs
    induction hs with
    | nil => intro r; simp
    | cons h hs ih => intro r; simp [ih, Reader.addHook]
  have hrem : (hooks.foldl Reader.addHook ((newReader s delim : Reader Z).setMaxLine max)).Rem I
      (((splitLines delim (bytesOf s)).1.flatten ++ (splitLines delim (bytesOf s)).2).map Item.byte ++ [])
      (Buf.weight ⟨s, []⟩) s.items.length := by
    rw [splitLines_flatten, List.append_nil, ← items_of_dataOnly hs, hfold]
    exact rem_new I s delim max _
  obtain ⟨r', w', m', hcfg, hrem', hrun⟩ := runs_lines I [] (by simp) _ _ _ _ _ hrem
    (by rw [hfold]; exact splitLines_lines _ _) (by rw [hfold]; exact splitLines_tail _ _) (by rw [hfold]; exact hmax)
  refine ⟨r', ?_⟩
  rw [hfold] at hrun ⊢
  simpa [endErr, newReader, Reader.setMaxLine] using hrun

/-- Hooks that keep, drop and fail. -/
example : filtered [fun l => if l = b!"x|" then .drop else .accept,
      fun l => if l.length > 3 then .fail .protocolViolation else .accept] [b!"a|", b!"x|", b!"long|", b!"b|"]
    = [(b!"a|", none), ([], some .protocolViolation), (b!"b|", none)] := by decide

/-- Scripts made of segments: the data of each segment is followed by a failed read without data. -/
def faulty : List (Src × Err) → Src → Src
  | [], last => last
  | (s, e) :: segs, last => s ++ ⟨[], some e⟩ :: faulty segs last

/-- What `ReadLine` must return on them: the lines of each segment, then its unterminated tail with the
error. -/
def faultyObs (delim : Byte) : List (Src × Err) → Src → List Obs
  | [], last =>
    ((splitLines delim (bytesOf last)).1.map fun l => Obs.line (l, none)) ++
      [Obs.line ((splitLines delim (bytesOf last)).2, some .eof)]
  | (s, e) :: segs, last =>
    ((splitLines delim (bytesOf s)).1.map fun l => Obs.line (l, none)) ++
      Obs.line ((splitLines delim (bytesOf s)).2, some e) :: faultyObs delim segs last

/-- The lines and tails of a segment respect the limit. -/
def Fits (delim : Byte) (max : Int) (s : Src) : Prop :=
  max ≤ 0 ∨ (∀ l ∈ (splitLines delim (bytesOf s)).1, (l.length : Int) ≤ max) ∧
    ((splitLines delim (bytesOf s)).2.length : Int) < max

/-- **C04.** When a read fails with error `e` (any error, including `io.EOF`) and no data, `ReadLine`
returns the bytes of the unterminated tail with `e`, after all complete lines; later calls continue
with the data after the failed read. -/
theorem readLine_fault_tail (segs : List (Src × Err)) (last : Src) (delim : Byte) (max : Int)
    (hs : ∀ p ∈ segs, DataOnly p.1 ∧ Fits delim max p.1) (hl : DataOnly last ∧ Fits delim max last) :
    ∃ r', Reader.Runs I ((newReader (faulty segs last) delim).setMaxLine max)
      (faultyObs delim segs last) r' := by
  have happ : ∀ a b : Src, Src.items (a ++ b) = Src.items a ++ Src.items b := by
    intro a b; induction a with
    | nil => rfl
    | cons x a ih => simp [Src.items, ih]
  have hf : ∀ ls : List Bytes, filtered [] ls = ls.map fun l => (l, none) := by
    intro ls; induction ls with
    | nil => rfl
    | cons l ls ih => simp [filtered, runHooks, ih]
  have main : ∀ (segs : List (Src × Err)), (∀ p ∈ segs, DataOnly p.1 ∧ Fits delim max p.1) →
      ∀ (r : Reader Z) (w m : Nat), r.Rem I (faulty segs last).items w m → r.delim = delim →
        r.maxLine = max → r.onLine = [] → ∃ r', Reader.Runs I r (faultyObs delim segs last) r' := by
    intro segs
    induction segs with
    | nil =>
      intro _ r w m hrem hd hm hol
      rw [faulty, items_of_dataOnly hl.1, ← splitLines_flatten delim (bytesOf last), ← List.append_nil (List.map _ _)] at hrem
      subst hd hm
      obtain ⟨r', w', m', hcfg, hrem', hrun⟩ := runs_lines I [] (by simp) _ _ _ _ _ hrem
        (splitLines_lines _ _) (splitLines_tail _ _) hl.2
      rw [hol, hf] at hrun
      exact ⟨r', by simpa [endErr, faultyObs, Function.comp_def] using hrun⟩
    | cons p segs ih =>
      intro hs r w m hrem hd hm hol
      obtain ⟨s, e⟩ := p
      have h1 := hs (s, e) (by simp)
      rw [faulty, happ, items_of_dataOnly h1.1, ← splitLines_flatten delim (bytesOf s)] at hrem
      simp only [Src.items, if_true, Option.toList_some, List.map_cons, List.map_nil, List.cons_append,
        List.nil_append] at hrem
      subst hd hm
      obtain ⟨r', w', m', hcfg, hrem', hrun⟩ := runs_lines I (.fault e :: (faulty segs last).items) (by simp)
        _ _ _ _ _ hrem (splitLines_lines _ _) (splitLines_tail _ _) h1.2
      rw [hol, hf] at hrun
      obtain ⟨r2, hrun2⟩ := ih (fun p hp => hs p (by simp [hp])) r' w' m' hrem' hcfg.1 hcfg.2.1 (hcfg.2.2.1.trans hol)
      refine ⟨r2, ?_⟩
      have := hrun.append I hrun2
      simpa [endErr, faultyObs, Function.comp_def] using this
  exact main segs hs _ _ _ (rem_new I _ delim max []) rfl rfl rfl

example : (splitLines 10 (bytesOf [⟨b!"a", none⟩, ⟨b!"b\nte", some .eof⟩])) = ([b!"ab\n"], b!"te") := by decide

/-! ### Sessions with compressed and binary sections (C05, C06)

The specification is a small machine over the bytes on the wire.  `inner` holds inflated bytes of the
compressed section being read, `outer` the raw bytes that follow it on the wire. -/

/-- The stream still to be delivered: inflated bytes first, then raw bytes. `inZ` is false when the
end of the compressed section has certainly been noticed. -/
structure Wire where
  inZ : Bool
  inner : Bytes
  outer : Bytes

/-- Consume `n` bytes. -/
def Wire.drop (w : Wire) (n : Nat) : Wire :=
  if n ≤ w.inner.length then { w with inner := w.inner.drop n }
  else { inZ := false, inner := [], outer := w.outer.drop (n - w.inner.length) }

/-- What the user of the reader may do: read a line, switch on decompression, or read a binary section
of `n` bytes with buffers of the given sizes (stopping early if they like) and close it. -/
inductive Op where
  | line
  | zlib (sched : List (Nat × Bool))
  | binary (n : Nat) (sizes : List Nat)

/-- When an operation is possible and what it consumes. -/
inductive Trans (delim : Byte) (max : Int) : Wire → Op → Wire → Prop
  | line (w : Wire) (l rest : Bytes) (h : w.inner ++ w.outer = l ++ rest) (hl : IsLine delim l)
      (hm : max ≤ 0 ∨ (l.length : Int) ≤ max) : Trans delim max w .line (w.drop l.length)
  | tail (w : Wire) (h : delim ∉ w.inner ++ w.outer)
      (hm : max ≤ 0 ∨ ((w.inner ++ w.outer).length : Int) < max) :
      Trans delim max w .line { w with inner := [], outer := [] }
  | zlib (w : Wire) (sched) (h1 h2 : Byte) (z : Z) (c out rest : Bytes) (hz : w.inZ = false)
      (hi : w.inner = [])
      (h : w.outer = h1 :: h2 :: (c ++ rest)) (hh : I.header h1 h2 = .ok z)
      (hinf : inflate I z c = some out) : Trans delim max w (.zlib sched) ⟨true, out, rest⟩
  | binary (w : Wire) (n : Nat) (sizes : List Nat) (hn : n ≤ (w.inner ++ w.outer).length)
      (h63 : n < 2 ^ 63) (hs : ∀ k ∈ sizes, 0 < k) : Trans delim max w (.binary n sizes) (w.drop n)

/-- The reads of a binary section: each returns a non-empty piece of what is left of the section that
fits the buffer, without error, and `io.EOF` once the section is used up. -/
inductive Pieces : Bytes → List (Nat × Bytes × Option Err) → Prop
  | nil (left : Bytes) : Pieces left []
  | data (d left : Bytes) (n : Nat) (more) (hd : d ≠ []) (hn : d.length ≤ n) (h : Pieces left more) :
      Pieces (d ++ left) ((n, d, none) :: more)
  | eof (n : Nat) (more) (h : Pieces [] more) : Pieces [] ((n, [], some .eof) :: more)

/-- What an operation must show to the user. -/
inductive Shows (delim : Byte) : Wire → Op → Obs → Prop
  | line (w : Wire) (l rest : Bytes) (h : w.inner ++ w.outer = l ++ rest) (hl : IsLine delim l) :
      Shows delim w .line (.line (l, none))
  | tail (w : Wire) (h : delim ∉ w.inner ++ w.outer) :
      Shows delim w .line (.line (w.inner ++ w.outer, some .eof))
  | zlib (w : Wire) (sched) : Shows delim w (.zlib sched) (.zlib sched)
  | binary (w : Wire) (n : Nat) (sizes : List Nat) (reads) (hs : reads.map (·.1) = sizes)
      (hp : Pieces ((w.inner ++ w.outer).take n) reads) : Shows delim w (.binary n sizes) (.binary n reads)

/-- A session: every operation is possible where it happens. -/
inductive Session (delim : Byte) (max : Int) : Wire → List Op → List Wire → Prop
  | nil (w : Wire) : Session delim max w [] []
  | cons (w w1 : Wire) (op : Op) (ops : List Op) (ws : List Wire) (h : Trans I delim max w op w1)
      (t : Session delim max w1 ops ws) : Session delim max w (op :: ops) (w :: ws)

/-- Every operation of a session shows what it must. -/
def AllShow (delim : Byte) : List Wire → List Op → List Obs → Prop
  | [], [], [] => True
  | w :: ws, op :: ops, o :: os => Shows delim w op o ∧ AllShow delim ws ops os
  | _, _, _ => False

/-- Invariant linking a reader to the specification machine. -/
def Abs (delim : Byte) (max : Int) (r : Reader Z) (w : Wire) : Prop :=
  ∃ wt m, r.Rem I ((w.inner ++ w.outer).map Item.byte) wt m ∧ r.Clean ∧ r.delim = delim ∧
    r.maxLine = max ∧ r.onLine = [] ∧ (r.curZ = true → w.inZ = true ∧ m = w.outer.length)

theorem drop_append (w : Wire) (n : Nat) :
    (w.drop n).inner ++ (w.drop n).outer = (w.inner ++ w.outer).drop n := by
  unfold Wire.drop
  split
  · rename_i h; simp [List.drop_append, Nat.sub_eq_zero_of_le h]
  · rename_i h; simp [List.drop_append, List.drop_eq_nil_of_le (Nat.le_of_not_le h)]

theorem Reader.Rem.length_le {r : Reader Z} {its : List Item} {w m : Nat} (h : r.Rem I its w m) :
    m ≤ its.length := by
  cases h with
  | plain => exact Nat.le_refl _
  | zl => simp; omega

/-- After consuming `n` bytes with the compressed-section bookkeeping intact, the invariant holds. -/
theorem abs_drop {delim : Byte} {max : Int} {r r' : Reader Z} {w : Wire} {n wt' m m' : Nat}
    (hm : r.curZ = true → w.inZ = true ∧ m = w.outer.length)
    (hle : n ≤ (w.inner ++ w.outer).length)
    (hrem' : r'.Rem I (((w.inner ++ w.outer).drop n).map Item.byte) wt' m') (hcl : r'.Clean)
    (hd : r'.delim = delim) (hmx : r'.maxLine = max) (hol : r'.onLine = [])
    (hm' : r'.curZ = true → m' = m ∧ r.curZ = true) : Abs I delim max r' (w.drop n) := by
  refine ⟨wt', m', by rwa [drop_append], hcl, hd, hmx, hol, ?_⟩
  intro hz
  obtain ⟨h1, h2⟩ := hm' hz
  obtain ⟨h3, h4⟩ := hm h2
  unfold Wire.drop
  split
  · exact ⟨h3, h1.trans h4⟩
  · rename_i hn
    have := Reader.Rem.length_le I hrem'
    simp at this hle
    omega

theorem binReads_spec (sizes : List Nat) (hs : ∀ k ∈ sizes, 0 < k) :
    ∀ (r : Reader Z) (bs : Bytes) (rest : List Item) (w m : Nat),
    r.Rem I (bs.map Item.byte ++ rest) w m → r.Clean →
    ∃ reads r' w' m' left, reads.map (·.1) = sizes ∧ Pieces bs reads ∧
      bs = (reads.map (·.2.1)).flatten ++ left ∧
      r'.delim = r.delim ∧ r'.maxLine = r.maxLine ∧ r'.onLine = r.onLine ∧ r'.Clean ∧
      r'.Rem I (left.map Item.byte ++ rest) w' m' ∧ (r'.curZ = true → m' = m ∧ r.curZ = true) ∧
      Reader.BinReads I r bs.length reads left.length r' := by
  induction sizes with
  | nil =>
    intro r bs rest w m hrem hcl
    exact ⟨[], r, w, m, bs, rfl, .nil _, rfl, rfl, rfl, rfl, hcl, hrem, fun h => ⟨rfl, h⟩, .nil _ _⟩
  | cons n sizes ih =>
    intro r bs rest w m hrem hcl
    have hn : 0 < n := hs n (by simp)
    have ih := ih (fun k hk => hs k (by simp [hk]))
    cases hbs : bs with
    | nil =>
      subst hbs
      obtain ⟨reads, r', w', m', left, h1, h2, h3, h4, h5, h6, h7, h8, h9, h10⟩ := ih r [] rest w m hrem hcl
      have hl : left = [] := by simp at h3; exact h3.2
      subst hl
      refine ⟨(n, [], some .eof) :: reads, r', w', m', [], by simp [h1], .eof n reads h2, ?_, h4, h5, h6, h7, h8, h9, ?_⟩
      · simpa using h3
      · refine .cons r r r' _ 0 _ n ([], some .eof) reads ⟨0, ?_⟩ h10
        intro fuel _
        simp [Reader.binRead]
    | cons x xs =>
      rw [← hbs]
      have hpos : 0 < bs.length := by simp [hbs]
      obtain ⟨k, r1, h1, h2, h3, hcl1, hcase⟩ := Reader.read_step I (n := min n bs.length)
        (by omega) hrem hcl
      rcases hcase with ⟨h0, _⟩ | ⟨d, its', w', m', hd, hdl, hsp, hrem', hm', hread⟩
      · simp [hbs] at h0
      · obtain ⟨bs', hbs', rfl⟩ := map_byte_prefix (by omega) hsp
        obtain ⟨reads, r', w2, m2, left, g1, g2, g3, g4, g5, g6, g7, g8, g9, g10⟩ := ih r1 bs' rest w' m' hrem' hcl1
        refine ⟨(n, d, none) :: reads, r', w2, m2, left, by simp [g1], ?_, ?_, g4.trans h1, g5.trans h2, g6.trans h3,
          g7, g8, ?_, ?_⟩
        · rw [hbs']; exact .data d bs' n reads hd (by omega) g2
        · rw [hbs', g3]; simp
        · intro hz
          obtain ⟨a1, a2⟩ := g9 hz
          obtain ⟨b1, b2⟩ := hm' a2
          exact ⟨a1.trans b1, b2⟩
        · refine .cons r r1 r' _ bs'.length _ n (d, none) reads ⟨k, ?_⟩ g10
          intro fuel hf
          have hlen : bs.length - d.length = bs'.length := by rw [hbs']; simp
          rw [Reader.binRead, if_neg (by omega), hread fuel hf]
          simp [hlen]

/-- One operation. -/
theorem step_sim {delim : Byte} {max : Int} {r : Reader Z} {w w' : Wire} {op : Op}
    (habs : Abs I delim max r w) (ht : Trans I delim max w op w') :
    ∃ o r', Shows delim w op o ∧ Abs I delim max r' w' ∧
      ∀ os r'', Reader.Runs I r' os r'' → Reader.Runs I r (o :: os) r'' := by
  obtain ⟨wt, m, hrem, hcl, rfl, rfl, hol, hm⟩ := habs
  cases ht with
  | line l rest h hl hmax =>
    obtain ⟨body, hb, rfl⟩ := hl
    rw [h, List.map_append] at hrem
    obtain ⟨r', w', m', hcfg, hrem', hm', hread⟩ := Reader.readsLine_accept I hrem hb hmax (by simp [hol, runHooks])
    refine ⟨_, r', .line w _ rest h ⟨body, hb, rfl⟩, ?_, fun os r'' hr => .line _ _ _ _ _ hread hr⟩
    refine abs_drop I hm (by rw [h]; simp) (n := (body ++ [r.delim]).length) (by rw [h]; simpa using hrem')
      (hcfg.2.2.2.1 hcl) hcfg.1 hcfg.2.1 (hcfg.2.2.1.trans hol) (fun hz => ⟨hm' hz, hcfg.2.2.2.2 hz⟩)
  | tail h hmax =>
    obtain ⟨r', w', m', hcfg, hrem', hread⟩ := Reader.readsLine_tail (I := I) (r := r) (l := w.inner ++ w.outer) (tl := [])
      (by simpa using hrem) h hmax (by simp)
    refine ⟨_, r', .tail w h, ?_, fun os r'' hr => .line _ _ _ _ _ hread hr⟩
    have hrem' : r'.Rem I [] w' m' := hrem'
    refine ⟨w', m', by simpa using hrem', hcfg.2.2.2.1 hcl, hcfg.1, hcfg.2.1, hcfg.2.2.1.trans hol, ?_⟩
    intro hz
    have := Reader.Rem.length_le I hrem'
    simp at this
    exact ⟨(hm (hcfg.2.2.2.2 hz)).1, by simp [this]⟩
  | zlib sched h1 h2 z c out rest hz hi h hh hinf =>
    have hcz : r.curZ = false := by
      cases hc : r.curZ with
      | false => rfl
      | true => have := (hm hc).1; rw [hz] at this; simp at this
    rw [hi, List.nil_append, h] at hrem
    obtain ⟨r', w', hd, hmx, hol', hcl', hrem', hen⟩ := Reader.enablesZlib I (c := c) (rest := rest.map Item.byte) sched
      (by simpa using hrem) hcl hcz hh hinf
    refine ⟨_, r', .zlib w sched, ?_, fun os r'' hr => .zlib _ _ _ _ _ hen hr⟩
    exact ⟨w', _, by simpa using hrem', hcl', hd.symm, hmx.symm, hol'.symm.trans hol, fun _ => ⟨rfl, by simp⟩⟩
  | binary n sizes hn h63 hs =>
    have hsplit : (w.inner ++ w.outer).map Item.byte =
        ((w.inner ++ w.outer).take n).map Item.byte ++ ((w.inner ++ w.outer).drop n).map Item.byte := by
      rw [← List.map_append, List.take_append_drop]
    rw [hsplit] at hrem
    have hlen : ((w.inner ++ w.outer).take n).length = n := by simp at hn ⊢; omega
    obtain ⟨reads, r1, w1, m1, left, g1, g2, g3, g4, g5, g6, g7, g8, g9, g10⟩ := binReads_spec I sizes hs r _ _ _ _ hrem hcl
    obtain ⟨r2, w2, m2, k1, k2, k3, k4, k5, k6, k7⟩ := Reader.binCloses_spec I _ r1 left _ _ _ rfl g8 g7
    obtain ⟨b, hb⟩ := hrem.orig_some
    refine ⟨.binary n reads, r2, .binary w n sizes reads g1 g2, ?_, ?_⟩
    · exact abs_drop I hm hn k5 k4 (k1.trans g4) (k2.trans g5) ((k3.trans g6).trans hol)
        (fun hz => ⟨((k6 hz).1.trans (g9 (k6 hz).2).1), (g9 (k6 hz).2).2⟩)
    · intro os r'' hr
      refine .binary r r1 r2 r'' n n left.length reads os ?_ (by rwa [hlen] at g10) k7 hr
      simp only [Reader.binary, hb, binaryLimit]
      rw [Nat.mod_eq_of_lt (by omega), if_pos h63]

/-- Scripts of non-empty chunks. -/
def chunks (cs : List Bytes) : Src := cs.map fun c => ⟨c, none⟩

/-- **C05 and C06.** A reader over any chunking of `stream` behaves in every session exactly as the
specification machine: lines, switches to compressed sections and back, and binary sections all begin
and end at the exact byte, for every size and timing of the pieces the transport and the decompressor
deliver. -/
theorem session_exact (cs : List Bytes) (hcs : ∀ c ∈ cs, c ≠ []) (delim : Byte) (max : Int)
    (ops : List Op) (ws : List Wire)
    (hs : Session I delim max ⟨false, [], cs.flatten⟩ ops ws) :
    ∃ os r', Reader.Runs I ((newReader (chunks cs) delim).setMaxLine max) os r' ∧
      AllShow delim ws ops os := by
  have main : ∀ (ops : List Op) (w : Wire) (ws : List Wire), Session I delim max w ops ws →
      ∀ r : Reader Z, Abs I delim max r w → ∃ os r', Reader.Runs I r os r' ∧ AllShow delim ws ops os := by
    intro ops
    induction ops with
    | nil => intro w ws h r _; cases h; exact ⟨[], r, .nil r, trivial⟩
    | cons op ops ih =>
      intro w ws h r habs
      cases h with
      | cons _ w1 _ _ ws ht hsess =>
        obtain ⟨o, r1, hsh, habs1, hrun⟩ := step_sim I habs ht
        obtain ⟨os, r', hr, hall⟩ := ih w1 ws hsess r1 habs1
        exact ⟨o :: os, r', hrun os r' hr, hsh, hall⟩
  refine main ops _ ws hs _ ?_
  have hd : DataOnly (chunks cs) := by
    intro ev hev; simp [chunks] at hev; obtain ⟨c, _, rfl⟩ := hev; simp
  have hb : bytesOf (chunks cs) = cs.flatten := by simp [bytesOf, chunks, Function.comp_def]
  have hrem := rem_new I (chunks cs) delim max []
  rw [items_of_dataOnly hd, hb] at hrem
  refine ⟨_, _, hrem, ?_, rfl, rfl, rfl, by simp [newReader, Reader.setMaxLine]⟩
  intro b h
  cases h
  intro ev hev
  simp [chunks] at hev
  obtain ⟨c, hc, rfl⟩ := hev
  exact ⟨hcs c hc, rfl⟩

/-- A toy compression format: header `x`,`z`; every byte stands for itself twice; `0` ends the stream. -/
def toy : Inflater Bool where
  header a b := if a = 120 ∧ b = 122 then .ok true else .error .protocolViolation
  step _ c := if c = 0 then (false, []) else (true, [c, c])
  status z := if z then .running else .done

/-- A session over `toy`: a plain line, a compressed section whose last line ends in the plain text
after it, a binary section read in two pieces and left early, another line and the tail. -/
example : ∃ cs ws, (∀ c ∈ cs, c ≠ []) ∧
    Session toy 124 0 ⟨false, [], List.flatten cs⟩
      [.line, .zlib [(5, true)], .line, .line, .binary 4 [1, 2], .line, .line] ws := by
  have le : (0 : Int) ≤ 0 ∨ (3 : Int) ≤ 0 := .inl (by decide)
  have t1 : Trans toy 124 0 ⟨false, [], b!"a|xzb|c" ++ [0] ++ b!"d|bin!e|tail"⟩ .line
      ⟨false, [], b!"xzb|c" ++ [0] ++ b!"d|bin!e|tail"⟩ :=
    .line ⟨false, [], _⟩ b!"a|" (b!"xzb|c" ++ [0] ++ b!"d|bin!e|tail") rfl ⟨b!"a", by decide, rfl⟩ (.inl (by decide))
  have t2 : Trans toy 124 0 ⟨false, [], b!"xzb|c" ++ [0] ++ b!"d|bin!e|tail"⟩ (.zlib [(5, true)])
      ⟨true, b!"bb||cc", b!"d|bin!e|tail"⟩ :=
    .zlib ⟨false, [], _⟩ _ 120 122 true (b!"b|c" ++ [0]) b!"bb||cc" b!"d|bin!e|tail" rfl rfl rfl rfl (by decide)
  have t3 : Trans toy 124 0 ⟨true, b!"bb||cc", b!"d|bin!e|tail"⟩ .line ⟨true, b!"|cc", b!"d|bin!e|tail"⟩ :=
    .line ⟨true, b!"bb||cc", _⟩ b!"bb|" b!"|ccd|bin!e|tail" rfl ⟨b!"bb", by decide, rfl⟩ (.inl (by decide))
  have t4 : Trans toy 124 0 ⟨true, b!"|cc", b!"d|bin!e|tail"⟩ .line ⟨true, b!"cc", b!"d|bin!e|tail"⟩ :=
    .line ⟨true, b!"|cc", _⟩ b!"|" b!"ccd|bin!e|tail" rfl ⟨[], by decide, rfl⟩ (.inl (by decide))
  have t5 : Trans toy 124 0 ⟨true, b!"cc", b!"d|bin!e|tail"⟩ (.binary 4 [1, 2]) ⟨false, [], b!"bin!e|tail"⟩ :=
    .binary ⟨true, b!"cc", b!"d|bin!e|tail"⟩ 4 _ (by decide) (by decide) (by decide)
  have t6 : Trans toy 124 0 ⟨false, [], b!"bin!e|tail"⟩ .line ⟨false, [], b!"tail"⟩ :=
    .line ⟨false, [], _⟩ b!"bin!e|" b!"tail" rfl ⟨b!"bin!e", by decide, rfl⟩ (.inl (by decide))
  have t7 : Trans toy 124 0 ⟨false, [], b!"tail"⟩ .line ⟨false, [], []⟩ :=
    .tail ⟨false, [], b!"tail"⟩ (by decide) (.inl (by decide))
  exact ⟨[b!"a|xz", b!"b|", [99, 0], b!"d|bi", b!"n!e|tail"], _, by decide,
    .cons _ _ _ _ _ t1 (.cons _ _ _ _ _ t2 (.cons _ _ _ _ _ t3 (.cons _ _ _ _ _ t4
      (.cons _ _ _ _ _ t5 (.cons _ _ _ _ _ t6 (.cons _ _ _ _ _ t7 (.nil _)))))))⟩

/-! ### C02: the line limit -/

/-- States reachable from a new reader by any calls. -/
inductive Reachable : Reader Z → Prop
  | new (s : Src) (delim : Byte) : Reachable (newReader s delim)
  | readLine {r r' : Reader Z} {res} (fuel : Nat) (h : Reachable r)
      (hr : r.readLine I fuel = .val (res, r')) : Reachable r'
  | read {r r' : Reader Z} {res} (fuel n : Nat) (h : Reachable r)
      (hr : r.read I fuel n = .val (res, r')) : Reachable r'
  | enableZlib {r r' : Reader Z} {res} (fuel : Nat) (sched) (h : Reachable r)
      (hr : r.enableZlib I fuel sched = .val (res, r')) : Reachable r'
  | setMaxLine {r : Reader Z} (n : Int) (h : Reachable r) : Reachable (r.setMaxLine n)
  | onLine {r : Reader Z} (f : Bytes → Hook) (h : Reachable r) : Reachable (r.addHook f)
  | close {r : Reader Z} (h : Reachable r) : Reachable r.close

theorem reachable_small {r : Reader Z} (h : Reachable I r) : Small r := by
  induction h with
  | new s d => exact ⟨by simp [newReader], fun b h => by cases h; simp⟩
  | @readLine r r' res fuel _ hr ih => obtain ⟨l, e⟩ := res; exact (readLine_len I ih hr).1
  | read fuel n _ hr ih => exact (read_small I ih hr).1
  | enableZlib fuel sched _ hr ih => exact (enableZlib_small I ih hr).1
  | setMaxLine n _ ih => exact ih
  | onLine f _ ih => exact ih
  | close _ ih => exact ⟨by simp [Reader.close], by simp [Reader.close]⟩

/-- **C02 (upper bound).** In every history, with a positive limit, whatever `ReadLine` returns
(a line, or a partial line with an error) is at most `max - 1` bytes plus one read buffer. -/
theorem readLine_bounded {r r' : Reader Z} (h : Reachable I r) {fuel : Nat} {line : Bytes} {e : Option Err}
    (hmax : r.maxLine > 0) (hr : r.readLine I fuel = .val ((line, e), r')) :
    (line.length : Int) ≤ r.maxLine - 1 + 2048 := by
  have := (readLine_len I (reachable_small I h) hr).2.2 hmax
  simpa [readBuf] using this

/-- The bound is about something: a limit of 3 and a 5-byte line in one chunk is returned whole, which
is longer than the limit. -/
example : ∃ r', ((newReader (Z := Bool) [⟨b!"abcd|", none⟩] 124).setMaxLine 3).readLine toy 10
    = .val ((b!"abcd|", none), r') := ⟨_, rfl⟩

/-- The limit itself is not a bound on the returned lines (only limit + 2047 is). -/
theorem maxLine_not_exact : ∃ (s : Src) (line : Bytes) (r' : Reader Bool),
    ((newReader s 124).setMaxLine 3).readLine toy 10 = .val ((line, none), r') ∧ line.length > 3 :=
  ⟨[⟨b!"abcd|", none⟩], b!"abcd|", _, rfl, by decide⟩

/-- **C02 (legal lines pass).** A line of at most `max` bytes is never rejected: by
`readLine_chunk_independent` it is returned.  Here as a direct statement about the first line. -/
theorem readLine_legal (s : Src) (hs : DataOnly s) (delim : Byte) (max : Int) (l rest : Bytes)
    (hl : IsLine delim l) (hb : bytesOf s = l ++ rest) (hmax : max ≤ 0 ∨ (l.length : Int) ≤ max) :
    ∃ r', ((newReader s delim : Reader Z).setMaxLine max).ReadsLine I (l, none) r' := by
  obtain ⟨body, hn, rfl⟩ := hl
  have hrem := rem_new I s delim max []
  rw [items_of_dataOnly hs, hb, List.map_append] at hrem
  obtain ⟨r', _, _, _, _, _, h⟩ := Reader.readsLine_accept I hrem hn hmax rfl
  exact ⟨r', h⟩

example : bytesOf [⟨b!"ab", none⟩, ⟨b!"c|d", none⟩] = b!"abc|" ++ b!"d" ∧ IsLine 124 b!"abc|" :=
  ⟨rfl, b!"abc", by decide, rfl⟩

/-! ### C07: closed readers -/

/-- **C07.** After `Close`, `ReadLine`, `Read`, `EnableZlib` and `Binary` return the closed error and no
data, and leave the reader closed, so this holds for every later call too. -/
theorem closed_refuses (r : Reader Z) (hc : r.orig = none) (fuel n : Nat) (sched) :
    r.readLine I fuel = .val (([], some .readerClosed), r) ∧
    r.read I fuel n = .val (([], some .readerClosed), r) ∧
    r.enableZlib I fuel sched = .val (some .readerClosed, r) ∧
    r.binary n = .error .readerClosed := by
  simp [Reader.readLine, Reader.read, Reader.enableZlib, Reader.binary, hc]

theorem close_closes (r : Reader Z) : r.close.orig = none := rfl

/-- Every call after `Close`, in every history, is refused. -/
theorem closed_for_ever (r : Reader Z) : r.close.orig = none ∧
    ∀ r' : Reader Z, r'.orig = none →
      (∀ fuel res r'', r'.readLine I fuel = .val (res, r'') → r''.orig = none) ∧
      (∀ fuel n res r'', r'.read I fuel n = .val (res, r'') → r''.orig = none) ∧
      (∀ fuel sched res r'', r'.enableZlib I fuel sched = .val (res, r'') → r''.orig = none) ∧
      (r'.close).orig = none ∧ (∀ n, (r'.setMaxLine n).orig = none) ∧ (∀ f, (r'.addHook f).orig = none) := by
  refine ⟨rfl, fun r' h => ⟨?_, ?_, ?_, rfl, fun _ => h, fun _ => h⟩⟩
  · intro fuel res r'' hr
    rw [(closed_refuses I r' h fuel 0 []).1] at hr; cases hr; exact h
  · intro fuel n res r'' hr
    rw [(closed_refuses I r' h fuel n []).2.1] at hr; cases hr; exact h
  · intro fuel sched res r'' hr
    rw [(closed_refuses I r' h fuel 0 sched).2.2.1] at hr; cases hr; exact h

example : ∃ r : Reader Bool, Reachable toy r ∧ r.orig = none :=
  ⟨_, .close (.new [⟨b!"a|", none⟩] 124), rfl⟩

/-! ### Findings -/

/-- A limit error does not consume the line: the next `ReadLine` returns the rest of the over-long
line as if it were a line of its own (so `bufferExhausted` must end the connection). -/
theorem exhausted_desync : ∃ (r1 r2 : Reader Bool),
    ((newReader [⟨b!"aaaa", none⟩, ⟨b!"bb|", none⟩] 124).setMaxLine 3).readLine toy 10
      = .val (([], some .bufferExhausted), r1) ∧
    r1.readLine toy 10 = .val ((b!"bb|", none), r2) := ⟨_, _, rfl, rfl⟩

/-- After a failed `EnableZlib` the reader believes that compression is on: a second attempt is
refused although nothing is being decompressed. -/
theorem enableZlib_failure_sticks : ∃ (r1 r2 : Reader Bool) (e : Err),
    (newReader [⟨b!"??x|", none⟩] 124).enableZlib toy 10 [] = .val (some e, r1) ∧
    e ≠ .zlibAlreadyActive ∧
    r1.enableZlib toy 10 [] = .val (some .zlibAlreadyActive, r2) := ⟨_, _, _, rfl, by decide, rfl⟩

/-- A read error in the middle of a line hands the prefix to the caller; if the source recovers, the
next `ReadLine` returns only the second half. -/
theorem error_splits_line : ∃ (r1 r2 : Reader Bool),
    (newReader [⟨b!"ab", none⟩, ⟨[], some (.other 1)⟩, ⟨b!"cd|", none⟩] 124).readLine toy 10
      = .val ((b!"ab", some (.other 1)), r1) ∧
    r1.readLine toy 10 = .val ((b!"cd|", none), r2) := ⟨_, _, rfl, rfl⟩

end Verif.Props.LineReader
