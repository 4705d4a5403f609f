import Verif.Tiger.TreeMemory

/-! # Lemmas about tree hashes in memory -/

namespace Verif.Tiger

open Verif.Go Verif.Lineproto

variable (H : Bytes → Hash)

/-! ## Buffers -/

theorem writeAt_length {b d : Bytes} {off : Nat} (h : off + d.length ≤ b.length) : (writeAt b off d).length = b.length := by
  simp [writeAt]; omega

theorem writeAt_take {b d : Bytes} {off : Nat} (h : off + d.length ≤ b.length) :
    (writeAt b off d).take (off + d.length) = b.take off ++ d := by
  rw [writeAt, List.take_left' (by simp; omega)]

theorem nodeBuf_eq {buf : Bytes} (hb : buf.length = 49) (a b : Hash) : nodeBuf buf a b = 1 :: (a.bytes ++ b.bytes) := by
  have ha := a.size
  have hb' := b.size
  obtain ⟨x, r, rfl⟩ : ∃ x r, buf = x :: r := by
    cases buf with
    | nil => simp at hb
    | cons x r => exact ⟨x, r, rfl⟩
  have h1 : (writeAt ((x :: r).set 0 1) 1 a.bytes).take (1 + 24) = [1] ++ a.bytes := by
    have := writeAt_take (b := (x :: r).set 0 1) (d := a.bytes) (off := 1) (by simp at hb ⊢; omega)
    rw [ha] at this
    rw [this]; simp
  have h2 : (writeAt ((x :: r).set 0 1) 1 a.bytes).length = 49 := by rw [writeAt_length (by simp at hb ⊢; omega)]; simpa using hb
  rw [nodeBuf, writeAt, h1, List.drop_eq_nil_of_le (by rw [h2, hb']; omega)]
  simp

theorem leafBuf_eq {buf t d : Bytes} (hb : buf.length = 1025) (ht : t.length ≤ 1024) (hd : d.length ≤ 1024) :
    ((writeAt (writeAt buf 1 t) 1 d).set 0 0).take (d.length + 1) = 0 :: d ∧ ((writeAt (writeAt buf 1 t) 1 d).set 0 0).length = 1025 := by
  have h1 : (writeAt buf 1 t).length = 1025 := by rw [writeAt_length (by omega), hb]
  have h2 : (writeAt (writeAt buf 1 t) 1 d).length = 1025 := by rw [writeAt_length (by omega), h1]
  have h3 := writeAt_take (b := writeAt buf 1 t) (d := d) (off := 1) (by omega)
  refine ⟨?_, by simpa using h2⟩
  rw [List.take_set, Nat.add_comm, h3]
  generalize writeAt buf 1 t = w at h1
  cases w with
  | nil => simp at h1
  | cons x w => simp

theorem read_le {s s' : Src} {n : Nat} {d : Bytes} {e : Option Err} (h : s.read n = ((d, e), s')) : d.length ≤ n := by
  unfold Src.read at h
  split at h
  · simp at h; rw [h.1.1]; exact Nat.zero_le _
  · split at h
    · simp at h; rw [← h.1.1]; assumption
    · simp at h; rw [← h.1.1]; simp; omega

theorem leavesBuf_eq (lvl : List Hash) (buf : Bytes) (scratch : List Bytes) (s : Src) (hb : buf.length = 1025) :
    leavesBuf H lvl buf scratch s = leavesLoop H lvl s := by
  generalize hn : srcSize s = n
  induction n using Nat.strongRecOn generalizing lvl buf scratch s with
  | _ n ih =>
    obtain ⟨d, e, s', hr⟩ : ∃ d e s', s.read tthBlock = ((d, e), s') := ⟨_, _, _, rfl⟩
    obtain ⟨h1, h2⟩ := leafBuf_eq (t := (scratch.headD []).take tthBlock) (d := d) hb (by simp only [List.length_take, tthBlock]; omega) (read_le hr)
    rw [leavesLoop_read H lvl s s' d e hr, leavesBuf]
    split <;> rename_i h' <;> rw [hr] at h' <;> cases h'
    · simp only [h1]
    · simp only [h1]
      split
      · rfl
      · exact ih _ (by rw [← hn]; exact srcSize_read (by decide) hr (by simp)) _ _ _ _ h2 rfl

/-! ## Calls -/

/-- What a call that is within a level will return. -/
def TCall.Will (h0 h : HHeap) (e : Res Hash) : TCall → Prop
  | .start leaves _ => leaves.Within h0 ∧ levels H (leaves.read h0) = e
  | .level a n i buf => h0.length ≤ a ∧ buf.length = 49 ∧ ∃ l, h[a]? = some l ∧ 1 ≤ n ∧ n ≤ l.length ∧
      (if 1 < n then levels H ((pairLoop H i (l.take n)).take (if n % 2 ≠ 0 then n / 2 + 1 else n / 2)) else levels H (l.take n)) = e
  | .done r => e = .ok r
  | .panicked => e = .panic

theorem read_grown {h0 h : HHeap} {s : HSlice} (hs : s.Within h0) (hp : h.take h0.length = h0) : s.read h = s.read h0 := by
  unfold HSlice.read
  have : h0[s.arr]? = h[s.arr]? := by rw [← hp, List.getElem?_take, if_pos (by have := hs.1; omega)]
  rw [List.getD_eq_getElem?_getD, List.getD_eq_getElem?_getD, this]

theorem will_level {h0 h : HHeap} {e : Res Hash} {a n : Nat} {buf : Bytes} {l : List Hash} (ha : h0.length ≤ a) (hb : buf.length = 49)
    (hl : h[a]? = some l) (h1 : 1 ≤ n) (hn : n ≤ l.length) (he : levels H (l.take n) = e) : (TCall.level a n 0 buf).Will H h0 h e := by
  refine ⟨ha, hb, l, hl, h1, hn, ?_⟩
  split
  · rename_i h
    rw [levels, dif_pos (by simp; omega)] at he
    rw [← he]
    simp only [List.length_take, Nat.min_eq_left hn]
  · exact he

/-- What a call that is not at its start writes: only its own array. -/
theorem step_will {h0 h : HHeap} {e : Res Hash} {c : TCall} (hp : h.take h0.length = h0) (hle : h0.length ≤ h.length) (hw : c.Will H h0 h e) :
    (c.step H h).2.Will H h0 (c.step H h).1 e ∧
      ((c.step H h).1 = h ∨ (∃ x, (c.step H h).1 = h ++ [x] ∧ c.owns = none ∧ (c.step H h).2.owns = some h.length) ∨
        ∃ a x, c.owns = some a ∧ (c.step H h).1 = h.set a x) ∧
      ((c.step H h).2.owns = none ∨ (c.step H h).2.owns = c.owns ∨ ((c.step H h).2.owns = some h.length ∧ (c.step H h).1.length = h.length + 1)) := by
  cases c with
  | done r => exact ⟨hw, .inl rfl, .inl rfl⟩
  | panicked => exact ⟨hw, .inl rfl, .inl rfl⟩
  | start leaves extra =>
    obtain ⟨hin, he⟩ := hw
    simp only [TCall.step, read_grown hin hp]
    split
    · rename_i hc
      refine ⟨?_, .inl rfl, .inl rfl⟩
      rw [hc, levels] at he
      simpa [TCall.Will] using he.symm
    · rename_i hc
      refine ⟨will_level H (l := leaves.read h0 ++ List.replicate extra .zero) hle (by simp) (by simp) ?_ (by simp) (by simpa using he), .inr (.inl ⟨_, rfl, rfl, rfl⟩), .inr (.inr ⟨rfl, by simp⟩)⟩
      exact List.length_pos_iff.mpr hc
  | level a n i buf =>
    obtain ⟨ha, hb, l, hl, h1, hn, he⟩ := hw
    have hal : a < h.length := (List.getElem?_eq_some_iff.1 hl).1
    have hg : h.getD a [] = l := by rw [List.getD_eq_getElem?_getD, hl]; rfl
    simp only [TCall.step, hg]
    split
    · rename_i hn1
      refine ⟨?_, .inl rfl, .inl rfl⟩
      rw [if_neg (by omega), levels] at he
      cases l with
      | nil => simp at hn; omega
      | cons x l =>
        have : n = 1 := by omega
        subst this
        simpa [TCall.Will] using he.symm
    · rename_i hn1
      rw [if_pos (by omega)] at he
      split
      · rename_i hi
        rw [pairLoop] at he
        simp only [List.length_take, Nat.min_eq_left hn] at he
        rw [dif_pos hi] at he
        split
        · rename_i hi1
          rw [dif_neg (by omega)] at he
          refine ⟨⟨ha, hb, l.set (i / 2) (l.getD i .zero), by simp [hal], h1, by simpa using hn, ?_⟩, .inr (.inr ⟨a, _, rfl, rfl⟩), .inr (.inl rfl)⟩
          rw [if_pos (by omega), List.take_set, ← he]
          congr 4
          simp [List.getD_eq_getElem?_getD, List.getElem?_eq_getElem (show i < l.length by omega)]
        · rename_i hi1
          rw [dif_pos (by omega)] at he
          rw [nodeBuf_eq hb]
          refine ⟨⟨ha, ?_, l.set (i / 2) _, by simp [hal]; rfl, h1, by simpa using hn, ?_⟩, .inr (.inr ⟨a, _, rfl, rfl⟩), .inr (.inl rfl)⟩
          · simp [Hash.size]
          · rw [if_pos (by omega), List.take_set, ← he]
            congr 4
            simp [nodeHash, List.getElem?_eq_getElem (show i < l.length by omega),
              List.getElem?_eq_getElem (show i + 1 < l.length by omega)]
      · rename_i hi
        have hlt : (if n % 2 ≠ 0 then n / 2 + 1 else n / 2) ≤ n := by split <;> omega
        refine ⟨will_level H ha hb hl (by split <;> omega) (by omega) ?_, .inl rfl, .inr (.inl rfl)⟩
        rw [pairLoop, dif_neg (by simp; omega), List.take_take, Nat.min_eq_left hlt] at he
        exact he

theorem will_frame {h0 h h' : HHeap} {e : Res Hash} {c : TCall} (hw : c.Will H h0 h e) (h1 : ∀ a, c.owns = some a → h'[a]? = h[a]?) :
    c.Will H h0 h' e := by
  cases c with
  | level a n i buf =>
    obtain ⟨ha, hb, l, hl, r⟩ := hw
    exact ⟨ha, hb, l, by rw [h1 a rfl, hl], r⟩
  | _ => exact hw

/-- Calls that are going on, each with what it will return; no two of them write to the same array. -/
structure TPar.Inv (h0 : HHeap) (es : List (Res Hash)) (p : TPar) : Prop where
  old : p.heap.take h0.length = h0
  grown : h0.length ≤ p.heap.length
  will : ∀ (t : Nat) (c : TCall) (e : Res Hash), p.calls[t]? = some c → es[t]? = some e → c.Will H h0 p.heap e
  lens : p.calls.length = es.length
  owned : ∀ (t : Nat) (c : TCall) (a : Nat), p.calls[t]? = some c → c.owns = some a → a < p.heap.length
  apart : ∀ (t u : Nat) (c d : TCall) (a : Nat), t ≠ u → p.calls[t]? = some c → p.calls[u]? = some d → c.owns = some a → d.owns ≠ some a

theorem owns_ge {h0 h : HHeap} {e : Res Hash} {c : TCall} {a : Nat} (hw : c.Will H h0 h e) (ho : c.owns = some a) : h0.length ≤ a := by
  cases c with
  | level b n i buf => cases ho; exact hw.1
  | _ => cases ho

theorem TPar.Inv.step {h0 : HHeap} {es : List (Res Hash)} {p : TPar} (hi : p.Inv H h0 es) (t : Nat) : (p.step H t).Inv H h0 es := by
  unfold TPar.step
  split
  · exact hi
  · rename_i c hc
    have htl : t < p.calls.length := (List.getElem?_eq_some_iff.1 hc).1
    obtain ⟨e, he⟩ : ∃ e, es[t]? = some e := ⟨_, List.getElem?_eq_getElem (hi.lens ▸ htl)⟩
    have hw := hi.will t c e hc he
    obtain ⟨s1, s2, s3⟩ := step_will H hi.old hi.grown hw
    generalize hst : c.step H p.heap = r at s1 s2 s3
    obtain ⟨h', c'⟩ := r
    simp only at s1 s2 s3 ⊢
    have hlen : p.heap.length ≤ h'.length := by
      rcases s2 with rfl | ⟨x, rfl, _⟩ | ⟨a, x, _, rfl⟩ <;> simp
    have hold : h'.take h0.length = h0 := by
      rcases s2 with rfl | ⟨x, rfl, _⟩ | ⟨a, x, ho, rfl⟩
      · exact hi.old
      · rw [List.take_append_of_le_length hi.grown, hi.old]
      · rw [List.take_set_of_le (owns_ge H hw ho), hi.old]
    have hget : ∀ u d, u ≠ t → (p.calls.set t c')[u]? = some d → p.calls[u]? = some d := by
      intro u d hu h
      rwa [List.getElem?_set_ne (Ne.symm hu)] at h
    have hself : ∀ d, (p.calls.set t c')[t]? = some d → d = c' := by
      intro d h
      rw [List.getElem?_set_self htl] at h
      exact (Option.some.inj h).symm
    have hother : ∀ u d a, u ≠ t → p.calls[u]? = some d → d.owns = some a → h'[a]? = p.heap[a]? := by
      intro u d a hu hd ha
      have hlt := hi.owned u d a hd ha
      rcases s2 with rfl | ⟨x, rfl, _⟩ | ⟨b, x, ho, rfl⟩
      · rfl
      · exact List.getElem?_append_left hlt
      · have : b ≠ a := by rintro rfl; exact hi.apart t u c d b (Ne.symm hu) hc hd ho ha
        exact List.getElem?_set_ne this
    have hfresh : ∀ u d a, u ≠ t → p.calls[u]? = some d → d.owns = some a → c'.owns ≠ some a := by
      intro u d a hu hd ha hc'
      have hlt := hi.owned u d a hd ha
      rcases s3 with h | h | ⟨h, _⟩
      · rw [h] at hc'; cases hc'
      · rw [h] at hc'; exact hi.apart t u c d a (Ne.symm hu) hc hd hc' ha
      · rw [h] at hc'; cases hc'; exact Nat.lt_irrefl _ hlt
    refine ⟨hold, Nat.le_trans hi.grown hlen, ?_, by simpa using hi.lens, ?_, ?_⟩
    · intro u d e' hd he'
      by_cases hu : u = t
      · subst hu
        rw [hself d hd]
        rw [he] at he'; cases he'
        exact s1
      · exact will_frame H (hi.will u d e' (hget u d hu hd) he') fun a ha => hother u d a hu (hget u d hu hd) ha
    · intro u d a hd ha
      by_cases hu : u = t
      · subst hu
        rw [hself d hd] at ha
        rcases s3 with h | h | ⟨h, h2⟩
        · rw [h] at ha; cases ha
        · rw [h] at ha; exact Nat.lt_of_lt_of_le (hi.owned u c a hc ha) hlen
        · rw [h] at ha; cases ha; show p.heap.length < h'.length; omega
      · exact Nat.lt_of_lt_of_le (hi.owned u d a (hget u d hu hd) ha) hlen
    · intro u v d f a huv hd hf ha
      by_cases hu : u = t
      · subst hu
        rw [hself d hd] at ha
        intro hfa
        exact hfresh v f a (Ne.symm huv) (hget v f (Ne.symm huv) hf) hfa ha
      · by_cases hv : v = t
        · subst hv
          rw [hself f hf]
          exact hfresh u d a hu (hget u d hu hd) ha
        · exact hi.apart u v d f a huv (hget u d hu hd) (hget v f hv hf) ha

theorem TPar.Inv.run {h0 : HHeap} {es : List (Res Hash)} {p : TPar} (hi : p.Inv H h0 es) (sched : List Nat) : (p.run H sched).Inv H h0 es := by
  induction sched generalizing p with
  | nil => exact hi
  | cons t sched ih => exact ih (hi.step H t)

/-! ## How long a call takes -/

def TCall.rank : TCall → Nat
  | .start leaves _ => (leaves.len + 3) * leaves.len + leaves.len + 2
  | .level _ n i _ => (n + 3) * n + (n - i) + 1
  | _ => 0

theorem rank_zero {c : TCall} : c.rank = 0 ↔ c.finished = true := by
  cases c <;> simp [TCall.rank, TCall.finished]

theorem rank_step (h : HHeap) (c : TCall) : (c.step H h).2.rank ≤ c.rank - 1 := by
  cases c with
  | done r => simp [TCall.step, TCall.rank]
  | panicked => simp [TCall.step, TCall.rank]
  | start leaves extra =>
    simp only [TCall.step]
    split
    · simp [TCall.rank]
    · have : (leaves.read h).length ≤ leaves.len := by simp [HSlice.read]; omega
      simp only [TCall.rank]
      have h2 := Nat.mul_le_mul (show (leaves.read h).length + 3 ≤ leaves.len + 3 by omega) this
      omega
  | level a n i buf =>
    simp only [TCall.step]
    split
    · simp [TCall.rank]
    · rename_i hn
      split
      · rename_i hi
        split <;> (simp only [TCall.rank]; omega)
      · obtain ⟨k, hk, hkn⟩ : ∃ k, (if n % 2 ≠ 0 then n / 2 + 1 else n / 2) = k ∧ k + 1 ≤ n := ⟨_, rfl, by split <;> omega⟩
        rw [hk]
        simp only [TCall.rank]
        have : (k + 3) * k + k ≤ (n + 3) * k := by
          have := Nat.mul_le_mul_right k (show k + 4 ≤ n + 3 by omega)
          rw [show k + 4 = k + 3 + 1 from rfl, Nat.add_mul (k + 3) 1, Nat.one_mul] at this
          exact this
        have h2 := Nat.mul_le_mul_left (n + 3) hkn
        rw [Nat.mul_add, Nat.mul_one] at h2
        omega

theorem run_rank (t : Nat) (sched : List Nat) (p : TPar) (c : TCall) (hc : p.calls[t]? = some c) :
    ∃ c', (p.run H sched).calls[t]? = some c' ∧ c'.rank ≤ c.rank - sched.count t := by
  induction sched generalizing p c with
  | nil => exact ⟨c, hc, by simp⟩
  | cons u sched ih =>
    have htl : t < p.calls.length := (List.getElem?_eq_some_iff.1 hc).1
    by_cases hu : u = t
    · subst hu
      have h1 : (p.step H u).calls[u]? = some (c.step H p.heap).2 := by
        rw [TPar.step, hc]; simp [htl]
      obtain ⟨c', h2, h3⟩ := ih (p.step H u) _ h1
      refine ⟨c', h2, Nat.le_trans h3 ?_⟩
      have := rank_step H p.heap c
      rw [List.count_cons_self]; omega
    · have h1 : (p.step H u).calls[t]? = some c := by
        unfold TPar.step
        split
        · exact hc
        · simp only; rw [List.getElem?_set_ne hu]; exact hc
      obtain ⟨c', h2, h3⟩ := ih (p.step H u) _ h1
      refine ⟨c', h2, ?_⟩
      rwa [List.count_cons_of_ne hu]

end Verif.Tiger
