import Verif.Lineproto.ReaderSafe

/-!
# A transport that stops at an empty result

The run of a reader over a transport that fails with a new error in place of one of its results `(0, nil)` is compared with the run over the
transport as it is.
-/

namespace Verif.Lineproto

variable {Z : Type} (I : Inflater Z)

/-- The transport gives `s0` first, then `(0, nil)`; in the other run it gives `s0` first, then the error `e`, which is a new one. -/
structure Cut (e : Err) (s1 : Src) (b b' : Buf) (s0 : Src) : Prop where
  buf : b'.buf = b.buf
  src : b.src = s0 ++ ⟨[], none⟩ :: s1
  src' : b'.src = s0 ++ [⟨[], some e⟩]
  fresh : ∀ ev ∈ s0, ev.err ≠ some e
  eof : e ≠ .eof
  uneof : e ≠ .unexpectedEOF

/-- `Read` while there is something left of `s0`. -/
theorem src_read_append {s0 : Src} (hs : s0 ≠ []) (n : Nat) (s : Src) :
    (s0 ++ s).read n = ((s0.read n).1, (s0.read n).2 ++ s) := by
  cases s0 with
  | nil => exact absurd rfl hs
  | cons ev t => simp only [List.cons_append, Src.read]; split <;> rfl

theorem src_read_fresh {e : Err} {s0 : Src} (hs : s0 ≠ []) (n : Nat) (h : ∀ ev ∈ s0, ev.err ≠ some e) :
    (s0.read n).1.2 ≠ some e ∧ ∀ ev ∈ (s0.read n).2, ev.err ≠ some e := by
  cases s0 with
  | nil => exact absurd rfl hs
  | cons ev t =>
    simp only [Src.read]
    split
    · exact ⟨h ev (by simp), fun x hx => h x (by simp [hx])⟩
    · refine ⟨by simp, fun x hx => ?_⟩
      simp only [List.mem_cons] at hx
      rcases hx with rfl | hx
      · exact h ev (by simp)
      · exact h x (by simp [hx])

/-- `ReadByte` in the two runs. -/
theorem readByte_cut {e : Err} {s1 s0 : Src} {b b' : Buf} (h : Cut e s1 b b' s0) :
    (∃ x b1 b1' s, b.readByte = .val (x, b1) ∧ b'.readByte = .val (x, b1') ∧ Cut e s1 b1 b1' s ∧ x ≠ .inr e) ∨
    (b.readByte = .panic ∧ b'.readByte = .panic) ∨
    (b.readByte = .panic ∧ ∃ b1', b'.readByte = .val (.inr e, b1')) := by
  obtain ⟨src, buf⟩ := b
  obtain ⟨src', buf'⟩ := b'
  obtain ⟨hb, hs, hs', hfr, he1, he2⟩ := h
  simp only at hb hs hs'
  subst hb hs hs'
  cases buf' with
  | cons c cs =>
    left
    exact ⟨.inl c, _, _, s0, rfl, rfl, ⟨rfl, rfl, rfl, hfr, he1, he2⟩, by simp⟩
  | nil =>
    cases s0 with
    | nil => exact .inr (.inr ⟨rfl, _, rfl⟩)
    | cons ev t =>
      have hne : ev :: t ≠ [] := by simp
      have hr1 := src_read_append hne readBuf (⟨[], none⟩ :: s1)
      have hr2 := src_read_append hne readBuf [⟨[], some e⟩]
      have hfr' := src_read_fresh hne readBuf hfr
      simp only [Buf.readByte, Buf.peek, hr1, hr2]
      rcases hx : Src.read readBuf (ev :: t) with ⟨⟨d, x⟩, s⟩
      rw [hx] at hfr'
      simp only at hfr'
      cases d with
      | nil =>
        cases x with
        | none => exact .inr (.inl ⟨rfl, rfl⟩)
        | some x =>
          exact .inl ⟨.inr x, _, _, s, rfl, rfl, ⟨rfl, rfl, rfl, hfr'.2, he1, he2⟩, by
            intro hh; cases hh; exact hfr'.1 rfl⟩
      | cons c cs =>
        exact .inl ⟨.inl c, _, _, s, rfl, rfl, ⟨rfl, rfl, rfl, hfr'.2, he1, he2⟩, by simp⟩

/-- The next byte for `io.ReadFull` in the two runs. -/
theorem fetch_cut {e : Err} {s1 : Src} : ∀ {s0 : Src}, (∀ ev ∈ s0, ev.err ≠ some e) →
    (∃ x s, Src.fetch (s0 ++ ⟨[], none⟩ :: s1) = (x, s ++ ⟨[], none⟩ :: s1) ∧ Src.fetch (s0 ++ [⟨[], some e⟩]) = (x, s ++ [⟨[], some e⟩]) ∧
      (∀ ev ∈ s, ev.err ≠ some e) ∧ x ≠ .inr e ∧ ∀ c, x ≠ .inl (c, some e)) ∨
    (Src.fetch (s0 ++ ⟨[], none⟩ :: s1) = s1.fetch ∧ Src.fetch (s0 ++ [⟨[], some e⟩]) = (.inr e, [])) := by
  intro s0
  induction s0 with
  | nil => intro _; exact .inr ⟨rfl, rfl⟩
  | cons ev t ih =>
    intro h
    have ht : ∀ ev ∈ t, ev.err ≠ some e := fun x hx => h x (by simp [hx])
    have hev := h ev (by simp)
    obtain ⟨d, x⟩ := ev
    simp only at hev
    match d, x with
    | [], none => exact ih ht
    | [], some x => exact .inl ⟨.inr x, t, rfl, rfl, ht, by intro hh; cases hh; exact hev rfl, by simp⟩
    | [c], x =>
      refine .inl ⟨.inl (c, x), t, rfl, rfl, ht, by simp, ?_⟩
      intro c' hh; cases hh; exact hev rfl
    | c :: d :: ds, x =>
      refine .inl ⟨.inl (c, none), ⟨d :: ds, x⟩ :: t, rfl, rfl, ?_, by simp, by simp⟩
      intro ev hm
      rcases List.mem_cons.mp hm with rfl | hm
      · exact hev
      · exact ht ev hm

/-- The next byte for the decompressor in the two runs. -/
theorem zByte_cut {e : Err} {s1 s0 : Src} {b b' : Buf} (n : Nat) (h : Cut e s1 b b' s0) :
    (∃ x b1 b1' s, b.zByte n = .val (x, b1) ∧ b'.zByte n = .val (x, b1') ∧ Cut e s1 b1 b1' s ∧ x ≠ .inr e ∧ ∀ c, x ≠ .inl (c, some e)) ∨
    (b.zByte n = .panic ∧ b'.zByte n = .panic) ∨
    (n = 0 ∧ b.zByte n = .panic ∧ ∃ b1', b'.zByte n = .val (.inr e, b1')) ∨
    (n ≠ 0 ∧ (s1.NoEmpty → ∃ x b1, b.zByte n = .val (x, b1) ∧ b1.src.NoEmpty) ∧ ∃ b1', b'.zByte n = .val (.inr e, b1')) := by
  by_cases hn : n = 0
  · simp only [Buf.zByte, hn, if_true]
    rcases readByte_cut h with ⟨x, b1, b1', s, h1, h2, h3, h4⟩ | ⟨h1, h2⟩ | ⟨h1, b1', h2⟩
    · rw [h1, h2]
      cases x with
      | inl c => exact .inl ⟨_, _, _, s, rfl, rfl, h3, by simp, by simp⟩
      | inr x => exact .inl ⟨_, _, _, s, rfl, rfl, h3, by intro hh; cases hh; exact h4 rfl, by simp⟩
    · rw [h1, h2]; exact .inr (.inl ⟨rfl, rfl⟩)
    · rw [h1, h2]; exact .inr (.inr (.inl ⟨trivial, rfl, _, rfl⟩))
  · simp only [Buf.zByte, hn, if_false]
    obtain ⟨src, buf⟩ := b
    obtain ⟨src', buf'⟩ := b'
    obtain ⟨hb, hs, hs', hfr, he1, he2⟩ := h
    simp only at hb hs hs'
    subst hb hs hs'
    cases buf' with
    | cons c cs => exact .inl ⟨_, _, _, s0, rfl, rfl, ⟨rfl, rfl, rfl, hfr, he1, he2⟩, by simp, by simp⟩
    | nil =>
      simp only
      rcases fetch_cut (s1 := s1) hfr with ⟨x, s, h1, h2, h3, h4, h5⟩ | ⟨h1, h2⟩
      · rw [h1, h2]
        rcases x with ⟨c, x⟩ | x
        · refine .inl ⟨_, _, _, s, rfl, rfl, ⟨rfl, rfl, rfl, h3, he1, he2⟩, by simp, ?_⟩
          intro c' hh
          split at hh
          · cases hh
          · cases hh; exact h5 c rfl
        · exact .inl ⟨_, _, _, s, rfl, rfl, ⟨rfl, rfl, rfl, h3, he1, he2⟩, by intro hh; cases hh; exact h4 rfl, by simp⟩
      · rw [h1, h2]
        refine .inr (.inr (.inr ⟨hn, ?_, _, rfl⟩))
        intro hne
        have := fetch_safe hne
        rcases hx : s1.fetch with ⟨⟨c, x⟩ | x, s⟩ <;> rw [hx] at this <;> exact ⟨_, _, rfl, this⟩

theorem noEOF_self {e : Err} (h : e ≠ .eof) : noEOF e = e := by
  cases e <;> first | rfl | exact absurd rfl h

theorem noEOF_ne {e x : Err} (h : x ≠ e) (he : e ≠ .unexpectedEOF) : noEOF x ≠ e := by
  cases x <;> first | exact h | exact fun hh => he hh.symm

theorem zFill_took {e : Err} (want : Nat) (f : Nat) {zr : ZRd Z} {b : Buf} (h : zr.zerr = some e) :
    zFill I want f zr b = .timeout ∨ zFill I want f zr b = .val (zr, b) := by
  cases f with
  | zero => exact .inl rfl
  | succ f =>
    right
    rw [zFill, h]
    simp only [Option.isSome_some, if_true]
    split <;> rfl

/-- The decompressor has been given the error; `w` says whether by `ReadByte`. -/
def ZRd.Took (e : Err) (w : Bool) (zr : ZRd Z) : Prop := zr.zerr = some e ∧ decide (I.want zr.z = 0) = w

/-- The decompressor in the two runs: they go the same way; or need more time; or both panic; or the first one panics when the second one takes
the error; or `io.ReadFull` takes the error in the second one and goes on in the first one. -/
theorem zFill_cut {e : Err} {s1 : Src} (want : Nat) : ∀ (f : Nat) {zr : ZRd Z} {b b' : Buf} {s0 : Src}, Cut e s1 b b' s0 → zr.zerr ≠ some e →
    (∃ zr1 b1 b1' s, zFill I want f zr b = .val (zr1, b1) ∧ zFill I want f zr b' = .val (zr1, b1') ∧ Cut e s1 b1 b1' s ∧ zr1.zerr ≠ some e) ∨
    (zFill I want f zr b = .timeout ∧ zFill I want f zr b' = .timeout) ∨
    (zFill I want f zr b = .panic ∧ zFill I want f zr b' = .panic) ∨
    (zFill I want f zr b = .panic ∧ (zFill I want f zr b' = .timeout ∨ ∃ zr1 b1', zFill I want f zr b' = .val (zr1, b1') ∧ zr1.Took I e true)) ∨
    ((s1.NoEmpty → zFill I want f zr b ≠ .panic ∧ ∀ zr1 b1, zFill I want f zr b = .val (zr1, b1) → b1.src.NoEmpty) ∧
      (zFill I want f zr b' = .timeout ∨ ∃ zr1 b1', zFill I want f zr b' = .val (zr1, b1') ∧ zr1.Took I e false)) := by
  intro f
  induction f with
  | zero => intro zr b b' s0 _ _; exact .inr (.inl ⟨rfl, rfl⟩)
  | succ f ih =>
    intro zr b b' s0 h hz
    simp only [zFill]
    split
    · exact .inl ⟨zr, b, b', s0, rfl, rfl, h, hz⟩
    · split
      · exact .inl ⟨zr, b, b', s0, rfl, rfl, h, hz⟩
      · cases I.status zr.z with
        | done => exact .inl ⟨zr, b, b', s0, rfl, rfl, h, hz⟩
        | failed _ => exact .inl ⟨zr, b, b', s0, rfl, rfl, h, hz⟩
        | running =>
          simp only
          have took : ∀ b1' : Buf, zFill I want f { zr with zerr := some (noEOF e) } b1' = .timeout ∨
              ∃ zr1 b2, zFill I want f { zr with zerr := some (noEOF e) } b1' = .val (zr1, b2) ∧ zr1.Took I e (decide (I.want zr.z = 0)) := by
            intro b1'
            rcases zFill_took I want f (zr := { zr with zerr := some (noEOF e) }) (b := b1') rfl with h1 | h1
            · exact .inl h1
            · exact .inr ⟨_, _, h1, by simp [noEOF_self h.eof], rfl⟩
          rcases zByte_cut (I.want zr.z) h with ⟨x, b1, b1', s, h1, h2, h3, h4, h5⟩ | ⟨h1, h2⟩ | ⟨hw, h1, b1', h2⟩ | ⟨hw, h1, b1', h2⟩
          · rw [h1, h2]
            rcases x with ⟨c, x⟩ | x
            · refine ih h3 ?_
              cases x with
              | none => simp
              | some x =>
                simp only [Option.map_some, ne_eq, Option.some.injEq]
                exact noEOF_ne (fun hh => h5 c (by rw [hh])) h.uneof
            · refine ih h3 ?_
              simp only [ne_eq, Option.some.injEq]
              exact noEOF_ne (fun hh => h4 (by rw [hh])) h.uneof
          · rw [h1, h2]; exact .inr (.inr (.inl ⟨rfl, rfl⟩))
          · rw [h1, h2]
            refine .inr (.inr (.inr (.inl ⟨rfl, ?_⟩)))
            have := took b1'
            simpa [hw] using this
          · refine .inr (.inr (.inr (.inr ⟨?_, ?_⟩)))
            · intro hne
              obtain ⟨x, b1, h3, h4⟩ := h1 hne
              rw [h3]
              rcases x with ⟨c, x⟩ | x
              · exact zFill_safe I want f h4
              · exact zFill_safe I want f h4
            · rw [h2]
              have := took b1'
              simpa [hw] using this

theorem zRead_took {e : Err} {w : Bool} (f n : Nat) {zr : ZRd Z} {b : Buf} (h : zr.Took I e w) (he : e ≠ .eof) :
    zRead I f n zr b = .timeout ∨ ∃ x zr1 b1, zRead I f n zr b = .val (x, zr1, b1) ∧ zr1.Took I e w ∧ x.2 ≠ some .eof := by
  unfold zRead
  rcases zFill_took I (max 1 (zr.sched.headD (1, false)).1) f (b := b) h.1 with h1 | h1
  · rw [h1]; exact .inl rfl
  · rw [h1]
    have hf : zFinal I zr = e := by simp [zFinal, h.1]
    right
    simp only [hf]
    split
    · exact ⟨_, _, _, rfl, h, by simpa using he⟩
    · refine ⟨_, _, _, rfl, h, ?_⟩
      simp only
      split
      · simpa using he
      · simp

/-- `Read` of the zlib reader in the two runs. -/
theorem zRead_cut {e : Err} {s1 s0 : Src} (f n : Nat) {zr : ZRd Z} {b b' : Buf} (h : Cut e s1 b b' s0) (hz : zr.zerr ≠ some e) :
    (∃ x zr1 b1 b1' s, zRead I f n zr b = .val (x, zr1, b1) ∧ zRead I f n zr b' = .val (x, zr1, b1') ∧ Cut e s1 b1 b1' s ∧ zr1.zerr ≠ some e) ∨
    (zRead I f n zr b = .timeout ∧ zRead I f n zr b' = .timeout) ∨
    (zRead I f n zr b = .panic ∧ zRead I f n zr b' = .panic) ∨
    (zRead I f n zr b = .panic ∧ (zRead I f n zr b' = .timeout ∨ ∃ x zr1 b1', zRead I f n zr b' = .val (x, zr1, b1') ∧ zr1.Took I e true ∧
      x.2 ≠ some .eof)) ∨
    ((s1.NoEmpty → zRead I f n zr b ≠ .panic ∧ ∀ x zr1 b1, zRead I f n zr b = .val (x, zr1, b1) → b1.src.NoEmpty) ∧
      (zRead I f n zr b' = .timeout ∨ ∃ x zr1 b1', zRead I f n zr b' = .val (x, zr1, b1') ∧ zr1.Took I e false ∧ x.2 ≠ some .eof)) := by
  unfold zRead
  have fin : ∀ (w : Bool) (zr1 : ZRd Z) (b1' : Buf), zr1.Took I e w →
      ∃ x zr2 b2, (if zr1.pend = [] then
        (.val (([], some (zFinal I zr1)), { zr1 with sched := zr.sched.tail }, b1') : Exec ((Bytes × Option Err) × ZRd Z × Buf))
      else
        .val ((zr1.pend.take n, if zr1.pend.drop n = [] ∧ (zr1.zerr.isSome || (I.status zr1.z != .running)) = true ∧ (zr.sched.headD (1, false)).2 = true
          then some (zFinal I zr1) else none), { zr1 with pend := zr1.pend.drop n, sched := zr.sched.tail }, b1')) = .val (x, zr2, b2) ∧
        zr2.Took I e w ∧ x.2 ≠ some .eof := by
    intro w zr1 b1' ht
    have hf : zFinal I zr1 = e := by simp [zFinal, ht.1]
    simp only [hf]
    split
    · exact ⟨_, _, _, rfl, ht, by simpa using h.eof⟩
    · refine ⟨_, _, _, rfl, ht, ?_⟩
      simp only
      split
      · simpa using h.eof
      · simp
  rcases zFill_cut I (max 1 (zr.sched.headD (1, false)).1) f h hz with ⟨zr1, b1, b1', s, h1, h2, h3, h4⟩ | ⟨h1, h2⟩ | ⟨h1, h2⟩ |
    ⟨h1, h2 | ⟨zr1, b1', h2, h3⟩⟩ | ⟨h1, h2⟩
  · rw [h1, h2]
    left
    simp only
    split
    · exact ⟨_, _, _, _, s, rfl, rfl, h3, h4⟩
    · exact ⟨_, _, _, _, s, rfl, rfl, h3, h4⟩
  · rw [h1, h2]; exact .inr (.inl ⟨rfl, rfl⟩)
  · rw [h1, h2]; exact .inr (.inr (.inl ⟨rfl, rfl⟩))
  · rw [h1, h2]; exact .inr (.inr (.inr (.inl ⟨rfl, .inl rfl⟩)))
  · rw [h1, h2]
    exact .inr (.inr (.inr (.inl ⟨rfl, .inr (fin true zr1 b1' h3)⟩)))
  · refine .inr (.inr (.inr (.inr ⟨?_, ?_⟩)))
    · intro hne
      obtain ⟨g1, g2⟩ := h1 hne
      split
      · rename_i hv
        have g3 := g2 _ _ hv
        split
        · exact ⟨by simp, by intro x zr1 b1 hh; cases hh; exact g3⟩
        · exact ⟨by simp, by intro x zr1 b1 hh; cases hh; exact g3⟩
      · rename_i hv; exact absurd hv g1
      · simp
    · rcases h2 with h2 | ⟨zr1, b1', h2, h3⟩
      · rw [h2]; exact .inl rfl
      · rw [h2]; exact .inr (fin false zr1 b1' h3)

/-- The decompressor of the reader has been given the error; `w` says whether by `ReadByte`. -/
def Reader.Took (e : Err) (w : Bool) (r : Reader Z) : Prop := ∃ z, r.zlib = some z ∧ z.Took I e w

/-- The decompressor of the reader has not been given the error. -/
def Reader.Free (e : Err) (r : Reader Z) : Prop := ∀ z, r.zlib = some z → z.zerr ≠ some e

theorem Reader.Free.not {e : Err} {w : Bool} {r : Reader Z} (h : r.Free e) : ¬ r.Took I e w := fun ⟨z, hz, ht⟩ => h z hz ht.1

/-- The readers of the two runs, while the compressed part lasts. -/
structure CutR (e : Err) (s1 : Src) (r r' : Reader Z) : Prop where
  z : r.curZ = true
  zl : r.zlib.isSome = true
  not : r.Free e
  ex : ∃ b b' s, r.orig = some b ∧ r' = { r with orig := some b' } ∧ Cut e s1 b b' s

/-- The reader of the second run after the error was taken. -/
structure After (e : Err) (w : Bool) (r : Reader Z) : Prop where
  z : r.curZ = true
  took : r.Took I e w
  ex : r.orig.isSome = true

/-- A reader that does not panic and that is not closed. -/
def Reader.Fine (r : Reader Z) : Prop := r.Sound ∧ r.orig.isSome = true

/-- The two runs of an operation: they go the same way and the compressed part lasts; or it has ended in both; or they need more time; or
both panic; or the first one panics when `ReadByte` is given the error in the second one; or `io.ReadFull` is given it. -/
inductive Two (e : Err) (s1 : Src) {X : Type} (P : X → Prop) (o o' : Exec (X × Reader Z)) : Prop
  | lock (x : X) (r r' : Reader Z) (h : o = .val (x, r)) (h' : o' = .val (x, r')) (hc : CutR e s1 r r')
  | plain (x x' : X) (r r' : Reader Z) (h : o = .val (x, r)) (h' : o' = .val (x', r')) (hz : r.curZ = false) (hz' : r'.curZ = false)
      (ho : r.orig.isSome = true) (ho' : r'.orig.isSome = true) (hn : r'.Free e)
  | time (h : o = .timeout) (h' : o' = .timeout)
  | both (h : o = .panic) (h' : o' = .panic)
  | hit (h : o = .panic) (h' : o' = .timeout ∨ ∃ x r', o' = .val (x, r') ∧ After I e true r' ∧ P x)
  | div (h : s1.NoEmpty → o ≠ .panic ∧ ∀ x r, o = .val (x, r) → r.Fine) (h' : o' = .timeout ∨ ∃ x r', o' = .val (x, r') ∧ After I e false r' ∧ P x)

/-- The last step of `scan`. -/
theorem scan_cut {e : Err} {s1 : Src} {f : Nat} {r r' : Reader Z} {b b' : Buf} (h : CutR e s1 r r') (hb : r.orig = some b) (hb' : r'.orig = some b') :
    Two I e s1 (fun x => x.2.2 ≠ some .eof) (r.scan I f b) (r'.scan I f b') ∧
      ∀ x r1, r.scan I f b = .val (x, r1) → r1.curZ = true := by
  obtain ⟨hz, hzl, hn, b0, b0', s, h1, rfl, hc⟩ := h
  rw [hb] at h1; cases h1
  cases hb'
  have hcz : ∀ x r1, r.scan I f b = .val (x, r1) → r1.curZ = true := by
    intro x r1 h1
    unfold Reader.scan at h1
    repeat' split at h1
    all_goals first
      | (cases h1; done)
      | (cases h1; exact hz)
      | (exact absurd hz ‹_›)
  refine ⟨?_, hcz⟩
  simp only [Reader.scan, hz, if_true]
  cases hcb : r.cbuf with
  | cons c cs =>
    simp only
    rcases scanBuf r.delim (c :: cs) with ⟨p, m, rest⟩
    exact .lock _ _ _ rfl rfl ⟨rfl, hzl, hn, b, b', s, hb, rfl, hc⟩
  | nil =>
    obtain ⟨zr, hzr⟩ := Option.isSome_iff_exists.mp hzl
    have hne : zr.zerr ≠ some e := hn zr hzr
    simp only [hzr, zPeek]
    have fin : ∀ (w : Bool) (d : Bytes) (x : Option Err) (zr1 : ZRd Z) (b1' : Buf), zr1.Took I e w → x ≠ some .eof →
        ∃ y r1, (match (match (Exec.val ((d, x), zr1, b1') : Exec ((Bytes × Option Err) × ZRd Z × Buf)) with
          | .val (([], some e), zr', b') => (.val (.inr e, zr', b') : Exec ((Bytes ⊕ Err) × ZRd Z × Buf))
          | .val ((d, _), zr', b') => .val (.inl d, zr', b')
          | .panic => .panic
          | .timeout => .timeout) with
        | .val (.inr e, zr', b') =>
          (.val (([], false, some e), { r with zlib := some zr', orig := some b', cbuf := [], curZ := true }) : Exec ((Bytes × Bool × Option Err) × Reader Z))
        | .val (.inl d, zr', b') =>
          .val (((scanBuf r.delim d).1, (scanBuf r.delim d).2.1, none), { r with zlib := some zr', orig := some b', cbuf := (scanBuf r.delim d).2.2, curZ := true })
        | .panic => .panic
        | .timeout => .timeout) = .val (y, r1) ∧ After I e w r1 ∧ y.2.2 ≠ some .eof := by
      intro w d x zr1 b1' ht hx
      cases d with
      | nil =>
        cases x with
        | some x => exact ⟨_, _, rfl, ⟨rfl, ⟨zr1, rfl, ht⟩, rfl⟩, hx⟩
        | none => exact ⟨_, _, rfl, ⟨rfl, ⟨zr1, rfl, ht⟩, rfl⟩, by simp⟩
      | cons c cs => exact ⟨_, _, rfl, ⟨rfl, ⟨zr1, rfl, ht⟩, rfl⟩, by simp⟩
    rcases zRead_cut I f readBuf hc hne with ⟨⟨d, x⟩, zr1, b1, b1', s, h1, h2, h3, h4⟩ | ⟨h1, h2⟩ | ⟨h1, h2⟩ | ⟨h1, h2 | ⟨⟨d, x⟩, zr1, b1', h2, h3, h5⟩⟩ | ⟨h1, h2⟩
    · rw [h1, h2]
      have fr : ∀ z, some zr1 = some z → z.zerr ≠ some e := by intro z hz; cases hz; exact h4
      cases d with
      | nil =>
        cases x with
        | some x => exact .lock _ _ _ rfl rfl ⟨rfl, rfl, fr, b1, b1', s, rfl, rfl, h3⟩
        | none => exact .lock _ _ _ rfl rfl ⟨rfl, rfl, fr, b1, b1', s, rfl, rfl, h3⟩
      | cons c cs => exact .lock _ _ _ rfl rfl ⟨rfl, rfl, fr, b1, b1', s, rfl, rfl, h3⟩
    · rw [h1, h2]; exact .time rfl rfl
    · rw [h1, h2]; exact .both rfl rfl
    · rw [h1, h2]; exact .hit rfl (.inl rfl)
    · rw [h1, h2]
      exact .hit rfl (.inr (fin true d x zr1 b1' h3 h5))
    · refine .div ?_ ?_
      · intro hne
        obtain ⟨g1, g2⟩ := h1 hne
        rcases hx : zRead I f readBuf zr b with ⟨⟨d, x⟩, zr1, b1⟩ | _ | _
        · have g3 := g2 _ _ _ hx
          have fine : ∀ cb, ({ r with zlib := some zr1, orig := some b1, cbuf := cb, curZ := true } : Reader Z).Fine := fun cb =>
            ⟨⟨fun _ => ⟨rfl, rfl⟩, .inr (by intro b2 hb2; cases hb2; exact g3)⟩, rfl⟩
          cases d with
          | nil =>
            cases x with
            | some x => exact ⟨by simp, by intro y r1 hh; cases hh; exact ⟨⟨fun _ => ⟨rfl, rfl⟩, .inr (by intro b2 hb2; cases hb2; exact g3)⟩, rfl⟩⟩
            | none => exact ⟨by simp, by intro y r1 hh; cases hh; exact fine _⟩
          | cons c cs => exact ⟨by simp, by intro y r1 hh; cases hh; exact fine _⟩
        · exact absurd hx g1
        · simp
      · rcases h2 with h2 | ⟨⟨d, x⟩, zr1, b1', h2, h3, h5⟩
        · rw [h2]; exact .inl rfl
        · rw [h2]; exact .inr (fin false d x zr1 b1' h3 h5)

theorem scan_after {e : Err} {w : Bool} (he : e ≠ .eof) {f : Nat} {r : Reader Z} {b : Buf} (h : After I e w r) :
    r.scan I f b = .timeout ∨ ∃ x r1, r.scan I f b = .val (x, r1) ∧ After I e w r1 ∧ x.2.2 ≠ some .eof := by
  obtain ⟨hz, ⟨zr, hzr, ht⟩, ho⟩ := h
  simp only [Reader.scan, hz, if_true]
  cases hcb : r.cbuf with
  | cons c cs =>
    simp only
    rcases scanBuf r.delim (c :: cs) with ⟨p, m, rest⟩
    exact .inr ⟨_, _, rfl, ⟨rfl, ⟨zr, hzr, ht⟩, ho⟩, by simp⟩
  | nil =>
    simp only [hzr, zPeek]
    rcases zRead_took I f readBuf (b := b) ht he with h1 | ⟨⟨d, x⟩, zr1, b1, h1, h2, h3⟩
    · rw [h1]; exact .inl rfl
    · rw [h1]
      right
      cases d with
      | nil =>
        cases x with
        | some x => exact ⟨_, _, rfl, ⟨rfl, ⟨zr1, rfl, h2⟩, rfl⟩, h3⟩
        | none => exact ⟨_, _, rfl, ⟨rfl, ⟨zr1, rfl, h2⟩, rfl⟩, by simp⟩
      | cons c cs => exact ⟨_, _, rfl, ⟨rfl, ⟨zr1, rfl, h2⟩, rfl⟩, by simp⟩

/-- Out of the compressed part the decompressor is left alone. -/
theorem scan_plain {f : Nat} {r : Reader Z} {b : Buf} (hz : r.curZ = false) {x} {r1 : Reader Z} (h : r.scan I f b = .val (x, r1)) :
    r1.curZ = false ∧ r1.zlib = r.zlib ∧ r1.orig.isSome = true := by
  simp only [Reader.scan, hz, Bool.false_eq_true, if_false] at h
  rcases b.scan r.delim with ⟨res, b'⟩
  cases h
  exact ⟨rfl, rfl, rfl⟩

theorem sound_plain {r : Reader Z} (hz : r.curZ = false) : r.Sound := ⟨fun h => (by rw [hz] at h; cases h), .inl hz⟩

theorem readLoop_plain : ∀ (f : Nat) {line : Bytes} {r : Reader Z}, r.curZ = false → ∀ x r1, r.readLoop I f line = .val (x, r1) →
    r1.curZ = false ∧ r1.zlib = r.zlib := by
  intro f
  induction f with
  | zero => intro line r _ x r1 h; cases h
  | succ f ih =>
    intro line r hz x r1 h
    rw [Reader.readLoop] at h
    split at h
    · cases h
    · rename_i b hb
      split at h
      · cases h; exact ⟨hz, rfl⟩
      · split at h
        · cases h
        · cases h
        · rename_i pref more err r2 h2
          obtain ⟨g1, g2, _⟩ := scan_plain I hz h2
          split at h
          · have := ih (r := { r2 with curZ := false, zlibOn := false }) rfl _ _ h
            exact ⟨this.1, by rw [this.2]; exact g2⟩
          · dsimp only at h
            split at h
            · cases h; exact ⟨g1, g2⟩
            · split at h
              · have := ih g1 _ _ h; exact ⟨this.1, by rw [this.2]; exact g2⟩
              · split at h
                · cases h; exact ⟨g1, g2⟩
                · have := ih g1 _ _ h; exact ⟨this.1, by rw [this.2]; exact g2⟩
                · cases h; exact ⟨g1, g2⟩

theorem readLoop_after {e : Err} {w : Bool} (he : e ≠ .eof) : ∀ (f : Nat) {line : Bytes} {r : Reader Z}, After I e w r →
    r.readLoop I f line = .timeout ∨ ∃ x r1, r.readLoop I f line = .val (x, r1) ∧ r1.Took I e w := by
  intro f
  induction f with
  | zero => intro line r _; exact .inl rfl
  | succ f ih =>
    intro line r h
    rw [Reader.readLoop]
    split
    · rename_i h0; have := h.ex; rw [h0] at this; cases this
    · rename_i b hb
      split
      · exact .inr ⟨_, _, rfl, h.took⟩
      · rcases scan_after I he (f := f) (b := b) h with h1 | ⟨⟨pref, more, err⟩, r1, h1, h2, h3⟩
        · rw [h1]; exact .inl rfl
        · rw [h1]
          simp only at h3 ⊢
          rw [if_neg (fun hh => h3 hh.1)]
          cases err with
          | some x => exact .inr ⟨_, _, rfl, h2.took⟩
          | none =>
            simp only
            split
            · exact ih h2
            · cases runHooks (line ++ pref) r1.onLine with
              | accept => exact .inr ⟨_, _, rfl, h2.took⟩
              | drop => exact ih h2
              | fail x => exact .inr ⟨_, _, rfl, h2.took⟩

/-- What the two runs of a call come to. -/
def Ends (e : Err) (s1 : Src) {X : Type} (o o' : Exec (X × Reader Z)) : Prop :=
  o = .panic ∧ (o' = .timeout ∨ ∃ x r', o' = .val (x, r') ∧ r'.Took I e true) ∨
    o = .panic ∧ o' = .panic ∨
    (s1.NoEmpty → o ≠ .panic) ∧ o' ≠ .panic ∧ ∀ x r', o' = .val (x, r') → ¬ r'.Took I e true

theorem Took.other {e : Err} {r : Reader Z} (h : r.Took I e false) : ¬ r.Took I e true := by
  rintro ⟨z, hz, _, ht⟩
  obtain ⟨z', hz', _, ht'⟩ := h
  rw [hz] at hz'; cases hz'
  rw [ht] at ht'; cases ht'

/-- A run that goes on with `io.ReadFull`. -/
theorem ends_div {e : Err} {s1 : Src} {X : Type} {o o' : Exec (X × Reader Z)} (h : s1.NoEmpty → o ≠ .panic)
    (h' : o' = .timeout ∨ ∃ x r', o' = .val (x, r') ∧ r'.Took I e false) : Ends I e s1 o o' := by
  refine .inr (.inr ⟨h, ?_, ?_⟩)
  · rcases h' with h' | ⟨x, r', h', _⟩ <;> rw [h'] <;> simp
  · rcases h' with h' | ⟨x, r', h', ht⟩
    · rw [h']; simp
    · rw [h']; intro y r2 hh; cases hh; exact Took.other I ht

theorem ends_val {e : Err} {s1 : Src} {X : Type} {x x' : X} {r r' : Reader Z} (h : r'.Free e) : Ends I e s1 (.val (x, r)) (.val (x', r')) :=
  .inr (.inr ⟨by simp, by simp, by intro y r2 hh; cases hh; exact h.not I⟩)

theorem ends_time {e : Err} {s1 : Src} {X : Type} : Ends I e s1 (.timeout : Exec (X × Reader Z)) .timeout :=
  .inr (.inr ⟨by simp, by simp, by simp⟩)

/-- `ReadLine` does not panic after the first scan if that leaves a reader that is fine. -/
theorem readLoop_fine {f : Nat} {line : Bytes} {r : Reader Z} {b : Buf} (hb : r.orig = some b)
    (h : r.scan I f b ≠ .panic ∧ ∀ x r1, r.scan I f b = .val (x, r1) → r1.Fine) : r.readLoop I (f + 1) line ≠ .panic := by
  rw [Reader.readLoop, hb]
  simp only
  split
  · simp
  · rcases hx : r.scan I f b with ⟨⟨pref, more, err⟩, r1⟩ | _ | _
    · have g := h.2 _ _ hx
      simp only
      have go : ∀ l, r1.readLoop I f l ≠ .panic := fun l => (readLoop_safe I f g.2 g.1).1
      split
      · exact (readLoop_safe I f (r := { r1 with curZ := false, zlibOn := false }) g.2 (sound_plain rfl)).1
      · cases err with
        | some x => simp
        | none =>
          simp only
          split
          · exact go _
          · cases runHooks (line ++ pref) r1.onLine with
            | accept => simp
            | drop => exact go _
            | fail x => simp
    · exact absurd hx h.1
    · simp

/-- `ReadLine` after the error was taken in the first scan. -/
theorem readLoop_taken {e : Err} {w : Bool} (he : e ≠ .eof) {f : Nat} {line : Bytes} {r : Reader Z} {b : Buf} (hb : r.orig = some b)
    (hm : ¬ (r.maxLine > 0 ∧ (line.length : Int) ≥ r.maxLine))
    (h : r.scan I f b = .timeout ∨ ∃ x r1, r.scan I f b = .val (x, r1) ∧ After I e w r1 ∧ x.2.2 ≠ some .eof) :
    r.readLoop I (f + 1) line = .timeout ∨ ∃ x r1, r.readLoop I (f + 1) line = .val (x, r1) ∧ r1.Took I e w := by
  rw [Reader.readLoop, hb]
  simp only
  rw [if_neg hm]
  rcases h with h | ⟨⟨pref, more, err⟩, r1, h1, h3, h4⟩
  · rw [h]; exact .inl rfl
  · rw [h1]
    simp only at h4 ⊢
    rw [if_neg (fun hh => h4 hh.1)]
    cases err with
    | some x => exact .inr ⟨_, _, rfl, h3.took⟩
    | none =>
      simp only
      split
      · exact readLoop_after I he f h3
      · cases runHooks (line ++ pref) r1.onLine with
        | accept => exact .inr ⟨_, _, rfl, h3.took⟩
        | drop => exact readLoop_after I he f h3
        | fail x => exact .inr ⟨_, _, rfl, h3.took⟩

theorem readLoop_cut {e : Err} {s1 : Src} : ∀ (f : Nat) {line : Bytes} {r r' : Reader Z}, CutR e s1 r r' →
    Ends I e s1 (r.readLoop I f line) (r'.readLoop I f line) := by
  intro f
  induction f with
  | zero => intro line r r' _; exact ends_time I
  | succ f ih =>
    intro line r r' h
    have hh := h
    obtain ⟨hz, hzl, hn, b, b', s, hb, hr', hc⟩ := h
    have hb' : r'.orig = some b' := by rw [hr']
    have hml : r'.maxLine = r.maxLine := by rw [hr']
    have hn' : r'.Free e := by rw [hr']; exact hn
    by_cases hm : r.maxLine > 0 ∧ (line.length : Int) ≥ r.maxLine
    · rw [Reader.readLoop, Reader.readLoop, hb, hb']
      simp only [hml, if_pos hm]
      exact ends_val I hn'
    · obtain ⟨hs, hcz⟩ := scan_cut I (f := f) hh hb hb'
      cases hs with
      | time h1 h2 =>
        rw [Reader.readLoop, Reader.readLoop, hb, hb']
        simp only [hml, if_neg hm, h1, h2]
        exact ends_time I
      | both h1 h2 =>
        rw [Reader.readLoop, Reader.readLoop, hb, hb']
        simp only [hml, if_neg hm, h1, h2]
        exact .inr (.inl ⟨rfl, rfl⟩)
      | plain x x' r1 r1' h1 h2 hz1 _ _ _ _ => have := hcz _ _ h1; rw [hz1] at this; cases this
      | hit h1 h2 =>
        refine .inl ⟨?_, readLoop_taken I hc.eof hb' (by rw [hml]; exact hm) h2⟩
        rw [Reader.readLoop, hb]
        simp only [if_neg hm, h1]
      | div h1 h2 => exact ends_div I (fun hne => readLoop_fine I hb (h1 hne)) (readLoop_taken I hc.eof hb' (by rw [hml]; exact hm) h2)
      | lock x r1 r1' h1 h2 hc1 =>
        obtain ⟨pref, more, err⟩ := x
        rw [Reader.readLoop, Reader.readLoop, hb, hb']
        simp only [hml, if_neg hm, h1, h2]
        obtain ⟨b1, b1', s', g1, g2, g3⟩ := hc1.ex
        have e1 : r1'.zlibOn = r1.zlibOn := by rw [g2]
        have e2 : r1'.onLine = r1.onLine := by rw [g2]
        have n1 : r1'.Free e := by rw [g2]; exact hc1.not
        rw [e1]
        split
        · have p1 := readLoop_safe I f (line := line) (r := { r1 with curZ := false, zlibOn := false }) (by simp [g1]) (sound_plain rfl)
          have p2 := readLoop_safe I f (line := line) (r := { r1' with curZ := false, zlibOn := false }) (by simp [g2]) (sound_plain rfl)
          refine .inr (.inr ⟨fun _ => p1.1, p2.1, ?_⟩)
          intro x r2 h3
          have := (readLoop_plain I f (r := { r1' with curZ := false, zlibOn := false }) rfl _ _ h3).2
          have n2 : r2.Free e := by intro z hz; rw [this] at hz; exact n1 z hz
          exact n2.not I
        · cases err with
          | some x => exact ends_val I n1
          | none =>
            simp only
            rw [e2]
            split
            · exact ih hc1
            · cases runHooks (line ++ pref) r1.onLine with
              | accept => exact ends_val I n1
              | drop => exact ih hc1
              | fail x => exact ends_val I n1

theorem curRead_cut {e : Err} {s1 : Src} {f n : Nat} {r r' : Reader Z} {b b' : Buf} (h : CutR e s1 r r') (hb : r.orig = some b) (hb' : r'.orig = some b') :
    Two I e s1 (fun x => x.2 ≠ some .eof) (r.curRead I f n b) (r'.curRead I f n b') ∧
      ∀ x r1, r.curRead I f n b = .val (x, r1) → r1.curZ = true := by
  obtain ⟨hz, hzl, hn, b0, b0', s, h1, rfl, hc⟩ := h
  rw [hb] at h1; cases h1
  cases hb'
  have hcz : ∀ x r1, r.curRead I f n b = .val (x, r1) → r1.curZ = true := by
    intro x r1 h1
    unfold Reader.curRead at h1
    repeat' split at h1
    all_goals first
      | (cases h1; done)
      | (cases h1; exact hz)
      | (exact absurd hz ‹_›)
  refine ⟨?_, hcz⟩
  simp only [Reader.curRead, hz, if_true]
  cases hcb : r.cbuf with
  | cons c cs => exact .lock _ _ _ rfl rfl ⟨rfl, hzl, hn, b, b', s, hb, rfl, hc⟩
  | nil =>
    obtain ⟨zr, hzr⟩ := Option.isSome_iff_exists.mp hzl
    have hne : zr.zerr ≠ some e := hn zr hzr
    simp only [hzr]
    rcases zRead_cut I f n hc hne with ⟨x, zr1, b1, b1', s, h1, h2, h3, h4⟩ | ⟨h1, h2⟩ | ⟨h1, h2⟩ | ⟨h1, h2 | ⟨x, zr1, b1', h2, h3, h5⟩⟩ | ⟨h1, h2⟩
    · rw [h1, h2]
      exact .lock _ _ _ rfl rfl ⟨rfl, rfl, by intro z hz; cases hz; exact h4, b1, b1', s, rfl, rfl, h3⟩
    · rw [h1, h2]; exact .time rfl rfl
    · rw [h1, h2]; exact .both rfl rfl
    · rw [h1, h2]; exact .hit rfl (.inl rfl)
    · rw [h1, h2]; exact .hit rfl (.inr ⟨_, _, rfl, ⟨rfl, ⟨zr1, rfl, h3⟩, rfl⟩, h5⟩)
    · refine .div ?_ ?_
      · intro hne
        obtain ⟨g1, g2⟩ := h1 hne
        rcases hx : zRead I f n zr b with ⟨x, zr1, b1⟩ | _ | _
        · refine ⟨by simp, ?_⟩
          intro y r1 hh
          cases hh
          exact ⟨⟨fun _ => ⟨rfl, rfl⟩, .inr (by intro b2 hb2; cases hb2; exact g2 _ _ _ hx)⟩, rfl⟩
        · exact absurd hx g1
        · simp
      · rcases h2 with h2 | ⟨x, zr1, b1', h2, h3, h5⟩
        · rw [h2]; exact .inl rfl
        · rw [h2]; exact .inr ⟨_, _, rfl, ⟨rfl, ⟨zr1, rfl, h3⟩, rfl⟩, h5⟩

theorem curRead_after {e : Err} {w : Bool} (he : e ≠ .eof) {f n : Nat} {r : Reader Z} {b : Buf} (h : After I e w r) :
    r.curRead I f n b = .timeout ∨ ∃ x r1, r.curRead I f n b = .val (x, r1) ∧ After I e w r1 ∧ x.2 ≠ some .eof := by
  obtain ⟨hz, ⟨zr, hzr, ht⟩, ho⟩ := h
  simp only [Reader.curRead, hz, if_true]
  cases hcb : r.cbuf with
  | cons c cs => exact .inr ⟨_, _, rfl, ⟨rfl, ⟨zr, hzr, ht⟩, ho⟩, by simp⟩
  | nil =>
    simp only [hzr]
    rcases zRead_took I f n (b := b) ht he with h1 | ⟨x, zr1, b1, h1, h2, h3⟩
    · rw [h1]; exact .inl rfl
    · rw [h1]; exact .inr ⟨_, _, rfl, ⟨rfl, ⟨zr1, rfl, h2⟩, rfl⟩, h3⟩

/-- `Read` after the error was taken in the first step. -/
theorem read_taken {e : Err} {w : Bool} {f n : Nat} {r : Reader Z} {b : Buf} (hb : r.orig = some b)
    (h : r.curRead I f n b = .timeout ∨ ∃ x r1, r.curRead I f n b = .val (x, r1) ∧ After I e w r1 ∧ x.2 ≠ some .eof) :
    r.read I f n = .timeout ∨ ∃ x r1, r.read I f n = .val (x, r1) ∧ After I e w r1 := by
  rw [Reader.read, hb]
  simp only
  rcases h with h1 | ⟨⟨d, x⟩, r1, h1, h2, h3⟩
  · rw [h1]; exact .inl rfl
  · rw [h1]
    simp only at h3 ⊢
    rw [if_neg (fun hh => h3 hh.1)]
    exact .inr ⟨_, _, rfl, h2⟩

theorem read_after {e : Err} {w : Bool} (he : e ≠ .eof) {f n : Nat} {r : Reader Z} (h : After I e w r) :
    r.read I f n = .timeout ∨ ∃ x r1, r.read I f n = .val (x, r1) ∧ After I e w r1 := by
  obtain ⟨b, hb⟩ := Option.isSome_iff_exists.mp h.ex
  exact read_taken I hb (curRead_after I he (f := f) (n := n) (b := b) h)

/-- `Read` does not panic if its first step leaves a reader that is fine. -/
theorem read_fine {f n : Nat} {r : Reader Z} {b : Buf} (hb : r.orig = some b)
    (h : r.curRead I f n b ≠ .panic ∧ ∀ x r1, r.curRead I f n b = .val (x, r1) → r1.Fine) :
    r.read I f n ≠ .panic ∧ ∀ x r1, r.read I f n = .val (x, r1) → r1.Fine := by
  rw [Reader.read, hb]
  simp only
  rcases hx : r.curRead I f n b with ⟨⟨d, x⟩, r1⟩ | _ | _
  · have g := h.2 _ _ hx
    simp only
    split
    · split
      · exact ⟨by simp, by intro y r2 hh; cases hh; exact ⟨sound_plain rfl, g.2⟩⟩
      · obtain ⟨b1, hb1⟩ := Option.isSome_iff_exists.mp g.2
        simp only [hb1]
        exact ⟨by simp, by intro y r2 hh; cases hh; exact ⟨sound_plain rfl, rfl⟩⟩
    · exact ⟨by simp, by intro y r2 hh; cases hh; exact g⟩
  · exact absurd hx h.1
  · simp

theorem read_cut {e : Err} {s1 : Src} {f n : Nat} {r r' : Reader Z} (h : CutR e s1 r r') :
    Two I e s1 (fun _ => True) (r.read I f n) (r'.read I f n) := by
  have hh := h
  obtain ⟨hz, hzl, hn, b, b', s, hb, hr', hc⟩ := h
  have hb' : r'.orig = some b' := by rw [hr']
  obtain ⟨hs, hcz⟩ := curRead_cut I (f := f) (n := n) hh hb hb'
  have add : ∀ {w : Bool}, (r'.read I f n = .timeout ∨ ∃ x r1, r'.read I f n = .val (x, r1) ∧ After I e w r1) →
      (r'.read I f n = .timeout ∨ ∃ x r1, r'.read I f n = .val (x, r1) ∧ After I e w r1 ∧ True) := by
    rintro w (h | ⟨x, r1, h, h1⟩)
    · exact .inl h
    · exact .inr ⟨x, r1, h, h1, trivial⟩
  cases hs with
  | time h1 h2 => rw [Reader.read, Reader.read, hb, hb']; simp only [h1, h2]; exact .time rfl rfl
  | both h1 h2 => rw [Reader.read, Reader.read, hb, hb']; simp only [h1, h2]; exact .both rfl rfl
  | plain x x' r1 r1' h1 h2 hz1 _ _ _ _ => have := hcz _ _ h1; rw [hz1] at this; cases this
  | hit h1 h2 =>
    refine .hit ?_ (add (read_taken I hb' h2))
    rw [Reader.read, hb]; simp only [h1]
  | div h1 h2 => exact .div (fun hne => read_fine I hb (h1 hne)) (add (read_taken I hb' h2))
  | lock x r1 r1' h1 h2 hc1 =>
    obtain ⟨d, x⟩ := x
    rw [Reader.read, Reader.read, hb, hb']
    simp only [h1, h2]
    have hc2 := hc1
    obtain ⟨b1, b1', s', g1, g2, g3⟩ := hc1.ex
    have e1 : r1'.zlibOn = r1.zlibOn := by rw [g2]
    have n1 : r1'.Free e := by rw [g2]; exact hc1.not
    have o1 : r1'.orig = some b1' := by rw [g2]
    rw [e1]
    split
    · split
      · exact .plain _ _ _ _ rfl rfl rfl rfl (by simp [g1]) (by simp [o1]) n1
      · simp only [g1, o1]
        exact .plain _ _ _ _ rfl rfl rfl rfl rfl rfl n1
    · exact .lock _ _ _ rfl rfl hc2

/-- The results of `binRead`, put as those of `read`. -/
def flip {X L : Type} (o : Exec (X × L × Reader Z)) : Exec ((X × L) × Reader Z) :=
  match o with
  | .val (x, l, r) => .val ((x, l), r)
  | .panic => .panic
  | .timeout => .timeout

theorem flip_panic {X L : Type} {o : Exec (X × L × Reader Z)} : flip o = .panic ↔ o = .panic := by
  unfold flip; split <;> simp

theorem flip_timeout {X L : Type} {o : Exec (X × L × Reader Z)} : flip o = .timeout ↔ o = .timeout := by
  unfold flip; split <;> simp

theorem flip_val {X L : Type} {o : Exec (X × L × Reader Z)} {x : X} {l : L} {r : Reader Z} : flip o = .val ((x, l), r) ↔ o = .val (x, l, r) := by
  unfold flip
  split
  · simp [and_assoc]
  · simp
  · simp

theorem binRead_cut {e : Err} {s1 : Src} {f n left : Nat} {r r' : Reader Z} (h : CutR e s1 r r') :
    Two I e s1 (fun _ => True) (flip (r.binRead I f n left)) (flip (r'.binRead I f n left)) := by
  unfold Reader.binRead
  split
  · exact .lock _ _ _ rfl rfl h
  · cases read_cut I (f := f) (n := min n left) h with
    | time h1 h2 => rw [h1, h2]; exact .time rfl rfl
    | both h1 h2 => rw [h1, h2]; exact .both rfl rfl
    | plain x x' r1 r1' h1 h2 hz hz' ho ho' hn => rw [h1, h2]; exact .plain _ _ _ _ rfl rfl hz hz' ho ho' hn
    | hit h1 h2 =>
      rw [h1]
      rcases h2 with h2 | ⟨⟨d, x⟩, r1', h2, h3, _⟩
      · rw [h2]; exact .hit rfl (.inl rfl)
      · rw [h2]; exact .hit rfl (.inr ⟨_, _, rfl, h3, trivial⟩)
    | div h1 h2 =>
      refine .div ?_ ?_
      · intro hne
        obtain ⟨g1, g2⟩ := h1 hne
        rcases hx : r.read I f (min n left) with ⟨⟨d, x⟩, r1⟩ | _ | _
        · exact ⟨by simp [flip], by intro y r2 hh; cases hh; exact g2 _ _ hx⟩
        · exact absurd hx g1
        · simp [flip]
      · rcases h2 with h2 | ⟨⟨d, x⟩, r1', h2, h3, _⟩
        · rw [h2]; exact .inl rfl
        · rw [h2]; exact .inr ⟨_, _, rfl, h3, trivial⟩
    | lock x r1 r1' h1 h2 hc => rw [h1, h2]; exact .lock _ _ _ rfl rfl hc

theorem curRead_plain {f n : Nat} {r : Reader Z} {b : Buf} (hz : r.curZ = false) {x} {r1 : Reader Z} (h : r.curRead I f n b = .val (x, r1)) :
    r1.curZ = false ∧ r1.zlib = r.zlib := by
  simp only [Reader.curRead, hz, Bool.false_eq_true, if_false] at h
  rcases b.read n with ⟨res, b'⟩
  cases h
  exact ⟨rfl, rfl⟩

theorem read_plain {f n : Nat} {r : Reader Z} (hz : r.curZ = false) {x} {r1 : Reader Z} (h : r.read I f n = .val (x, r1)) :
    r1.curZ = false ∧ r1.zlib = r.zlib := by
  rw [Reader.read] at h
  split at h
  · cases h; exact ⟨hz, rfl⟩
  · split at h
    · cases h
    · cases h
    · rename_i d err r2 h2
      have g := curRead_plain I hz h2
      split at h
      · dsimp only at h
        split at h
        · cases h; exact ⟨rfl, g.2⟩
        · split at h
          · cases h
          · rename_i b2 _
            rcases b2.read n with ⟨res, b3⟩
            cases h; exact ⟨rfl, g.2⟩
      · cases h; exact g

theorem binRead_plain {f n left : Nat} {r : Reader Z} (hz : r.curZ = false) {x l} {r1 : Reader Z} (h : r.binRead I f n left = .val (x, l, r1)) :
    r1.curZ = false ∧ r1.zlib = r.zlib := by
  unfold Reader.binRead at h
  split at h
  · cases h; exact ⟨hz, rfl⟩
  · split at h
    · rename_i h1; cases h; exact read_plain I hz h1
    · cases h
    · cases h

theorem binClose_plain : ∀ (f left : Nat) {r : Reader Z}, r.curZ = false → ∀ x r1, r.binClose I f left = .val (x, r1) → r1.zlib = r.zlib := by
  intro f
  induction f with
  | zero => intro left r _ x r1 h; cases h
  | succ f ih =>
    intro left r hz x r1 h
    rw [Reader.binClose] at h
    split at h
    · rename_i h1; cases h; exact (binRead_plain I hz h1).2
    · rename_i h1
      have := binRead_plain I hz h1
      rw [ih _ this.1 _ _ h, this.2]
    · cases h
    · cases h

theorem binClose_after {e : Err} {w : Bool} (he : e ≠ .eof) : ∀ (f left : Nat) {r : Reader Z}, After I e w r →
    r.binClose I f left = .timeout ∨ ∃ x r1, r.binClose I f left = .val (x, r1) ∧ r1.Took I e w := by
  intro f
  induction f with
  | zero => intro left r _; exact .inl rfl
  | succ f ih =>
    intro left r h
    rw [Reader.binClose, Reader.binRead]
    split
    · rename_i hx
      split at hx
      · cases hx; exact .inr ⟨_, _, rfl, h.took⟩
      · rcases read_after I he (f := f) (n := min 8192 left) h with h1 | ⟨⟨d, x⟩, r1, h1, h2⟩
        · rw [h1] at hx; cases hx
        · rw [h1] at hx; cases hx; exact .inr ⟨_, _, rfl, h2.took⟩
    · rename_i hx
      split at hx
      · cases hx
      · rcases read_after I he (f := f) (n := min 8192 left) h with h1 | ⟨⟨d, x⟩, r1, h1, h2⟩
        · rw [h1] at hx; cases hx
        · rw [h1] at hx; cases hx; exact ih _ h2
    · rename_i hx
      split at hx
      · cases hx
      · rcases read_after I he (f := f) (n := min 8192 left) h with h1 | ⟨⟨d, x⟩, r1, h1, h2⟩
        · rw [h1] at hx; cases hx
        · rw [h1] at hx; cases hx
    · exact .inl rfl

/-- `Close` of a binary section after its first read. -/
theorem binClose_cut {e : Err} {s1 : Src} : ∀ (f left : Nat) {r r' : Reader Z}, CutR e s1 r r' →
    Ends I e s1 (r.binClose I f left) (r'.binClose I f left) := by
  intro f
  induction f with
  | zero => intro left r r' _; exact ends_time I
  | succ f ih =>
    intro left r r' h
    obtain ⟨b, b', s, _, _, hc⟩ := h.ex
    rw [Reader.binClose, Reader.binClose]
    have taken : ∀ {w : Bool} {P : (Bytes × Option Err) × Nat → Prop},
        (flip (r'.binRead I f 8192 left) = .timeout ∨ ∃ x r1, flip (r'.binRead I f 8192 left) = .val (x, r1) ∧ After I e w r1 ∧ P x) →
        (match r'.binRead I f 8192 left with
          | .val ((_, some e), _, r') => (.val (if e = Err.eof then none else some e, r') : Exec (Option Err × Reader Z))
          | .val ((_, none), left', r') => Reader.binClose I f left' r'
          | .panic => .panic
          | .timeout => .timeout) = .timeout ∨
        ∃ x r1, (match r'.binRead I f 8192 left with
          | .val ((_, some e), _, r') => (.val (if e = Err.eof then none else some e, r') : Exec (Option Err × Reader Z))
          | .val ((_, none), left', r') => Reader.binClose I f left' r'
          | .panic => .panic
          | .timeout => .timeout) = .val (x, r1) ∧ r1.Took I e w := by
      rintro w P (h1 | ⟨⟨⟨d, x⟩, l⟩, r1, h1, h2, _⟩)
      · rw [flip_timeout.mp h1]; exact .inl rfl
      · rw [flip_val.mp h1]
        cases x with
        | some x => exact .inr ⟨_, _, rfl, h2.took⟩
        | none => exact binClose_after I hc.eof f l h2
    cases binRead_cut I (f := f) (n := 8192) (left := left) h with
    | time h1 h2 => rw [flip_timeout.mp h1, flip_timeout.mp h2]; exact ends_time I
    | both h1 h2 => rw [flip_panic.mp h1, flip_panic.mp h2]; exact .inr (.inl ⟨rfl, rfl⟩)
    | hit h1 h2 =>
      refine .inl ⟨?_, taken h2⟩
      rw [flip_panic.mp h1]
    | div h1 h2 =>
      refine ends_div I ?_ (taken h2)
      intro hne
      obtain ⟨g1, g2⟩ := h1 hne
      rcases hx : r.binRead I f 8192 left with ⟨⟨d, x⟩, l, r1⟩ | _ | _
      · have g := g2 _ _ (flip_val.mpr hx)
        cases x with
        | some x => simp
        | none => exact (binClose_safe I f l g.1).1
      · exact absurd (flip_panic.mpr hx) g1
      · simp
    | lock x r1 r1' h1 h2 h3 =>
      obtain ⟨⟨d, x⟩, l⟩ := x
      rw [flip_val.mp h1, flip_val.mp h2]
      obtain ⟨_, _, _, _, g2, _⟩ := h3.ex
      have n1 : r1'.Free e := by rw [g2]; exact h3.not
      cases x with
      | some x => exact ends_val I n1
      | none => exact ih l h3
    | plain x x' r1 r1' h1 h2 h3 h4 _ _ h5 =>
      obtain ⟨⟨d, x⟩, l⟩ := x
      obtain ⟨⟨d', x'⟩, l'⟩ := x'
      rw [flip_val.mp h1, flip_val.mp h2]
      have a1 := (binClose_safe I f l (sound_plain h3)).1
      have a2 := (binClose_safe I f l' (sound_plain h4)).1
      have a3 : ∀ y r2, r1'.binClose I f l' = .val (y, r2) → ¬ r2.Took I e true := by
        intro y r2 h6
        have n2 : r2.Free e := by intro z hz; rw [binClose_plain I f l' h4 _ _ h6] at hz; exact h5 z hz
        exact n2.not I
      cases x with
      | some x =>
        cases x' with
        | some x' => exact ends_val I h5
        | none => exact .inr (.inr ⟨by simp, a2, a3⟩)
      | none =>
        cases x' with
        | some x' => exact .inr (.inr ⟨fun _ => a1, by simp, by intro y r2 h; cases h; exact h5.not I⟩)
        | none => exact .inr (.inr ⟨fun _ => a1, a2, a3⟩)

end Verif.Lineproto
