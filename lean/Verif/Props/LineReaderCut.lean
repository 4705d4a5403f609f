import Verif.Props.LineReader

/-!
# C61: a compressed section that is cut short or corrupt is never taken for a finished one

`Unfinished I z bs`: the decompressor in state `z` does not reach the end of its stream within the bytes `bs`.
-/

namespace Verif.Props.LineReaderCut

open Verif Verif.Lineproto

variable {Z : Type} (I : Inflater Z)

/-- The bytes that are still to come from the connection. -/
def left (b : Buf) : Bytes := b.buf ++ (b.src.map (·.data)).flatten

/-- The compressed stream does not end within `bs`. -/
def Unfinished (z : Z) (bs : Bytes) : Prop := ∀ p, p <+: bs → I.status (p.foldl (fun z c => (I.step z c).1) z) ≠ .done

/-- The decompressor does not call its own failures `io.EOF`. -/
def Honest : Prop := ∀ z, I.status z ≠ .failed .eof

/-- In a compressed section that does not end within the bytes to come. -/
structure Inside (r : Reader Z) : Prop where
  on : r.zlibOn = true
  cur : r.curZ = true
  open' : ∃ b zr, r.orig = some b ∧ r.zlib = some zr ∧ Unfinished I zr.z (left b) ∧ zr.zerr ≠ some .eof

theorem unfinished_step {z : Z} {c : Byte} {bs : Bytes} (h : Unfinished I z (c :: bs)) : Unfinished I (I.step z c).1 bs := by
  intro p hp
  exact h (c :: p) (by simpa using hp)

theorem noEOF_ne (e : Err) : noEOF e ≠ .eof := by
  unfold noEOF
  split <;> simp_all

theorem src_read_bytes {n : Nat} {s s' : Src} {d : Bytes} {e : Option Err} (h : s.read n = ((d, e), s')) :
    (s.map (·.data)).flatten = d ++ (s'.map (·.data)).flatten := by
  cases s with
  | nil => simp only [Src.read, Prod.mk.injEq] at h; obtain ⟨⟨rfl, _⟩, rfl⟩ := h; rfl
  | cons ev s =>
    simp only [Src.read] at h
    split at h
    · simp only [Prod.mk.injEq] at h
      obtain ⟨⟨rfl, _⟩, rfl⟩ := h
      rfl
    · simp only [Prod.mk.injEq] at h
      obtain ⟨⟨rfl, _⟩, rfl⟩ := h
      simp [← List.append_assoc]

theorem peek_left {b b' : Buf} (hb : b.buf = []) (h : b.peek = (none, b')) : left b = left b' := by
  unfold Buf.peek at h
  cases hr : b.src.read readBuf with
  | mk de s =>
    obtain ⟨d, e⟩ := de
    have := src_read_bytes hr
    rw [hr] at h
    unfold left
    rw [hb, this]
    split at h
    · simp at h
    · rename_i d' e' s' heq
      simp only [Prod.mk.injEq, true_and] at h heq
      obtain ⟨⟨rfl, _⟩, rfl⟩ := heq
      rw [← h]
      rfl

theorem peek_left_err {b b' : Buf} {e : Err} (hb : b.buf = []) (h : b.peek = (some e, b')) : left b = left b' := by
  unfold Buf.peek at h
  cases hr : b.src.read readBuf with
  | mk de s =>
    obtain ⟨d, e⟩ := de
    have := src_read_bytes hr
    rw [hr] at h
    unfold left
    rw [hb, this]
    split at h
    · rename_i e' s' heq
      simp only [Prod.mk.injEq] at h heq
      obtain ⟨⟨rfl, _⟩, rfl⟩ := heq
      rw [← h.2]
      simp [hb]
    · simp at h

theorem readByte_left {b b' : Buf} {c : Byte} (h : b.readByte = .val (.inl c, b')) : left b = c :: left b' := by
  unfold Buf.readByte at h
  split at h
  · rename_i c0 rest hb
    simp only [Exec.val.injEq, Prod.mk.injEq, Sum.inl.injEq] at h
    obtain ⟨rfl, rfl⟩ := h
    simp [left, hb]
  · rename_i hb
    split at h
    · simp at h
    · rename_i b1 hp
      rw [peek_left hb hp]
      split at h
      · rename_i c0 rest hb1
        simp only [Exec.val.injEq, Prod.mk.injEq, Sum.inl.injEq] at h
        obtain ⟨rfl, rfl⟩ := h
        simp [left, hb1]
      · simp at h

theorem readByte_left_err {b b' : Buf} {e : Err} (h : b.readByte = .val (.inr e, b')) : left b = left b' := by
  unfold Buf.readByte at h
  split at h
  · simp at h
  · rename_i hb
    split at h
    · rename_i e' b1 hp
      simp only [Exec.val.injEq, Prod.mk.injEq, Sum.inr.injEq] at h
      obtain ⟨rfl, rfl⟩ := h
      exact peek_left_err hb hp
    · split at h <;> simp at h

theorem fetch_left (s : Src) : (∀ c e, s.fetch.1 = .inl (c, e) → (s.map (·.data)).flatten = c :: (s.fetch.2.map (·.data)).flatten) ∧
    ∀ e, s.fetch.1 = .inr e → (s.map (·.data)).flatten = (s.fetch.2.map (·.data)).flatten := by
  induction s with
  | nil => simp [Src.fetch]
  | cons ev s ih =>
    obtain ⟨d, e⟩ := ev
    match d, e with
    | [], none => simpa [Src.fetch] using ih
    | [], some e => simp [Src.fetch]
    | [c], e => simp [Src.fetch]
    | c :: d :: ds, e => simp [Src.fetch]

theorem zByte_left {n : Nat} {b b' : Buf} {c : Byte} {e : Option Err} (h : b.zByte n = .val (.inl (c, e), b')) : left b = c :: left b' := by
  unfold Buf.zByte at h
  split at h
  · split at h
    · rename_i hb; cases h; exact readByte_left hb
    · cases h
    · cases h
    · cases h
  · split at h
    · rename_i hb; cases h; simp [left, hb]
    · rename_i hb0
      have := fetch_left b.src
      split at h
      · cases h
      · rename_i hb; rw [hb] at this; cases h; simpa [left, hb0] using this.1 _ _ rfl

theorem zByte_left_err {n : Nat} {b b' : Buf} {e : Err} (h : b.zByte n = .val (.inr e, b')) : left b = left b' := by
  unfold Buf.zByte at h
  split at h
  · split at h
    · cases h
    · rename_i hb; cases h; exact readByte_left_err hb
    · cases h
    · cases h
  · split at h
    · cases h
    · rename_i hb0
      have := fetch_left b.src
      split at h
      · rename_i hb; rw [hb] at this; cases h; simpa [left, hb0] using this.2 _ rfl
      · cases h

theorem zFill_inside {want fuel : Nat} {zr zr' : ZRd Z} {b b' : Buf} (hw : 1 ≤ want) (h : zFill I want fuel zr b = .val (zr', b'))
    (hu : Unfinished I zr.z (left b)) (he : zr.zerr ≠ some .eof) :
    Unfinished I zr'.z (left b') ∧ zr'.zerr ≠ some .eof ∧
      (zr'.pend = [] → zr'.zerr ≠ none ∨ I.status zr'.z ≠ .running) := by
  induction fuel generalizing zr b with
  | zero => simp [zFill] at h
  | succ fuel ih =>
    rw [zFill] at h
    split at h
    · rename_i hp
      cases h
      refine ⟨hu, he, fun h0 => ?_⟩
      rw [h0] at hp
      simp at hp
      omega
    · split at h
      · rename_i hz
        cases h
        refine ⟨hu, he, fun _ => .inl ?_⟩
        intro h0; simp [h0] at hz
      · split at h
        · rename_i hd
          exact absurd hd (hu [] (List.nil_prefix))
        · rename_i e hd
          cases h
          exact ⟨hu, he, fun _ => .inr (by rw [hd]; simp)⟩
        · split at h
          · rename_i c e b1 hb
            rw [zByte_left hb] at hu
            refine ih h (unfinished_step I hu) ?_
            cases e with
            | none => simp
            | some e => simpa using noEOF_ne e
          · rename_i e b1 hb
            rw [zByte_left_err hb] at hu
            exact ih h hu (by simpa using noEOF_ne e)
          · simp at h
          · simp at h

theorem zFinal_ne {zr : ZRd Z} {bs : Bytes} (hh : Honest I) (hu : Unfinished I zr.z bs) (he : zr.zerr ≠ some .eof)
    (hf : zr.zerr ≠ none ∨ I.status zr.z ≠ .running) : zFinal I zr ≠ .eof := by
  unfold zFinal
  cases hz : zr.zerr with
  | some e => simp only; rintro rfl; exact he hz
  | none =>
    simp only
    cases hs : I.status zr.z with
    | failed e => simp only; rintro rfl; exact hh _ hs
    | done => exact absurd hs (hu [] List.nil_prefix)
    | running => rcases hf with hf | hf
                 · exact absurd hz hf
                 · exact absurd hs hf

theorem zRead_inside {fuel n : Nat} {zr zr' : ZRd Z} {b b' : Buf} {d : Bytes} {e : Option Err} (hh : Honest I)
    (h : zRead I fuel n zr b = .val ((d, e), zr', b')) (hu : Unfinished I zr.z (left b)) (he : zr.zerr ≠ some .eof) :
    Unfinished I zr'.z (left b') ∧ zr'.zerr ≠ some .eof ∧ e ≠ some .eof := by
  unfold zRead at h
  split at h
  · rename_i zr1 b1 hf
    obtain ⟨u1, u2, u3⟩ := zFill_inside I (by omega) hf hu he
    split at h
    · rename_i hp
      simp only [Exec.val.injEq, Prod.mk.injEq] at h
      obtain ⟨⟨_, rfl⟩, rfl, rfl⟩ := h
      exact ⟨u1, u2, by simpa using zFinal_ne I hh u1 u2 (u3 hp)⟩
    · simp only [Exec.val.injEq, Prod.mk.injEq] at h
      obtain ⟨⟨_, rfl⟩, rfl, rfl⟩ := h
      refine ⟨u1, u2, ?_⟩
      split
      · rename_i hc
        have hfin : zr1.zerr ≠ none ∨ I.status zr1.z ≠ .running := by
          have := hc.2.1
          rw [Bool.or_eq_true] at this
          rcases this with h | h
          · left; intro h0; simp [h0] at h
          · right; simpa using h
        simpa using zFinal_ne I hh u1 u2 hfin
      · simp
  · simp at h
  · simp at h

theorem scan_inside {fuel : Nat} {r r' : Reader Z} {b : Buf} {p : Bytes} {more : Bool} {e : Option Err} (hh : Honest I)
    (hr : Inside I r) (hb : r.orig = some b) (h : r.scan I fuel b = .val ((p, more, e), r')) :
    Inside I r' ∧ e ≠ some .eof := by
  obtain ⟨h1, h2, b0, zr, h3, h4, h5, h6⟩ := hr
  rw [hb] at h3
  cases h3
  unfold Reader.scan at h
  rw [if_pos h2] at h
  split at h
  · rw [h4] at h
    simp only at h
    unfold zPeek at h
    cases hz : zRead I fuel readBuf zr b with
    | panic => rw [hz] at h; simp at h
    | timeout => rw [hz] at h; simp at h
    | val x =>
      obtain ⟨⟨d, e1⟩, zr1, b1⟩ := x
      obtain ⟨u1, u2, u3⟩ := zRead_inside I hh hz h5 h6
      rw [hz] at h
      have hin : ∀ cb, Inside I { r with zlib := some zr1, orig := some b1, cbuf := cb } :=
        fun cb => ⟨h1, h2, b1, zr1, rfl, rfl, u1, u2⟩
      split at h
      · rename_i e2 zr2 b2 heq
        simp only [Exec.val.injEq, Prod.mk.injEq] at h
        obtain ⟨⟨_, _, rfl⟩, rfl⟩ := h
        split at heq
        · rename_i heq2
          simp only [Exec.val.injEq, Prod.mk.injEq] at heq2 heq
          obtain ⟨⟨rfl, rfl⟩, rfl, rfl⟩ := heq2
          obtain ⟨h7, rfl, rfl⟩ := heq
          cases h7
          exact ⟨⟨h1, h2, b1, zr1, rfl, rfl, u1, u2⟩, u3⟩
        all_goals simp at heq
      · rename_i d2 zr2 b2 heq
        simp only [Exec.val.injEq, Prod.mk.injEq] at h
        obtain ⟨⟨_, _, rfl⟩, rfl⟩ := h
        split at heq
        · simp at heq
        · rename_i heq2
          simp only [Exec.val.injEq, Prod.mk.injEq] at heq2 heq
          obtain ⟨_, rfl, rfl⟩ := heq2
          obtain ⟨_, rfl, rfl⟩ := heq
          exact ⟨hin _, by simp⟩
        · simp at heq
        · simp at heq
      · simp at h
      · simp at h
  · simp only [Exec.val.injEq, Prod.mk.injEq] at h
    obtain ⟨⟨_, _, rfl⟩, rfl⟩ := h
    exact ⟨⟨h1, h2, b, zr, hb, h4, h5, h6⟩, by simp⟩

/-- C61. While the compressed stream does not end within the bytes that come, `ReadLine` stays inside the section: it never
returns `io.EOF` and never goes back to reading the connection as plain text. -/
theorem cut_section_reported {r r' : Reader Z} {fuel : Nat} {line : Bytes} {e : Option Err} (hh : Honest I) (hr : Inside I r)
    (hhooks : ∀ hook ∈ r.onLine, ∀ l, hook l ≠ .fail .eof) (h : r.readLine I fuel = .val ((line, e), r')) :
    Inside I r' ∧ e ≠ some .eof := by
  refine Or.resolve_right (b := ∃ hook ∈ r.onLine, ∃ l, hook l = .fail .eof) ?_ (by
    rintro ⟨k, hk, l, hl⟩; exact hhooks k hk l hl)
  have hooks : ∀ (hs : List (Bytes → Hook)) l e, runHooks l hs = .fail e → ∃ hook ∈ hs, hook l = .fail e := by
    intro hs l e
    induction hs with
    | nil => simp [runHooks]
    | cons a hs ih =>
      intro h
      rw [runHooks] at h
      cases ha : a l with
      | accept => rw [ha] at h; obtain ⟨k, hk, hk'⟩ := ih h; exact ⟨k, by simp [hk], hk'⟩
      | drop => rw [ha] at h; simp at h
      | fail e' => rw [ha] at h; simp at h; exact ⟨a, by simp, by rw [ha, h]⟩
  have scanCfg : ∀ {fuel : Nat} {r r1 : Reader Z} {b : Buf} {x}, r.scan I fuel b = .val (x, r1) → r1.onLine = r.onLine := by
    intro fuel r r1 b x h
    unfold Reader.scan at h
    repeat' split at h
    all_goals first | (simp at h; done) | (simp only [Exec.val.injEq, Prod.mk.injEq] at h; obtain ⟨_, rfl⟩ := h; rfl)
  have key : ∀ (fuel : Nat) (acc : Bytes) (r : Reader Z), Inside I r → ∀ line e r', r.readLoop I fuel acc = .val ((line, e), r') →
      Inside I r' ∧ e ≠ some .eof ∨ ∃ hook ∈ r.onLine, ∃ l, hook l = .fail .eof := by
    intro fuel
    induction fuel with
    | zero => intro acc r _ line e r' h; simp [Reader.readLoop] at h
    | succ fuel ih =>
      intro acc r hr line e r' h
      rw [Reader.readLoop] at h
      split at h
      · simp at h
      · rename_i b hb
        split at h
        · simp only [Exec.val.injEq, Prod.mk.injEq] at h
          obtain ⟨⟨_, rfl⟩, rfl⟩ := h
          exact .inl ⟨hr, by simp⟩
        · split at h
          · simp at h
          · simp at h
          · rename_i p more err r1 hs
            obtain ⟨g1, g2⟩ := scan_inside I hh hr hb hs
            have g3 := scanCfg hs
            rw [if_neg (fun h0 => g2 h0.1)] at h
            cases err with
            | some e1 =>
              simp only [Exec.val.injEq, Prod.mk.injEq] at h
              obtain ⟨⟨_, rfl⟩, rfl⟩ := h
              exact .inl ⟨g1, g2⟩
            | none =>
              simp only at h
              split at h
              · rw [← g3]; exact ih _ _ g1 _ _ _ h
              · split at h
                · simp only [Exec.val.injEq, Prod.mk.injEq] at h
                  obtain ⟨⟨_, rfl⟩, rfl⟩ := h
                  exact .inl ⟨g1, by simp⟩
                · rw [← g3]; exact ih _ _ g1 _ _ _ h
                · rename_i e1 he1
                  simp only [Exec.val.injEq, Prod.mk.injEq] at h
                  obtain ⟨⟨_, rfl⟩, rfl⟩ := h
                  by_cases h0 : e1 = .eof
                  · obtain ⟨k, hk, hk'⟩ := hooks _ _ _ he1
                    exact .inr ⟨k, g3 ▸ hk, _, by rw [hk', h0]⟩
                  · exact .inl ⟨g1, by simpa using h0⟩
  unfold Reader.readLine at h
  split at h
  · rename_i hn
    obtain ⟨_, _, b, _, hb, _⟩ := hr
    rw [hb] at hn
    cases hn
  · exact key _ _ _ hr _ _ _ h

/-- Enabling decompression enters the section. -/
theorem enable_inside {r r' : Reader Z} {fuel : Nat} {sched : List (Nat × Bool)} (h : r.enableZlib I fuel sched = .val (none, r')) :
    ∃ b zr, r'.orig = some b ∧ r'.zlib = some zr ∧ (Unfinished I zr.z (left b) → Inside I r') := by
  unfold Reader.enableZlib at h
  split at h
  · simp at h
  · split at h
    · simp at h
    · split at h
      · simp at h
      · simp at h
      · simp at h
      · rename_i b hd b1 hf
        split at h
        · split at h
          · simp at h
          · rename_i z hz
            simp only [Exec.val.injEq, Prod.mk.injEq, true_and] at h
            subst h
            exact ⟨_, _, rfl, rfl, fun hu => ⟨rfl, rfl, _, _, rfl, rfl, hu, by simp⟩⟩
        · simp at h

/-- The same for `Read` inside a section (used by binary transfers): no `io.EOF`, and the section is not left. -/
theorem cut_section_read {r r' : Reader Z} {fuel n : Nat} {d : Bytes} {e : Option Err} (hh : Honest I) (hr : Inside I r)
    (h : r.read I fuel n = .val ((d, e), r')) : Inside I r' ∧ e ≠ some .eof := by
  obtain ⟨h1, h2, b, zr, h3, h4, h5, h6⟩ := hr
  unfold Reader.read at h
  rw [h3] at h
  simp only at h
  have hcur : ∀ x r1, r.curRead I fuel n b = .val (x, r1) → Inside I r1 ∧ x.2 ≠ some .eof := by
    intro x r1 hc
    unfold Reader.curRead at hc
    rw [if_pos h2] at hc
    split at hc
    · rw [h4] at hc
      simp only at hc
      split at hc
      · rename_i res zr1 b1 hz
        obtain ⟨u1, u2, u3⟩ := zRead_inside I hh hz h5 h6
        simp only [Exec.val.injEq, Prod.mk.injEq] at hc
        obtain ⟨rfl, rfl⟩ := hc
        exact ⟨⟨h1, h2, b1, zr1, rfl, rfl, u1, u2⟩, u3⟩
      · simp at hc
      · simp at hc
    · simp only [Exec.val.injEq, Prod.mk.injEq] at hc
      obtain ⟨rfl, rfl⟩ := hc
      exact ⟨⟨h1, h2, b, zr, h3, h4, h5, h6⟩, by simp⟩
  split at h
  · simp at h
  · simp at h
  · rename_i d1 e1 r1 hc
    obtain ⟨g1, g2⟩ := hcur _ _ hc
    rw [if_neg (fun h0 => g2 h0.1)] at h
    simp only [Exec.val.injEq, Prod.mk.injEq] at h
    obtain ⟨⟨_, rfl⟩, rfl⟩ := h
    exact ⟨g1, g2⟩

/-- A section of the toy format that is cut after `b|c`. -/
def cut : Reader Bool :=
  { (newReader [] 124 : Reader Bool) with
    orig := some ⟨[⟨b!"b|c", none⟩], []⟩, zlibOn := true, curZ := true, zlib := some ⟨true, [], none, []⟩ }

theorem toy_honest : Honest LineReader.toy := by
  intro z; cases z <;> simp [LineReader.toy]

example : Inside LineReader.toy cut := by
  refine ⟨rfl, rfl, _, _, rfl, rfl, ?_, by simp⟩
  have : ∀ (p : Bytes) z, z = true → 0 ∉ p → p.foldl (fun z c => (LineReader.toy.step z c).1) z = true := by
    intro p
    induction p with
    | nil => intro z h _; simpa using h
    | cons c p ih =>
      intro z _ hp
      simp only [List.foldl_cons]
      refine ih _ ?_ (by simp at hp; exact hp.2)
      simp only [List.mem_cons, not_or] at hp
      simp [LineReader.toy, Ne.symm hp.1]
  intro p hp
  have h0 : (0 : Byte) ∉ p := fun h => absurd (hp.subset h) (by decide)
  show LineReader.toy.status (p.foldl (fun z c => (LineReader.toy.step z c).1) true) ≠ .done
  rw [this p true rfl h0]
  simp [LineReader.toy]

/-- The lines before the cut arrive, then the tail with the error. -/
example : ∃ r1 r2 r3, cut.readLine LineReader.toy 50 = .val ((b!"bb|", none), r1) ∧
    r1.readLine LineReader.toy 50 = .val ((b!"|", none), r2) ∧
    r2.readLine LineReader.toy 50 = .val ((b!"cc", some .unexpectedEOF), r3) := ⟨_, _, _, rfl, rfl, rfl⟩

end Verif.Props.LineReaderCut
