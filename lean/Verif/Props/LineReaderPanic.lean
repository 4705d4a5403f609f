import Verif.Lineproto.ReaderCut
import Verif.Props.LineReaderTotal

/-!
# C74, exactly: when a call on the line reader panics

`no_panic_partial` (`LineReaderTotal.lean`) says that no call panics while the transport does not return `(0, nil)`.  Here: which calls do
panic when it does.  One of the results `(0, nil)` of the transport is replaced by an error that occurs nowhere else; the call panics over the
transport as it is exactly when, for one of these changed transports, the decompressor is handed that error by `ReadByte`.  In words: it panics
exactly when the decompressor calls `ReadByte` just when the transport returns `(0, nil)`.  What the decompressor reads by `io.ReadFull` (stored
blocks and the checksum) and what is read outside of the compressed part does no harm.

Model: `Verif/Lineproto/Reader.lean`.
-/

namespace Verif.Props.LineReaderPanic

open Verif Verif.Lineproto Verif.Props.LineReaderTotal

variable {Z : Type} (I : Inflater Z)

/-- The compressed reader is current only when it exists and the reader is not closed. -/
def Whole (r : Reader Z) : Prop := r.curZ = true → r.zlib.isSome = true ∧ r.orig.isSome = true

theorem scan_whole {f : Nat} {r : Reader Z} {b : Buf} (h : Whole r) {x} {r1 : Reader Z} (h1 : r.scan I f b = .val (x, r1)) : Whole r1 := by
  unfold Reader.scan at h1
  repeat' split at h1
  all_goals first
    | (cases h1; done)
    | (cases h1; intro hc; simp_all [Whole])

theorem readLoop_whole : ∀ (f : Nat) {line : Bytes} {r : Reader Z}, Whole r → ∀ x r1, r.readLoop I f line = .val (x, r1) → Whole r1 := by
  intro f
  induction f with
  | zero => intro line r _ x r1 h; cases h
  | succ f ih =>
    intro line r hw x r1 h
    rw [Reader.readLoop] at h
    split at h
    · cases h
    · split at h
      · cases h; exact hw
      · split at h
        · cases h
        · cases h
        · rename_i h2
          have g := scan_whole I hw h2
          split at h
          · exact ih (by simp [Whole]) _ _ h
          · dsimp only at h
            split at h
            · cases h; exact g
            · split at h
              · exact ih g _ _ h
              · split at h
                · cases h; exact g
                · exact ih g _ _ h
                · cases h; exact g

theorem curRead_whole {f n : Nat} {r : Reader Z} {b : Buf} (h : Whole r) {x} {r1 : Reader Z} (h1 : r.curRead I f n b = .val (x, r1)) : Whole r1 := by
  unfold Reader.curRead at h1
  repeat' split at h1
  all_goals first
    | (cases h1; done)
    | (cases h1; intro hc; simp_all [Whole])

theorem read_whole {f n : Nat} {r : Reader Z} (h : Whole r) {x} {r1 : Reader Z} (h1 : r.read I f n = .val (x, r1)) : Whole r1 := by
  rw [Reader.read] at h1
  split at h1
  · cases h1; exact h
  · split at h1
    · cases h1
    · cases h1
    · rename_i h2
      have g := curRead_whole I h h2
      split at h1
      · dsimp only at h1
        split at h1
        · cases h1; simp [Whole]
        · split at h1
          · cases h1
          · cases h1; simp [Whole]
      · cases h1; exact g

theorem enableZlib_whole {f : Nat} {sched} {r : Reader Z} (h : Whole r) {x} {r1 : Reader Z} (h1 : r.enableZlib I f sched = .val (x, r1)) : Whole r1 := by
  unfold Reader.enableZlib at h1
  repeat' split at h1
  all_goals first
    | (cases h1; done)
    | (cases h1; intro hc; simp_all [Whole])

theorem binRead_whole {f n left : Nat} {r : Reader Z} (h : Whole r) {x l} {r1 : Reader Z} (h1 : r.binRead I f n left = .val (x, l, r1)) : Whole r1 := by
  unfold Reader.binRead at h1
  split at h1
  · cases h1; exact h
  · split at h1
    · rename_i h2; cases h1; exact read_whole I h h2
    · cases h1
    · cases h1

theorem binClose_whole : ∀ (f left : Nat) {r : Reader Z}, Whole r → ∀ x r1, r.binClose I f left = .val (x, r1) → Whole r1 := by
  intro f
  induction f with
  | zero => intro left r _ x r1 h; cases h
  | succ f ih =>
    intro left r hw x r1 h
    rw [Reader.binClose] at h
    split at h
    · rename_i h1; cases h; exact binRead_whole I hw h1
    · rename_i h1; exact ih _ (binRead_whole I hw h1) _ _ h
    · cases h
    · cases h

/-- Every call leaves the reader whole. -/
theorem call_whole {fuel : Nat} {r : Reader Z} {c : Call} (h : Whole r) {ret} {r1 : Reader Z} (h1 : call I fuel r c = .val (ret, r1)) : Whole r1 := by
  cases c with
  | readLine =>
    simp only [call] at h1
    split at h1
    · rename_i h2
      cases h1
      unfold Reader.readLine at h2
      split at h2
      · cases h2; exact h
      · exact readLoop_whole I _ h _ _ h2
    · cases h1
    · cases h1
  | read n =>
    simp only [call] at h1
    split at h1
    · rename_i h2; cases h1; exact read_whole I h h2
    · cases h1
    · cases h1
  | enableZlib s =>
    simp only [call] at h1
    split at h1
    · rename_i h2; cases h1; exact enableZlib_whole I h h2
    · cases h1
    · cases h1
  | binaryRead n left =>
    simp only [call] at h1
    split at h1
    · rename_i h2; cases h1; exact binRead_whole I h h2
    · cases h1
    · cases h1
  | binaryClose left =>
    simp only [call] at h1
    split at h1
    · rename_i h2; cases h1; exact binClose_whole I _ _ h _ _ h2
    · cases h1
    · cases h1
  | setMaxLine n => cases h1; exact h
  | onLine f => cases h1; exact h
  | close => cases h1; simp [Whole, Reader.close]

/-- Every reader that a history of calls leads to is whole, whatever its transport did. -/
theorem reachable_whole (s : Src) (delim : Byte) (cs : List (Nat × Call)) {r : Reader Z}
    (h : history I cs (newReader s delim) = .val r) : Whole r := by
  have go : ∀ (cs : List (Nat × Call)) (r0 : Reader Z), Whole r0 → history I cs r0 = .val r → Whole r := by
    intro cs
    induction cs with
    | nil => intro r0 h0 h; cases h; exact h0
    | cons c cs ih =>
      intro r0 h0 h
      obtain ⟨fuel, c⟩ := c
      simp only [history] at h
      split at h
      · rename_i h2; exact ih _ (call_whole I h0 h2) h
      · cases h
      · cases h
  exact go cs _ (by simp [Whole, newReader]) h

theorem enableZlib_ends {e : Err} {s1 : Src} {fuel : Nat} {sched} {r r' : Reader Z} (hn : r'.Free e) :
    Ends I e s1 (r.enableZlib I fuel sched) (r'.enableZlib I fuel sched) := by
  have np : ∀ r : Reader Z, r.enableZlib I fuel sched ≠ .panic := by
    intro r
    unfold Reader.enableZlib
    split
    · simp
    · rename_i b _
      split
      · simp
      · have hr := readFull_safe fuel 2 [] b
        split
        · rename_i h; exact absurd h hr.1
        · simp
        · simp
        · rename_i h b' hx
          have h3 := (hr.2 _ _ _ hx).2 rfl
          split
          · split <;> simp
          · rename_i hn
            match h, h3, hn with
            | [a, c], _, hn => exact absurd rfl (hn a c)
  refine .inr (.inr ⟨fun _ => np r, np r', ?_⟩)
  intro x r1 h1
  unfold Reader.enableZlib at h1
  repeat' split at h1
  all_goals first
    | (cases h1; done)
    | (cases h1; exact hn.not I)
    | (cases h1; rintro ⟨z, hz, he, _⟩; cases hz; cases he)

/-- Another way to put the results. -/
def over {X Y : Type} (g : X → Y) (o : Exec (X × Reader Z)) : Exec (Y × Reader Z) :=
  match o with
  | .val (x, r) => .val (g x, r)
  | .panic => .panic
  | .timeout => .timeout

theorem over_panic {X Y : Type} {g : X → Y} {o : Exec (X × Reader Z)} : over g o = .panic ↔ o = .panic := by
  unfold over; split <;> simp

theorem ends_over {e : Err} {s1 : Src} {X Y : Type} {o o' : Exec (X × Reader Z)} (g : X → Y) (h : Ends I e s1 o o') :
    Ends I e s1 (over g o) (over g o') := by
  rcases h with ⟨a, b | ⟨x, r1, b, t⟩⟩ | ⟨a, b⟩ | ⟨a, b, t⟩
  · rw [a, b]; exact .inl ⟨rfl, .inl rfl⟩
  · rw [a, b]; exact .inl ⟨rfl, .inr ⟨_, _, rfl, t⟩⟩
  · rw [a, b]; exact .inr (.inl ⟨rfl, rfl⟩)
  · refine .inr (.inr ⟨fun hne hh => a hne (over_panic.mp hh), fun hh => b (over_panic.mp hh), ?_⟩)
    intro y r2 h
    unfold over at h
    split at h
    · cases h; exact t _ _ rfl
    · cases h
    · cases h

/-- The two runs of one step. -/
theorem two_ends {e : Err} {s1 : Src} {X : Type} {P : X → Prop} {o o' : Exec (X × Reader Z)} (h : Two I e s1 P o o') : Ends I e s1 o o' := by
  cases h with
  | time h1 h2 => rw [h1, h2]; exact ends_time I
  | both h1 h2 => exact .inr (.inl ⟨h1, h2⟩)
  | hit h1 h2 =>
    rcases h2 with h2 | ⟨x, r2, h2, h3, _⟩
    · exact .inl ⟨h1, .inl h2⟩
    · exact .inl ⟨h1, .inr ⟨x, r2, h2, h3.took⟩⟩
  | div h1 h2 =>
    refine ends_div I (fun hne => (h1 hne).1) ?_
    rcases h2 with h2 | ⟨x, r2, h2, h3, _⟩
    · exact .inl h2
    · exact .inr ⟨x, r2, h2, h3.took⟩
  | plain x x' r1 r1' h1 h2 _ _ _ _ h3 => rw [h1, h2]; exact ends_val I h3
  | lock x r1 r1' h1 h2 h3 =>
    obtain ⟨_, _, _, _, g, _⟩ := h3.ex
    rw [h1, h2]; exact ends_val I (by rw [g]; exact h3.not)

/-- The two runs of a call. -/
theorem call_ends {e : Err} {s0 s1 : Src} {buf : Bytes} {r : Reader Z} (hw : Whole r) (ho : r.orig = some ⟨s0 ++ ⟨[], none⟩ :: s1, buf⟩)
    (hf : ∀ ev ∈ s0, ev.err ≠ some e) (he : e ≠ .eof) (he' : e ≠ .unexpectedEOF) (hn : r.Free e) (fuel : Nat) (c : Call) :
    Ends I e s1 (call I fuel r c) (call I fuel { r with orig := some ⟨s0 ++ [⟨[], some e⟩], buf⟩ } c) := by
  have hn' : ({ r with orig := some ⟨s0 ++ [⟨[], some e⟩], buf⟩ } : Reader Z).Free e := hn
  have ho' : ({ r with orig := some ⟨s0 ++ [⟨[], some e⟩], buf⟩ } : Reader Z).orig = some ⟨s0 ++ [⟨[], some e⟩], buf⟩ := rfl
  have hz' : ({ r with orig := some ⟨s0 ++ [⟨[], some e⟩], buf⟩ } : Reader Z).curZ = r.curZ := rfl
  have hcut : r.curZ = true → CutR e s1 r { r with orig := some ⟨s0 ++ [⟨[], some e⟩], buf⟩ } := fun hz =>
    ⟨hz, (hw hz).1, hn, _, _, s0, ho, rfl, ⟨rfl, rfl, rfl, hf, he, he'⟩⟩
  generalize hr' : ({ r with orig := some ⟨s0 ++ [⟨[], some e⟩], buf⟩ } : Reader Z) = r' at *
  cases c with
  | readLine =>
    have go : ∀ r : Reader Z, call I fuel r .readLine = over (fun x => Ret.bytes x.1 x.2) (r.readLine I fuel) := by
      intro r; simp only [call, over]; rcases r.readLine I fuel with ⟨⟨_, _⟩, _⟩ | _ | _ <;> rfl
    rw [go, go]
    refine ends_over I _ ?_
    unfold Reader.readLine
    rw [ho, ho']
    cases hz : r.curZ with
    | true => exact readLoop_cut I fuel (hcut hz)
    | false =>
      refine .inr (.inr ⟨fun _ => (readLoop_safe I fuel (by simp [ho]) (sound_plain hz)).1,
        (readLoop_safe I fuel (by simp [ho']) (sound_plain (hz'.trans hz))).1, ?_⟩)
      rintro x r2 h ⟨z, hz1, hz2, _⟩
      rw [(readLoop_plain I fuel (hz'.trans hz) _ _ h).2] at hz1
      exact hn' z hz1 hz2
  | read n =>
    have go : ∀ r : Reader Z, call I fuel r (.read n) = over (fun x => Ret.bytes x.1 x.2) (r.read I fuel n) := by
      intro r; simp only [call, over]; rcases r.read I fuel n with ⟨⟨_, _⟩, _⟩ | _ | _ <;> rfl
    rw [go, go]
    refine ends_over I _ ?_
    cases hz : r.curZ with
    | true => exact two_ends I (read_cut I (f := fuel) (n := n) (hcut hz))
    | false =>
      refine .inr (.inr ⟨fun _ => (read_safe I fuel n (sound_plain hz)).1, (read_safe I fuel n (sound_plain (hz'.trans hz))).1, ?_⟩)
      rintro x r2 h ⟨z, hz1, hz2, _⟩
      rw [(read_plain I (hz'.trans hz) h).2] at hz1
      exact hn' z hz1 hz2
  | enableZlib sched =>
    have go : ∀ r : Reader Z, call I fuel r (.enableZlib sched) = over (fun x => Ret.err x) (r.enableZlib I fuel sched) := by
      intro r; simp only [call, over]; rcases r.enableZlib I fuel sched with ⟨_, _⟩ | _ | _ <;> rfl
    rw [go, go]
    exact ends_over I _ (enableZlib_ends I hn')
  | binaryRead n left =>
    have go : ∀ r : Reader Z, call I fuel r (.binaryRead n left) = over (fun x => Ret.bytes x.1.1 x.1.2) (Lineproto.flip (r.binRead I fuel n left)) := by
      intro r; simp only [call, over, Lineproto.flip]; rcases r.binRead I fuel n left with ⟨⟨_, _⟩, _, _⟩ | _ | _ <;> rfl
    rw [go, go]
    refine ends_over I _ ?_
    cases hz : r.curZ with
    | true => exact two_ends I (binRead_cut I (f := fuel) (n := n) (left := left) (hcut hz))
    | false =>
      have p1 := (binRead_safe I fuel n left (sound_plain hz)).1
      have p2 := (binRead_safe I fuel n left (sound_plain (hz'.trans hz))).1
      refine .inr (.inr ⟨fun _ hh => p1 (flip_panic.mp hh), fun hh => p2 (flip_panic.mp hh), ?_⟩)
      rintro ⟨x, l⟩ r2 h ⟨z, hz1, hz2, _⟩
      rw [(binRead_plain I (hz'.trans hz) (flip_val.mp h)).2] at hz1
      exact hn' z hz1 hz2
  | binaryClose left =>
    have go : ∀ r : Reader Z, call I fuel r (.binaryClose left) = over (fun x => Ret.err x) (r.binClose I fuel left) := by
      intro r; simp only [call, over]; rcases r.binClose I fuel left with ⟨_, _⟩ | _ | _ <;> rfl
    rw [go, go]
    refine ends_over I _ ?_
    cases hz : r.curZ with
    | true => exact binClose_cut I fuel left (hcut hz)
    | false =>
      refine .inr (.inr ⟨fun _ => (binClose_safe I fuel left (sound_plain hz)).1, (binClose_safe I fuel left (sound_plain (hz'.trans hz))).1, ?_⟩)
      rintro x r2 h ⟨z, hz1, hz2, _⟩
      rw [binClose_plain I fuel left (hz'.trans hz) _ _ h] at hz1
      exact hn' z hz1 hz2
  | setMaxLine n => exact ends_val I hn'
  | onLine f => exact ends_val I hn'
  | close => exact ends_val I (by intro z hz; simp [Reader.close] at hz)

/-- In the run that led to `r`, the decompressor called `ReadByte` and was given the error `e`. -/
def GivenToReadByte (e : Err) (r : Reader Z) : Prop := ∃ z, r.zlib = some z ∧ z.zerr = some e ∧ I.want z.z = 0

theorem given_iff {e : Err} {r : Reader Z} : GivenToReadByte I e r ↔ r.Took I e true := by
  simp [GivenToReadByte, Reader.Took, ZRd.Took]

/-- A new error: one that the transport does not return, the decompressor was not given, and that is not `io.EOF` or `io.ErrUnexpectedEOF`. -/
structure New (e : Err) (s : Src) (r : Reader Z) : Prop where
  src : ∀ ev ∈ s, ev.err ≠ some e
  zlib : ∀ z, r.zlib = some z → z.zerr ≠ some e
  eof : e ≠ .eof
  uneof : e ≠ .unexpectedEOF

/-- There is always a new error. -/
theorem fresh_error (s : Src) (r : Reader Z) : ∃ e : Err, New e s r := by
  have big : ∀ l : List (Option Err), ∃ n, ∀ m ≥ n, some (Err.other m) ∉ l := by
    intro l
    induction l with
    | nil => exact ⟨0, by simp⟩
    | cons a l ih =>
      obtain ⟨n, h⟩ := ih
      refine ⟨match a with | some (.other k) => max n (k + 1) | _ => n, ?_⟩
      intro m hm hmem
      rcases List.mem_cons.mp hmem with rfl | h1
      · simp only at hm; omega
      · refine h m ?_ h1
        split at hm <;> omega
  obtain ⟨n, h⟩ := big ((r.zlib.bind fun z => z.zerr) :: s.map (·.err))
  have h := h n (Nat.le_refl n)
  simp only [List.mem_cons, List.mem_map, not_or, not_exists, not_and] at h
  refine ⟨.other n, fun ev hev he => h.2 ev hev he, ?_, by simp, by simp⟩
  intro z hz ht
  exact h.1 (by simp [hz, ht])

/-- A transport that has a `(0, nil)` in store has a last one. -/
theorem last_empty (s : Src) (h : ¬ s.NoEmpty) : ∃ (s0 s1 : Src), s = s0 ++ ⟨[], none⟩ :: s1 ∧ s1.NoEmpty := by
  induction s with
  | nil => exact absurd (by simp [Src.NoEmpty]) h
  | cons ev s ih =>
    by_cases hs : Src.NoEmpty s
    · have hev : ev.data = [] ∧ ev.err = none := by
        by_cases hd : ev.data = []
        · by_cases hx : ev.err = none
          · exact ⟨hd, hx⟩
          · exfalso; apply h; simp only [Src.NoEmpty, List.mem_cons, forall_eq_or_imp] at hs ⊢; exact ⟨.inr hx, hs⟩
        · exfalso; apply h; simp only [Src.NoEmpty, List.mem_cons, forall_eq_or_imp] at hs ⊢; exact ⟨.inl hd, hs⟩
      obtain ⟨d, x⟩ := ev
      obtain ⟨rfl, rfl⟩ := hev
      exact ⟨[], s, rfl, hs⟩
    · obtain ⟨s0, s1, rfl, h0⟩ := ih hs
      exact ⟨ev :: s0, s1, rfl, h0⟩

/-- In the other two cases no call panics: the transport has no `(0, nil)` in store, or the reader is closed. -/
theorem call_never_panics {r : Reader Z} (hw : Whole r) (h : ∀ b, r.orig = some b → b.src.NoEmpty) (fuel : Nat) (c : Call) :
    call I fuel r c ≠ .panic := by
  have := (history_sound I [(fuel, c)] r ⟨hw, .inr h⟩ (.inl h)).1
  intro hc
  simp [history, hc] at this

/-- From the last `(0, nil)` back to the one that does it. -/
theorem panics_at {c : Call} {buf : Bytes} : ∀ (m : Nat) {s : Src} {r : Reader Z}, (s.countP fun ev => ev.data.isEmpty && ev.err.isNone) ≤ m → Whole r →
    r.orig = some ⟨s, buf⟩ → (∃ enough, ∀ fuel ≥ enough, call I fuel r c = .panic) →
    ∃ e s0 s1, s = s0 ++ ⟨[], none⟩ :: s1 ∧ New e s0 r ∧ ∃ enough ret r',
      (∀ fuel ≥ enough, call I fuel { r with orig := some ⟨s0 ++ [⟨[], some e⟩], buf⟩ } c = .val (ret, r')) ∧ r'.Took I e true := by
  intro m
  induction m with
  | zero =>
    intro s r hm hw ho ⟨k, hp⟩
    refine absurd (hp k (Nat.le_refl k)) (call_never_panics I hw ?_ k c)
    intro b hb
    rw [ho] at hb; cases hb
    intro ev hev
    have hm := List.countP_eq_zero.mp (Nat.le_zero.mp hm) ev hev
    by_cases hd : ev.data = []
    · right
      intro hx
      simp [hd, hx] at hm
    · exact .inl hd
  | succ m ih =>
    intro s r hm hw ho ⟨k, hp⟩
    by_cases hs : Src.NoEmpty s
    · refine absurd (hp k (Nat.le_refl k)) (call_never_panics I hw ?_ k c)
      intro b hb
      rw [ho] at hb; cases hb; exact hs
    · obtain ⟨s0, s1, rfl, h1⟩ := last_empty s hs
      obtain ⟨e, hnew⟩ := fresh_error s0 r
      obtain ⟨k', x', hx', hk'⟩ := calls_return I { r with orig := some ⟨s0 ++ [⟨[], some e⟩], buf⟩ } c
      have h0 := hp (max k k') (by omega)
      have h2 := hk' (max k k') (by omega)
      rcases call_ends I hw ho hnew.src hnew.eof hnew.uneof hnew.zlib (max k k') c with ⟨_, h3 | ⟨ret, r', h3, t⟩⟩ | ⟨_, h3⟩ | ⟨h3, _⟩
      · exact absurd (h2.symm.trans h3) hx'
      · exact ⟨e, s0, s1, rfl, hnew, k', ret, r', fun f hf => (hk' f hf).trans (h2.symm.trans h3), t⟩
      · -- both panic: an earlier result does it
        have hcount : ((s0 ++ [⟨[], some e⟩] : Src).countP fun ev => ev.data.isEmpty && ev.err.isNone) ≤ m := by
          simp [List.countP_append] at hm ⊢
          omega
        obtain ⟨e2, s0', s1', heq, hnew2, k2, ret, r', h5, h6⟩ := ih (r := { r with orig := some ⟨s0 ++ [⟨[], some e⟩], buf⟩ }) hcount
          (fun hz => ⟨(hw hz).1, rfl⟩) rfl ⟨k', fun f hf => (hk' f hf).trans (h2.symm.trans h3)⟩
        have hpre : ∃ t, s0 = s0' ++ ⟨[], none⟩ :: t := by
          rcases List.eq_nil_or_concat s1' with rfl | ⟨t, y, rfl⟩
          · have := (List.append_inj' heq rfl).2
            simp at this
          · refine ⟨t, ?_⟩
            have heq' : s0 ++ [⟨[], some e⟩] = (s0' ++ ⟨[], none⟩ :: t) ++ [y] := by simpa [List.concat_eq_append] using heq
            exact (List.append_inj' heq' rfl).1
        obtain ⟨t, rfl⟩ := hpre
        exact ⟨e2, s0', t ++ ⟨[], none⟩ :: s1, by simp, ⟨hnew2.src, hnew2.zlib, hnew2.eof, hnew2.uneof⟩, k2, ret, r', h5, h6⟩
      · exact absurd h0 (h3 h1)

/-- **C74, exactly.** The reader `r` is any reader a history leads to (`reachable_whole`) that is not closed.  A call panics if and only if the
transport is about to return a `(0, nil)`, after `s0`, such that, had it failed with a new error `e` at that point, the decompressor would have
called `ReadByte` and would have been given that error.  (`calls_return`: with enough work every call has an outcome.) -/
theorem call_panics_iff {s : Src} {buf : Bytes} {r : Reader Z} (hw : Whole r) (ho : r.orig = some ⟨s, buf⟩) (c : Call) :
    (∃ enough, ∀ fuel ≥ enough, call I fuel r c = .panic) ↔
      ∃ e s0 s1, s = s0 ++ ⟨[], none⟩ :: s1 ∧ New e s0 r ∧ ∃ enough ret r',
        (∀ fuel ≥ enough, call I fuel { r with orig := some ⟨s0 ++ [⟨[], some e⟩], buf⟩ } c = .val (ret, r')) ∧ GivenToReadByte I e r' := by
  simp only [given_iff]
  constructor
  · exact panics_at I _ (Nat.le_refl _) hw ho
  · rintro ⟨e, s0, s1, rfl, hnew, k0, ret, r', h, t⟩
    obtain ⟨k, x, hx, hk⟩ := calls_return I r c
    have h0 := h (max k0 k) (by omega)
    have h1 := hk (max k0 k) (by omega)
    rcases call_ends I hw ho hnew.src hnew.eof hnew.uneof hnew.zlib (max k0 k) c with ⟨h2, _⟩ | ⟨_, h2⟩ | ⟨_, _, h3⟩
    · exact ⟨k, fun f hf => (hk f hf).trans (h1.symm.trans h2)⟩
    · rw [h0] at h2; cases h2
    · exact absurd t (h3 _ _ h0)

/-- A decompressor that reads everything by `io.ReadFull`, or that has taken in nothing but what it read so, never makes a call panic. -/
theorem readFull_never_panics (hI : ∀ z, I.want z ≠ 0) {s : Src} {buf : Bytes} {r : Reader Z} (hw : Whole r) (ho : r.orig = some ⟨s, buf⟩) (c : Call) :
    ¬ ∃ enough, ∀ fuel ≥ enough, call I fuel r c = .panic := by
  rw [call_panics_iff I hw ho]
  rintro ⟨_, _, _, _, _, _, _, _, _, z, _, _, h⟩
  exact hI _ h

/-- The reader of `empty_read_panics` after `EnableZlib`: the next `ReadLine` panics, and over the changed transport it hands the error to the
decompressor. -/
example : ∃ r : Reader Bool, history LineReader.toy [(20, .enableZlib [])] (newReader [⟨b!"xz", none⟩, ⟨[], none⟩, ⟨b!"a|", none⟩] 124) = .val r ∧
    Whole r ∧ r.orig = some ⟨[] ++ ⟨[], none⟩ :: [⟨b!"a|", none⟩], []⟩ ∧ call LineReader.toy 20 r .readLine = .panic ∧ New (.other 7) [] r ∧
    ∃ ret r', call LineReader.toy 20 { r with orig := some ⟨[] ++ [⟨[], some (.other 7)⟩], []⟩ } .readLine = .val (ret, r') ∧
      GivenToReadByte LineReader.toy (.other 7) r' :=
  ⟨_, rfl, by intro _; exact ⟨rfl, rfl⟩, rfl, rfl, ⟨by simp, by intro z hz; cases hz; simp, by simp, by simp⟩, _, _, rfl, _, rfl, rfl, rfl⟩

/-- The same decompressor with `io.ReadFull` for each byte: the same call does not panic. -/
example : ∃ r : Reader Bool, history { LineReader.toy with want := fun _ => 1 } [(20, .enableZlib [])]
      (newReader [⟨b!"xz", none⟩, ⟨[], none⟩, ⟨b!"a|", none⟩] 124) = .val r ∧ Whole r ∧ (r.orig.map (·.src)) = some (⟨[], none⟩ :: [⟨b!"a|", none⟩]) ∧
    ∃ r', call { LineReader.toy with want := fun _ => 1 } 20 r .readLine = .val (.bytes b!"aa|" none, r') :=
  ⟨_, rfl, by intro _; exact ⟨rfl, rfl⟩, rfl, _, rfl⟩

end Verif.Props.LineReaderPanic
