import Verif.Lineproto.Hooked
import Verif.Lineproto.ReaderTotal
import Verif.Props.LineReader

/-!
# C100: hooks of the line reader that keep state or act on the reader

The specification is the program a user would write without hooks: call `ReadLine`, show the line to one hook after the other, and
call `ReadLine` again when one of them wants the line to be dropped.
-/

namespace Verif.Props.LineHooks

open Verif.Lineproto Verif.Spec Verif.Props.LineReader

variable {σ Z : Type} (I : Inflater Z)

/-! ### The specification -/

/-- The hook gives this answer for the line. -/
def Answers (h : DHook σ Z) (l : Bytes) (s : σ) (r : Reader Z) (a : Hook) (s' : σ) (r' : Reader Z) : Prop :=
  ∃ k, ∀ fuel ≥ k, h fuel l s r = .val (a, s', r')

/-- The line is shown to the hooks, one after the other, up to the first that does not accept it. -/
inductive ShownTo : List (DHook σ Z) → Bytes → σ → Reader Z → Hook → σ → Reader Z → Prop
  | nil (l : Bytes) (s : σ) (r : Reader Z) : ShownTo [] l s r .accept s r
  | next {h : DHook σ Z} {hs : List (DHook σ Z)} {l : Bytes} {s s1 s2 : σ} {r r1 r2 : Reader Z} {a : Hook}
      (h1 : Answers h l s r .accept s1 r1) (t : ShownTo hs l s1 r1 a s2 r2) : ShownTo (h :: hs) l s r a s2 r2
  | stop {h : DHook σ Z} {hs : List (DHook σ Z)} {l : Bytes} {s s1 : σ} {r r1 : Reader Z} {a : Hook}
      (h1 : Answers h l s r a s1 r1) (ha : a ≠ .accept) : ShownTo (h :: hs) l s r a s1 r1

/-- A call of `ReadLine` done by hand, on a reader without hooks. -/
inductive ByHand (hs : List (DHook σ Z)) : σ → Reader Z → Bytes × Option Err → σ → Reader Z → Prop
  /-- `ReadLine` fails -/
  | failed {s : σ} {r r1 : Reader Z} {l : Bytes} {e : Err} (h : r.ReadsLine I (l, some e) r1) : ByHand hs s r (l, some e) s r1
  | accepted {s s1 : σ} {r r1 r2 : Reader Z} {l : Bytes} (h : r.ReadsLine I (l, none) r1)
      (hh : ShownTo hs l s r1 .accept s1 r2) : ByHand hs s r (l, none) s1 r2
  | refused {s s1 : σ} {r r1 r2 : Reader Z} {l : Bytes} {e : Err} (h : r.ReadsLine I (l, none) r1)
      (hh : ShownTo hs l s r1 (.fail e) s1 r2) : ByHand hs s r ([], some e) s1 r2
  | dropped {s s1 s2 : σ} {r r1 r2 r3 : Reader Z} {l : Bytes} {res : Bytes × Option Err} (h : r.ReadsLine I (l, none) r1)
      (hh : ShownTo hs l s r1 .drop s1 r2) (t : ByHand hs s1 r2 res s2 r3) : ByHand hs s r res s2 r3

/-- `ReadLine` of the reader with hooks. -/
def HookedReads (hs : List (DHook σ Z)) (s : σ) (r : Reader Z) (res : Bytes × Option Err) (s' : σ) (r' : Reader Z) : Prop :=
  ∃ k, ∀ fuel ≥ k, r.hookedLine I fuel hs s = .val (res, s', r')

/-- More fuel does not change what the hook does. -/
def Steady (h : DHook σ Z) : Prop := ∀ fuel l s r, Exec.Ext (h fuel l s r) (h (fuel + 1) l s r)

/-- The hook does not close the reader, nor register hooks. -/
def KeepsOpen (h : DHook σ Z) : Prop :=
  ∀ fuel l s r a s' r', r.orig.isSome = true → r.onLine = [] → h fuel l s r = .val (a, s', r') →
    r'.orig.isSome = true ∧ r'.onLine = []

/-! ### Fuel -/

theorem ext_le {α : Type} {f : Nat → Exec α} (hf : ∀ n, Exec.Ext (f n) (f (n + 1))) {n m : Nat} (h : n ≤ m) :
    Exec.Ext (f n) (f m) := by
  induction h with
  | refl => exact .inr rfl
  | step _ ih =>
    rcases ih with ih | ih
    · exact .inl ih
    · rw [ih]; exact hf _

theorem settled {α : Type} {f : Nat → Exec α} (hf : ∀ n, Exec.Ext (f n) (f (n + 1))) {n : Nat} {x : α} (h : f n = .val x) :
    ∀ m ≥ n, f m = .val x := by
  intro m hm
  rcases ext_le hf hm with h' | h'
  · rw [h] at h'; cases h'
  · rw [← h', h]

theorem runDHooks_mono {hs : List (DHook σ Z)} (hst : ∀ h ∈ hs, Steady h) (f : Nat) (l : Bytes) :
    ∀ (s : σ) (r : Reader Z), Exec.Ext (runDHooks f l hs s r) (runDHooks (f + 1) l hs s r) := by
  induction hs with
  | nil => intro s r; exact .inr rfl
  | cons h hs ih =>
    intro s r
    rw [runDHooks, runDHooks]
    rcases hst h (by simp) f l s r with e | e
    · left; rw [e]
    · rw [← e]
      split
      · exact .inr rfl
      · exact .inr rfl
      · exact ih (fun h hh => hst h (by simp [hh])) _ _
      · exact .inr rfl
      · exact .inr rfl

theorem hookedLoop_mono {hs : List (DHook σ Z)} (hst : ∀ h ∈ hs, Steady h) : ∀ (f : Nat) (line : Bytes) (s : σ) (r : Reader Z),
    Exec.Ext (r.hookedLoop I hs f line s) (r.hookedLoop I hs (f + 1) line s) := by
  intro f
  induction f with
  | zero => intro line s r; exact .inl rfl
  | succ f ih =>
    intro line s r
    rw [Reader.hookedLoop, Reader.hookedLoop]
    split
    · exact .inr rfl
    · rename_i b _
      split
      · exact .inr rfl
      · rcases scan_mono I f r b with h | h
        · left; rw [h]
        · rw [← h]
          split
          · exact .inr rfl
          · exact .inr rfl
          · split
            · exact ih _ _ _
            · dsimp only
              split
              · exact .inr rfl
              · split
                · exact ih _ _ _
                · rename_i pref _ r1 _ _ _ _
                  rcases runDHooks_mono hst f (line ++ pref) s r1 with e | e
                  · left; rw [e]
                  · rw [← e]
                    split
                    · exact .inr rfl
                    · exact .inr rfl
                    · exact .inr rfl
                    · exact ih _ _ _
                    · exact .inr rfl

theorem hookedLine_mono {hs : List (DHook σ Z)} (hst : ∀ h ∈ hs, Steady h) (f : Nat) (s : σ) (r : Reader Z) :
    Exec.Ext (r.hookedLine I f hs s) (r.hookedLine I (f + 1) hs s) := by
  unfold Reader.hookedLine
  split
  · exact .inr rfl
  · exact hookedLoop_mono I hst f [] s r

/-! ### The hooks and the reader -/

theorem scan_keeps {f : Nat} {r r' : Reader Z} {b : Buf} {x} (h : r.scan I f b = .val (x, r')) :
    r'.orig.isSome = true ∨ r' = { r with cbuf := r'.cbuf } := by
  unfold Reader.scan at h
  split at h
  · split at h
    · split at h
      · cases h
      · split at h <;> simp at h <;> (obtain ⟨_, rfl⟩ := h; simp)
    · simp at h; obtain ⟨_, rfl⟩ := h; simp
  · simp at h; obtain ⟨_, rfl⟩ := h; simp

theorem scan_onLine {f : Nat} {r r' : Reader Z} {b : Buf} {x} (h : r.scan I f b = .val (x, r')) : r'.onLine = r.onLine := by
  unfold Reader.scan at h
  split at h
  · split at h
    · split at h
      · cases h
      · split at h <;> simp at h <;> (obtain ⟨_, rfl⟩ := h; simp)
    · simp at h; obtain ⟨_, rfl⟩ := h; simp
  · simp at h; obtain ⟨_, rfl⟩ := h; simp

theorem runDHooks_keeps {hs : List (DHook σ Z)} (ho : ∀ h ∈ hs, KeepsOpen h) {f : Nat} {l : Bytes} : ∀ {s s' : σ} {r r' : Reader Z} {a},
    r.orig.isSome = true → r.onLine = [] → runDHooks f l hs s r = .val (a, s', r') → r'.orig.isSome = true ∧ r'.onLine = [] := by
  induction hs with
  | nil => intro s s' r r' a h1 h2 h; simp [runDHooks] at h; obtain ⟨_, _, rfl⟩ := h; exact ⟨h1, h2⟩
  | cons h hs ih =>
    intro s s' r r' a h1 h2 hr
    rw [runDHooks] at hr
    split at hr
    · cases hr
    · cases hr
    · rename_i s1 r1 e
      have := ho h (by simp) _ _ _ _ _ _ _ h1 h2 e
      exact ih (fun h hh => ho h (by simp [hh])) this.1 this.2 hr
    · rename_i s1 r1 e; simp at hr; obtain ⟨_, _, rfl⟩ := hr; exact ho h (by simp) _ _ _ _ _ _ _ h1 h2 e
    · rename_i s1 r1 e; simp at hr; obtain ⟨_, _, rfl⟩ := hr; exact ho h (by simp) _ _ _ _ _ _ _ h1 h2 e

theorem shownTo_of_run {hs : List (DHook σ Z)} (hst : ∀ h ∈ hs, Steady h) {f : Nat} {l : Bytes} : ∀ {s s' : σ} {r r' : Reader Z} {a},
    runDHooks f l hs s r = .val (a, s', r') → ShownTo hs l s r a s' r' := by
  induction hs with
  | nil => intro s s' r r' a h; simp [runDHooks] at h; obtain ⟨rfl, rfl, rfl⟩ := h; exact .nil _ _ _
  | cons h hs ih =>
    intro s s' r r' a hr
    have hm := fun n => hst h (by simp) n l s r
    rw [runDHooks] at hr
    split at hr
    · cases hr
    · cases hr
    · rename_i s1 r1 e
      exact .next ⟨f, settled hm e⟩ (ih (fun h hh => hst h (by simp [hh])) hr)
    · rename_i s1 r1 e; simp at hr; obtain ⟨rfl, rfl, rfl⟩ := hr; exact .stop ⟨f, settled hm e⟩ (by simp)
    · rename_i s1 r1 e; simp at hr; obtain ⟨rfl, rfl, rfl⟩ := hr; exact .stop ⟨f, settled hm e⟩ (by simp)

theorem run_of_shownTo {hs : List (DHook σ Z)} {l : Bytes} {s s' : σ} {r r' : Reader Z} {a} (h : ShownTo hs l s r a s' r') :
    ∃ k, ∀ f ≥ k, runDHooks f l hs s r = .val (a, s', r') := by
  induction h with
  | nil => exact ⟨0, fun _ _ => rfl⟩
  | next h1 _ ih =>
    obtain ⟨k1, h1⟩ := h1
    obtain ⟨k2, h2⟩ := ih
    refine ⟨max k1 k2, fun f hf => ?_⟩
    rw [runDHooks, h1 f (by omega)]
    exact h2 f (by omega)
  | @stop _ _ _ _ _ _ _ a h1 ha =>
    obtain ⟨k1, h1⟩ := h1
    refine ⟨k1, fun f hf => ?_⟩
    rw [runDHooks, h1 f hf]
    cases a <;> simp_all

/-- What the loop does with a line that is complete. -/
def after (hs : List (DHook σ Z)) (fuel : Nat) (l : Bytes) (s : σ) (r : Reader Z) : Exec ((Bytes × Option Err) × σ × Reader Z) :=
  match runDHooks fuel l hs s r with
  | .panic => .panic
  | .timeout => .timeout
  | .val (.accept, s2, r2) => .val ((l, none), s2, r2)
  | .val (.drop, s2, r2) => Reader.hookedLoop I hs fuel [] s2 r2
  | .val (.fail e, s2, r2) => .val (([], some e), s2, r2)

/-- The loop with hooks is the loop without hooks, followed by the hooks. -/
theorem loop_split (hs : List (DHook σ Z)) (s : σ) : ∀ (fuel : Nat) (line : Bytes) (r : Reader Z), r.onLine = [] →
    match r.readLoop I fuel line with
    | .panic => r.hookedLoop I hs fuel line s = .panic
    | .timeout => r.hookedLoop I hs fuel line s = .timeout
    | .val ((l, some e), r') => r.hookedLoop I hs fuel line s = .val ((l, some e), s, r')
    | .val ((l, none), r') => r'.orig.isSome = true ∧ r'.onLine = [] ∧ ∃ f < fuel, r.hookedLoop I hs fuel line s = after I hs f l s r' := by
  intro fuel
  induction fuel with
  | zero => intro line r _; simp [Reader.readLoop, Reader.hookedLoop]
  | succ fuel ih =>
    intro line r hol
    rw [Reader.readLoop, Reader.hookedLoop]
    cases hb : r.orig with
    | none => simp
    | some b =>
      by_cases hm : r.maxLine > 0 ∧ (line.length : Int) ≥ r.maxLine
      · simp [hm]
      · simp only [if_neg hm]
        cases hsc : r.scan I fuel b with
        | panic => simp
        | timeout => simp
        | val x =>
          obtain ⟨⟨pref, more, err⟩, r1⟩ := x
          have h1 := scan_onLine I hsc
          have h2 : r1.orig.isSome = true := by
            rcases scan_keeps I hsc with h | h
            · exact h
            · rw [h]; simp [hb]
          dsimp only
          by_cases he : err = some .eof ∧ r1.zlibOn = true
          · simp only [if_pos he]
            have := ih line { r1 with curZ := false, zlibOn := false } (by simp [h1, hol])
            revert this
            cases ({ r1 with curZ := false, zlibOn := false } : Reader Z).readLoop I fuel line with
            | panic => exact id
            | timeout => exact id
            | val y =>
              obtain ⟨⟨l, e⟩, r'⟩ := y
              cases e with
              | some e => exact id
              | none => rintro ⟨k1, k2, f, hf, k3⟩; exact ⟨k1, k2, f, by omega, k3⟩
          · simp only [if_neg he]
            cases err with
            | some e => simp
            | none =>
              cases more with
              | true =>
                simp only [if_true]
                have := ih (line ++ pref) r1 (by rw [h1, hol])
                revert this
                cases r1.readLoop I fuel (line ++ pref) with
                | panic => exact id
                | timeout => exact id
                | val y =>
                  obtain ⟨⟨l, e⟩, r'⟩ := y
                  cases e with
                  | some e => exact id
                  | none => rintro ⟨k1, k2, f, hf, k3⟩; exact ⟨k1, k2, f, by omega, k3⟩
              | false =>
                simp only [h1, hol, runHooks]
                exact ⟨h2, h1.trans hol, fuel, by omega, rfl⟩

/-- With more fuel, more is left when the line is complete. -/
theorem loop_long (hs : List (DHook σ Z)) (s : σ) (x : Nat) : ∀ (fuel : Nat) (line : Bytes) (r r' : Reader Z) (l : Bytes), r.onLine = [] →
    r.readLoop I fuel line = .val ((l, none), r') → ∃ f, r.hookedLoop I hs (fuel + x) line s = after I hs (f + x) l s r' := by
  intro fuel
  induction fuel with
  | zero => intro line r r' l _ h; simp [Reader.readLoop] at h
  | succ fuel ih =>
    intro line r r' l hol h
    rw [show fuel + 1 + x = (fuel + x) + 1 by omega, Reader.hookedLoop]
    rw [Reader.readLoop] at h
    cases hb : r.orig with
    | none => simp [hb] at h
    | some b =>
      by_cases hm : r.maxLine > 0 ∧ (line.length : Int) ≥ r.maxLine
      · simp [hb, hm] at h
      · simp only [hb, if_neg hm] at h ⊢
        cases hsc : r.scan I fuel b with
        | panic => simp [hsc] at h
        | timeout => simp [hsc] at h
        | val y =>
          have hsc' := settled (fun n => scan_mono I n r b) hsc (fuel + x) (by omega)
          obtain ⟨⟨pref, more, err⟩, r1⟩ := y
          have h1 := scan_onLine I hsc
          simp only [hsc, hsc'] at h ⊢
          by_cases he : err = some .eof ∧ r1.zlibOn = true
          · simp only [if_pos he] at h ⊢
            exact ih _ _ _ _ (by simp [h1, hol]) h
          · simp only [if_neg he] at h ⊢
            cases err with
            | some e => simp at h
            | none =>
              cases more with
              | true =>
                simp only [if_true] at h ⊢
                exact ih _ _ _ _ (by rw [h1, hol]) h
              | false =>
                simp only [h1, hol, runHooks, Bool.false_eq_true, if_false] at h ⊢
                cases h
                exact ⟨fuel, rfl⟩

/-! ### The theorem -/

variable {hs : List (DHook σ Z)}

theorem byHand_of_loop (hst : ∀ h ∈ hs, Steady h) (ho : ∀ h ∈ hs, KeepsOpen h) : ∀ (fuel : Nat) (s s' : σ) (r r' : Reader Z) (res : Bytes × Option Err),
    r.orig.isSome = true → r.onLine = [] → r.hookedLoop I hs fuel [] s = .val (res, s', r') → ByHand I hs s r res s' r' := by
  intro fuel
  induction fuel using Nat.strongRecOn with
  | ind fuel ih =>
    intro s s' r r' res hop hol h
    have hrl : ∀ f, r.readLine I f = r.readLoop I f [] := by
      intro f; obtain ⟨b, hb⟩ := Option.isSome_iff_exists.mp hop; simp [Reader.readLine, hb]
    have hk := loop_split I hs s fuel [] r hol
    cases hr : r.readLoop I fuel [] with
    | panic => simp only [hr] at hk; rw [hk] at h; cases h
    | timeout => simp only [hr] at hk; rw [hk] at h; cases h
    | val y =>
      obtain ⟨⟨l, e⟩, r1⟩ := y
      have hread : r.ReadsLine I (l, e) r1 := ⟨fuel, settled (fun n => readLine_mono I n r) (by rw [hrl, hr])⟩
      cases e with
      | some e => simp only [hr] at hk; rw [hk] at h; cases h; exact .failed hread
      | none =>
        simp only [hr] at hk
        obtain ⟨k1, k2, f, hf, k3⟩ := hk
        rw [k3, after] at h
        split at h
        · cases h
        · cases h
        · rename_i e; cases h; exact .accepted hread (shownTo_of_run hst e)
        · rename_i s2 r2 e
          have := runDHooks_keeps ho k1 k2 e
          exact .dropped hread (shownTo_of_run hst e) (ih f hf _ _ _ _ _ this.1 this.2 h)
        · rename_i e; cases h; exact .refused hread (shownTo_of_run hst e)

theorem loop_of_byHand (hst : ∀ h ∈ hs, Steady h) (ho : ∀ h ∈ hs, KeepsOpen h) {s s' : σ} {r r' : Reader Z} {res : Bytes × Option Err}
    (h : ByHand I hs s r res s' r') : r.orig.isSome = true → r.onLine = [] → ∃ fuel, r.hookedLoop I hs fuel [] s = .val (res, s', r') := by
  have line : ∀ {r : Reader Z}, r.orig.isSome = true → ∀ f, r.readLine I f = r.readLoop I f [] := by
    intro r hop f; obtain ⟨b, hb⟩ := Option.isSome_iff_exists.mp hop; simp [Reader.readLine, hb]
  have step : ∀ {s s1 : σ} {r r1 r2 : Reader Z} {l : Bytes} {a : Hook}, r.orig.isSome = true → r.onLine = [] → r.ReadsLine I (l, none) r1 →
      ShownTo hs l s r1 a s1 r2 → r2.orig.isSome = true ∧ r2.onLine = [] ∧ ∀ n, ∃ fuel f, n ≤ f ∧
        r.hookedLoop I hs fuel [] s = after I hs f l s r1 ∧ runDHooks f l hs s r1 = .val (a, s1, r2) := by
    intro s s1 r r1 r2 l a hop hol h hh
    obtain ⟨k, hk⟩ := h
    obtain ⟨k2, hk2⟩ := run_of_shownTo hh
    have hr := (line hop k).symm.trans (hk k (Nat.le_refl _))
    have hsp := loop_split I hs s k [] r hol
    rw [hr] at hsp
    have := runDHooks_keeps ho hsp.1 hsp.2.1 (hk2 k2 (Nat.le_refl _))
    refine ⟨this.1, this.2, fun n => ?_⟩
    obtain ⟨f, hf⟩ := loop_long I hs s (n + k2) k [] r r1 l hol hr
    exact ⟨_, f + (n + k2), by omega, hf, hk2 _ (by omega)⟩
  induction h with
  | @failed s r r1 l e h =>
    intro hop hol
    obtain ⟨k, hk⟩ := h
    have hr := (line hop k).symm.trans (hk k (Nat.le_refl _))
    have hsp := loop_split I hs s k [] r hol
    rw [hr] at hsp
    exact ⟨k, hsp⟩
  | accepted h hh =>
    intro hop hol
    obtain ⟨_, _, h3⟩ := step hop hol h hh
    obtain ⟨fuel, f, _, h4, h5⟩ := h3 0
    exact ⟨fuel, by rw [h4, after, h5]⟩
  | refused h hh =>
    intro hop hol
    obtain ⟨_, _, h3⟩ := step hop hol h hh
    obtain ⟨fuel, f, _, h4, h5⟩ := h3 0
    exact ⟨fuel, by rw [h4, after, h5]⟩
  | dropped h hh t ih =>
    intro hop hol
    obtain ⟨h1, h2, h3⟩ := step hop hol h hh
    obtain ⟨g, hg⟩ := ih h1 h2
    obtain ⟨fuel, f, hf, h4, h5⟩ := h3 g
    refine ⟨fuel, ?_⟩
    rw [h4, after, h5]
    exact settled (fun n => hookedLoop_mono I hst n [] _ _) hg f hf

/-- **C100.** `ReadLine` of a reader with hooks is the program without hooks: it returns what this program gets, and leaves the state of
the program and the reader as it does.  So every line is shown to each hook once, in the order of the lines, when it is complete and
before the next one is looked for; a hook is asked only when those before it accepted the line; what a hook does to the reader, such as
switching decompression on, counts from the byte after its line on. -/
theorem hooks_by_hand (hst : ∀ h ∈ hs, Steady h) (ho : ∀ h ∈ hs, KeepsOpen h) {r : Reader Z} (hol : r.onLine = []) (s : σ)
    (res : Bytes × Option Err) (s' : σ) (r' : Reader Z) :
    HookedReads I hs s r res s' r' ↔ ByHand I hs s r res s' r' := by
  cases hop : r.orig with
  | none =>
    have hrl : ∀ f, r.readLine I f = .val (([], some .readerClosed), r) := fun f => by simp [Reader.readLine, hop]
    constructor
    · rintro ⟨k, hk⟩
      have := hk k (Nat.le_refl _)
      simp [Reader.hookedLine, hop] at this
      obtain ⟨rfl, rfl, rfl⟩ := this
      exact .failed ⟨0, fun f _ => hrl f⟩
    · intro h
      have key : ∀ {l e r1}, r.ReadsLine I (l, e) r1 → (l, e) = ([], some .readerClosed) ∧ r1 = r := by
        rintro l e r1 ⟨k, hk⟩
        have := hk k (Nat.le_refl _)
        rw [hrl] at this; cases this; exact ⟨rfl, rfl⟩
      cases h with
      | failed h => obtain ⟨h1, rfl⟩ := key h; cases h1; exact ⟨0, fun f _ => by simp [Reader.hookedLine, hop]⟩
      | accepted h => cases (key h).1
      | refused h => cases (key h).1
      | dropped h => cases (key h).1
  | some b =>
    have hop' : r.orig.isSome = true := by simp [hop]
    have hrl : ∀ f, r.hookedLine I f hs s = r.hookedLoop I hs f [] s := fun f => by simp [Reader.hookedLine, hop]
    constructor
    · rintro ⟨k, hk⟩
      exact byHand_of_loop I hst ho k s s' r r' res hop' hol ((hrl k).symm.trans (hk k (Nat.le_refl _)))
    · intro h
      obtain ⟨k, hk⟩ := loop_of_byHand I hst ho h hop' hol
      exact ⟨k, settled (fun n => hookedLine_mono I hst n s r) ((hrl k).trans hk)⟩

/-! ### Hooks with state -/

/-- Successive calls of `ReadLine` of the reader with hooks. -/
inductive HookedRuns (hs : List (DHook σ Z)) : σ → Reader Z → List (Bytes × Option Err) → σ → Reader Z → Prop
  | nil (s : σ) (r : Reader Z) : HookedRuns hs s r [] s r
  | cons {s s1 s2 : σ} {r r1 r2 : Reader Z} {res : Bytes × Option Err} {more : List (Bytes × Option Err)}
      (h : HookedReads I hs s r res s1 r1) (t : HookedRuns hs s1 r1 more s2 r2) : HookedRuns hs s r (res :: more) s2 r2

/-- A hook that has a state and leaves the reader alone. -/
def stateful (h : Bytes → σ → Hook × σ) : DHook σ Z := fun _ l s r => .val ((h l s).1, (h l s).2, r)

/-- The answer of such hooks to a line: that of the first that does not accept. -/
def ask : List (Bytes → σ → Hook × σ) → Bytes → σ → Hook × σ
  | [], _, s => (.accept, s)
  | h :: hs, l, s =>
    match h l s with
    | (.accept, s') => ask hs l s'
    | (.drop, s') => (.drop, s')
    | (.fail e, s') => (.fail e, s')

/-- What a stream of lines becomes by such hooks: the lines they accept, and the errors they return in the place of a line; and the state
they leave. -/
def sift (hs : List (Bytes → σ → Hook × σ)) : σ → List Bytes → List (Bytes × Option Err) × σ
  | s, [] => ([], s)
  | s, l :: ls =>
    match ask hs l s with
    | (.accept, s') => ((l, none) :: (sift hs s' ls).1, (sift hs s' ls).2)
    | (.drop, s') => sift hs s' ls
    | (.fail e, s') => (([], some e) :: (sift hs s' ls).1, (sift hs s' ls).2)

theorem shownTo_ask (hs : List (Bytes → σ → Hook × σ)) (l : Bytes) (r : Reader Z) : ∀ s : σ,
    ShownTo (hs.map stateful) l s r (ask hs l s).1 (ask hs l s).2 r := by
  induction hs with
  | nil => intro s; exact .nil _ _ _
  | cons h hs ih =>
    intro s
    simp only [List.map_cons, ask]
    cases hx : h l s with
    | mk a s1 =>
      have ha : Answers (stateful (Z := Z) h) l s r a s1 r := ⟨0, fun f _ => by simp [stateful, hx]⟩
      cases a with
      | accept => exact .next ha (ih s1)
      | drop => exact .stop ha (by simp)
      | fail e => exact .stop ha (by simp)

theorem readLoop_onLine : ∀ (fuel : Nat) (line : Bytes) (r r' : Reader Z) (res : Bytes × Option Err),
    r.readLoop I fuel line = .val (res, r') → r'.onLine = r.onLine := by
  intro fuel
  induction fuel with
  | zero => intro line r r' res h; simp [Reader.readLoop] at h
  | succ fuel ih =>
    intro line r r' res h
    rw [Reader.readLoop] at h
    split at h
    · cases h
    · split at h
      · cases h; rfl
      · split at h
        · cases h
        · cases h
        · rename_i hsc
          have h1 := scan_onLine I hsc
          split at h
          · exact (ih _ _ _ _ h).trans h1
          · dsimp only at h
            split at h
            · cases h; exact h1
            · split at h
              · exact (ih _ _ _ _ h).trans h1
              · split at h
                · cases h; exact h1
                · exact (ih _ _ _ _ h).trans h1
                · cases h; exact h1

theorem readsLine_onLine {r r' : Reader Z} {res : Bytes × Option Err} (h : r.ReadsLine I res r') : r'.onLine = r.onLine := by
  obtain ⟨k, hk⟩ := h
  have := hk k (Nat.le_refl _)
  unfold Reader.readLine at this
  split at this
  · cases this; rfl
  · exact readLoop_onLine I _ _ _ _ _ this

theorem steady_stateful (hs : List (Bytes → σ → Hook × σ)) : ∀ h ∈ hs.map (stateful (Z := Z)), Steady h := by
  intro h hh f l s r
  obtain ⟨g, _, rfl⟩ := List.mem_map.mp hh
  exact .inr rfl

theorem keepsOpen_stateful (hs : List (Bytes → σ → Hook × σ)) : ∀ h ∈ hs.map (stateful (Z := Z)), KeepsOpen h := by
  intro h hh f l s r a s' r' h1 h2 he
  obtain ⟨g, _, rfl⟩ := List.mem_map.mp hh
  simp only [stateful, Exec.val.injEq, Prod.mk.injEq] at he
  obtain ⟨_, _, rfl⟩ := he
  exact ⟨h1, h2⟩

/-- What a reader without hooks returns, up to an error, a reader with hooks returns sifted. -/
theorem hooked_run (hooks : List (Bytes → σ → Hook × σ)) (t : Bytes) (e : Err) : ∀ (ls : List Bytes) (s : σ) (r r' : Reader Z), r.onLine = [] →
    Reader.Runs I r (ls.map (fun l => Obs.line (l, none)) ++ [Obs.line (t, some e)]) r' →
    HookedRuns I (hooks.map stateful) s r ((sift hooks s ls).1 ++ [(t, some e)]) (sift hooks s ls).2 r' := by
  have hiff := fun {r : Reader Z} (hol : r.onLine = []) (s : σ) (res : Bytes × Option Err) (s' : σ) (r' : Reader Z) =>
    hooks_by_hand I (steady_stateful (Z := Z) hooks) (keepsOpen_stateful hooks) hol s res s' r'
  intro ls
  induction ls with
  | nil =>
    intro s r r' hol h
    cases h with
    | line _ r1 _ _ _ h t =>
      cases t
      exact .cons ((hiff hol _ _ _ _).mpr (.failed h)) (.nil _ _)
  | cons l ls ih =>
    intro s r r' hol h
    cases h with
    | line _ r1 _ _ _ h t =>
      have h1 := (readsLine_onLine I h).trans hol
      have hsh := shownTo_ask hooks l r1 s
      rw [sift]
      cases hx : ask hooks l s with
      | mk a s1 =>
        rw [hx] at hsh
        have ih' := ih s1 r1 r' h1 t
        cases a with
        | accept => exact .cons ((hiff hol _ _ _ _).mpr (.accepted h hsh)) ih'
        | fail e => exact .cons ((hiff hol _ _ _ _).mpr (.refused h hsh)) ih'
        | drop =>
          dsimp only at hsh ⊢
          generalize hys : (sift hooks s1 ls).1 ++ [(_, some _)] = ys at ih' ⊢
          generalize (sift hooks s1 ls).2 = s2 at ih' ⊢
          cases ih' with
          | nil => simp at hys
          | cons h2 t2 => exact .cons ((hiff hol _ _ _ _).mpr (.dropped h hsh ((hiff h1 _ _ _ _).mp h2))) t2

/-- **C100, hooks with state.** However the stream comes in pieces, calling `ReadLine` again and again gives what the hooks make of the
lines of the stream, one after the other, and leaves them in the state they have then. -/
theorem stateful_hooks (src : Src) (hd : DataOnly src) (delim : Byte) (max : Int)
    (hmax : max ≤ 0 ∨ (∀ l ∈ (splitLines delim (bytesOf src)).1, (l.length : Int) ≤ max) ∧
      ((splitLines delim (bytesOf src)).2.length : Int) < max)
    (hooks : List (Bytes → σ → Hook × σ)) (s : σ) :
    ∃ r', HookedRuns I (hooks.map stateful) s ((newReader src delim).setMaxLine max)
      ((sift hooks s (splitLines delim (bytesOf src)).1).1 ++ [((splitLines delim (bytesOf src)).2, some .eof)])
      (sift hooks s (splitLines delim (bytesOf src)).1).2 r' := by
  obtain ⟨r', h⟩ := readLine_chunk_independent I src hd delim max 0 hmax
  exact ⟨r', hooked_run I hooks _ _ _ _ _ _ rfl (by simpa using h)⟩

/-- A hook that writes down the lines it is shown. -/
def note (l : Bytes) (s : List Bytes × σ) : Hook × List Bytes × σ := (.accept, s.1 ++ [l], s.2)

/-- A hook that goes by its own state. -/
def own (h : Bytes → σ → Hook × σ) (l : Bytes) (s : List Bytes × σ) : Hook × List Bytes × σ := ((h l s.2).1, s.1, (h l s.2).2)

theorem ask_own (hooks : List (Bytes → σ → Hook × σ)) (l : Bytes) : ∀ s : List Bytes × σ,
    ask (hooks.map own) l s = ((ask hooks l s.2).1, s.1, (ask hooks l s.2).2) := by
  induction hooks with
  | nil => intro s; rfl
  | cons h hs ih =>
    intro s
    simp only [List.map_cons, ask, own]
    cases h l s.2 with
    | mk a s1 => cases a <;> simp [ih]

/-- **C100.** The first hook is shown every line of the stream, once and in order, whatever the others do with it. -/
theorem every_line_shown (hooks : List (Bytes → σ → Hook × σ)) (lines : List Bytes) : ∀ (before : List Bytes) (s : σ),
    sift (note :: hooks.map own) (before, s) lines =
      ((sift hooks s lines).1, before ++ lines, (sift hooks s lines).2) := by
  induction lines with
  | nil => intro before s; simp [sift]
  | cons l ls ih =>
    intro before s
    have h : ask (note :: hooks.map own) l (before, s) = ((ask hooks l s).1, before ++ [l], (ask hooks l s).2) := by
      simp [ask, note, ask_own]
    rw [sift, sift, h]
    cases ask hooks l s with
    | mk a s1 => cases a <;> simp [ih]

/-- A hook that lets through only the first two lines of a kind. -/
example : sift [fun l (n : Nat) => if l = b!"x|" then (if n < 2 then .accept else .drop, n + 1) else (.accept, n)] 0
    [b!"x|", b!"a|", b!"x|", b!"x|", b!"b|", b!"x|"] = ([(b!"x|", none), (b!"a|", none), (b!"x|", none), (b!"b|", none)], 4) := by
  decide

/-- A hook that drops the lines with an odd number, in a stream that comes in pieces: the first call returns the second line. -/
example : ∃ r', (newReader [⟨b!"a|b", none⟩, ⟨b!"b|c|", none⟩] 124 : Reader Bool).hookedLine toy 9
    [stateful fun _ n => (if n % 2 = 0 then .drop else .accept, n + 1)] 0 = .val ((b!"bb|", none), 2, r') := ⟨_, rfl⟩

/-! ### Hooks that act on the reader -/

/-- A hook that switches decompression on after the line `on`; `s` are the schedules of the zlib readers. -/
def zlibHook (on : Bytes) : DHook (List (List (Nat × Bool))) Z := fun fuel l s r =>
  if l = on then
    match s with
    | [] => .val (.accept, s, r)
    | sched :: s' =>
      match r.enableZlib I fuel sched with
      | .panic => .panic
      | .timeout => .timeout
      | .val (none, r') => .val (.accept, s', r')
      | .val (some e, r') => .val (.fail e, s', r')
  else .val (.accept, s, r)

theorem steady_zlibHook (on : Bytes) : Steady (zlibHook I on) := by
  intro f l s r
  unfold zlibHook
  split
  · split
    · exact .inr rfl
    · rename_i sched _
      rcases enableZlib_mono I f sched r with h | h
      · left; rw [h]
      · right; rw [h]
  · exact .inr rfl

theorem enableZlib_keeps {f : Nat} {sched : List (Nat × Bool)} {r r' : Reader Z} {e : Option Err} (h : r.enableZlib I f sched = .val (e, r')) :
    r'.onLine = r.onLine ∧ (r.orig.isSome = true → r'.orig.isSome = true) := by
  unfold Reader.enableZlib at h
  split at h
  · cases h; exact ⟨rfl, id⟩
  · split at h
    · cases h; exact ⟨rfl, id⟩
    · split at h
      · cases h
      · cases h
      · cases h; simp
      · split at h
        · split at h
          · cases h; simp
          · cases h; simp
        · cases h

theorem keepsOpen_zlibHook (on : Bytes) : KeepsOpen (zlibHook I on) := by
  intro f l s r a s' r' h1 h2 h
  unfold zlibHook at h
  split at h
  · split at h
    · cases h; exact ⟨h1, h2⟩
    · split at h
      · cases h
      · cases h
      · rename_i e; cases h; have := enableZlib_keeps I e; exact ⟨this.2 h1, this.1.trans h2⟩
      · rename_i e; cases h; have := enableZlib_keeps I e; exact ⟨this.2 h1, this.1.trans h2⟩
  · cases h; exact ⟨h1, h2⟩

/-- A program that calls `EnableZlib` after each line `on`, and what its calls of `ReadLine` return. -/
inductive Switches (on : Bytes) : List Obs → List (List (Nat × Bool)) → List (Bytes × Option Err) → Prop
  | nil : Switches on [] [] []
  | line {res : Bytes × Option Err} {os : List Obs} {ss rs} (h : res ≠ (on, none)) (t : Switches on os ss rs) :
      Switches on (.line res :: os) ss (res :: rs)
  | on {sched : List (Nat × Bool)} {os : List Obs} {ss rs} (t : Switches on os ss rs) :
      Switches on (.line (on, none) :: .zlib sched :: os) (sched :: ss) ((on, none) :: rs)

/-- **C100, switching decompression on in a hook.** The hook may do what the program would do after `ReadLine` has returned: the results
of `ReadLine` are the same. -/
theorem zlib_hook {on : Bytes} {os : List Obs} {ss more : List (List (Nat × Bool))} {rs : List (Bytes × Option Err)}
    (hsw : Switches on os ss rs) : ∀ {r r' : Reader Z}, r.onLine = [] → Reader.Runs I r os r' →
    HookedRuns I [zlibHook I on] (ss ++ more) r rs more r' := by
  have hiff := fun {r : Reader Z} (hol : r.onLine = []) s res s' r' => hooks_by_hand I (hs := [zlibHook I on])
    (by simpa using steady_zlibHook I on) (by simpa using keepsOpen_zlibHook I on) hol s res s' r'
  induction hsw with
  | nil => intro r r' _ h; cases h; exact .nil _ _
  | @line res os ss rs hne t ih =>
    intro r r' hol h
    cases h with
    | line _ r1 _ _ _ h1 h2 =>
      refine .cons ((hiff hol _ _ _ _).mpr ?_) (ih ((readsLine_onLine I h1).trans hol) h2)
      obtain ⟨l, e⟩ := res
      cases e with
      | some e => exact .failed h1
      | none =>
        refine .accepted h1 (.next ⟨0, fun f _ => ?_⟩ (.nil _ _ _))
        simp only [zlibHook]
        rw [if_neg (fun h => hne (by rw [h]))]
  | @on sched os ss rs t ih =>
    intro r r' hol h
    cases h with
    | line _ r1 _ _ _ h1 h2 =>
      cases h2 with
      | zlib _ r2 _ _ _ h3 h4 =>
        obtain ⟨k, hk⟩ := h3
        have := enableZlib_keeps I (hk k (Nat.le_refl _))
        refine .cons ((hiff hol _ _ _ _).mpr ?_) (ih (this.1.trans ((readsLine_onLine I h1).trans hol)) h4)
        refine .accepted h1 (.next ⟨k, fun f hf => ?_⟩ (.nil _ _ _))
        simp [zlibHook, hk f hf]

/-- A program of this kind: `EnableZlib` after `$ZOn|`. -/
example : Switches b!"$ZOn|" [.line (b!"a|", none), .line (b!"$ZOn|", none), .zlib [], .line (b!"b|", none), .line ([], some .eof)] [[]]
    [(b!"a|", none), (b!"$ZOn|", none), (b!"b|", none), ([], some .eof)] :=
  .line (by decide) (.on (.line (by decide) (.line (by decide) .nil)))

/-- A hook that closes the reader is not allowed to drop the line: `ReadLine` panics then, while the program without hooks would get an
error. -/
theorem closing_hook_panics : ∃ h : DHook Unit Unit,
    (∀ f l s r, h f l s r = .val (.drop, s, r.close)) ∧
    ∀ I f, f ≥ 2 → (newReader [⟨b!"a|", none⟩] 124).hookedLine I f [h] () = .panic := by
  refine ⟨fun _ _ s r => .val (.drop, s, r.close), fun _ _ _ _ => rfl, ?_⟩
  intro I f hf
  obtain ⟨f, rfl⟩ : ∃ g, f = g + 2 := ⟨f - 2, by omega⟩
  rfl

end Verif.Props.LineHooks
