import Verif.Lineproto.WriterPanic
import Verif.Props.LineWriter

/-!
# C12: exactly when the line writer panics
-/

namespace Verif.Props.LineWriterPanic

open Verif.Lineproto

variable {D : Type} (C : Deflater D) {Z : Type} {I : Inflater Z}

/-- The calls of a history, each with the error it returned and the error the writer has recorded
when it returns (the one all later calls return). -/
def events : List WOp → Writer D → List (WOp × Option Err × Option Err)
  | [], _ => []
  | op :: ops, w =>
    match w.step C op with
    | .val (r, w') => (op, r.2, w'.err) :: events ops w'
    | _ => []

/-- No `EnableZlib` succeeded, but one failed without an error being recorded, and not because
compression was on already. -/
def HalfEnabled (es : List (WOp × Option Err × Option Err)) : Prop :=
  (∃ lvl e, (.enable lvl, some e, none) ∈ es ∧ e ≠ .zlibAlreadyActive) ∧ ∀ lvl x, (.enable lvl, none, x) ∉ es

/-- What the events tell about the writer. -/
structure Inv (es : List (WOp × Option Err × Option Err)) (w : Writer D) : Prop where
  closed : (∃ e ∈ es, e.1 = .close) → w.bw = none ∧ w.err ≠ none
  sane : (∀ e ∈ es, e.1 ≠ .close) → Sane w
  ok : (∀ e ∈ es, e.1 ≠ .close) → (w.zlibW ≠ none ↔ ∃ lvl x, (.enable lvl, none, x) ∈ es)
  on : (∀ e ∈ es, e.1 ≠ .close) → w.zlibW = none →
    (w.zlibOn = true ↔ ∃ lvl e, (.enable lvl, some e, none) ∈ es ∧ e ≠ .zlibAlreadyActive)

theorem Inv.broken {es : List (WOp × Option Err × Option Err)} {w : Writer D} (h : Inv es w)
    (hc : ∀ e ∈ es, e.1 ≠ .close) : (w.zlibOn = true ∧ w.zlibW = none) ↔ HalfEnabled es := by
  have h1 : w.zlibW = none ↔ ∀ lvl x, (.enable lvl, none, x) ∉ es := by
    have := not_congr (h.ok hc)
    simpa using this
  constructor
  · rintro ⟨ho, hn⟩
    exact ⟨(h.on hc hn).mp ho, h1.mp hn⟩
  · rintro ⟨ho, hn⟩
    exact ⟨(h.on hc (h1.mpr hn)).mpr ho, h1.mpr hn⟩

theorem Inv.step (hz : ∀ lvl, C.new lvl ≠ .error .zlibAlreadyActive) {es : List (WOp × Option Err × Option Err)} {w w' : Writer D}
    {op : WOp} {r : Nat × Option Err} (h : Inv es w) (hs : w.step C op = .val (r, w')) : Inv (es ++ [(op, r.2, w'.err)]) w' := by
  by_cases hc : ∃ e ∈ es, e.1 = .close
  · obtain ⟨h1, h2⟩ := h.closed hc
    obtain ⟨e0, he0, hce⟩ := hc
    rcases step_closed C op h1 h2 with ⟨-, h3⟩ | ⟨-, r', w1, h3, h4, h5⟩
    · rw [h3] at hs; cases hs
    · rw [h3] at hs; cases hs
      have no : ¬ ∀ e ∈ es ++ [(op, r.2, w'.err)], e.1 ≠ .close := fun hn => hn e0 (by simp [he0]) hce
      exact ⟨fun _ => ⟨h4, h5 ▸ h2⟩, fun hn => absurd hn no, fun hn => absurd hn no, fun hn => absurd hn no⟩
  · have hc' : ∀ e ∈ es, e.1 ≠ .close := fun e he hce => hc ⟨e, he, hce⟩
    have sane := h.sane hc'
    by_cases hop : op = .close
    · subst hop
      have no : ¬ ∀ e ∈ es ++ [(WOp.close, r.2, w'.err)], e.1 ≠ .close := fun hn => hn (.close, r.2, w'.err) (by simp) rfl
      refine ⟨fun _ => ?_, fun hn => absurd hn no, fun hn => absurd hn no, fun hn => absurd hn no⟩
      rcases close_cases C sane with ⟨⟨e, w1, h1, h2, h3⟩, -⟩ | ⟨h1, -⟩
      · rw [Writer.step, h1] at hs; cases hs; exact ⟨h3, h2⟩
      · rw [Writer.step, h1] at hs; cases hs
    · rcases step_open C hz op hop sane with ⟨r', w1, h1, h2, h3, h4⟩ | ⟨h1, -⟩
      · rw [h1] at hs; cases hs
        have hall : ∀ e ∈ es ++ [(op, r.2, w'.err)], e.1 ≠ .close := by
          intro e he
          rcases List.mem_append.mp he with he | he
          · exact hc' e he
          · simp at he; subst he; exact hop
        refine ⟨fun ⟨e, he, hce⟩ => absurd hce (hall e he), fun _ => h2, fun _ => ?_, fun _ hn => ?_⟩
        · rcases h3 with ⟨⟨lvl, rfl⟩, h5, h6⟩ | ⟨h5, h6⟩
          · exact ⟨fun _ => ⟨lvl, w'.err, by simp [h5]⟩, fun _ => h6⟩
          · rw [ne_eq, not_congr h6, ← ne_eq, h.ok hc']
            constructor
            · rintro ⟨l, x, hx⟩; exact ⟨l, x, by simp [hx]⟩
            · rintro ⟨l, x, hx⟩
              rcases List.mem_append.mp hx with hx | hx
              · exact ⟨l, x, hx⟩
              · simp at hx
                exact absurd ⟨⟨l, hx.1.symm⟩, hx.2.1.symm⟩ h5
        · rw [h4 hn]
          have hn0 : w.zlibW = none := by
            rcases h3 with ⟨-, -, h6⟩ | ⟨-, h6⟩
            · exact absurd hn h6
            · exact h6.mp hn
          rw [h.on hc' hn0]
          constructor
          · rintro (⟨l, e, he, hne⟩ | ⟨l, e, rfl, he, hne, hrec⟩)
            · exact ⟨l, e, by simp [he], hne⟩
            · exact ⟨l, e, by simp [he, hrec], hne⟩
          · rintro ⟨l, e, he, hne⟩
            rcases List.mem_append.mp he with he | he
            · exact .inl ⟨l, e, he, hne⟩
            · simp at he
              exact .inr ⟨l, e, he.1.symm, he.2.1.symm, hne, he.2.2.symm⟩
      · rw [h1] at hs; cases hs

theorem Inv.run (hz : ∀ lvl, C.new lvl ≠ .error .zlibAlreadyActive) {ops : List WOp} {es : List (WOp × Option Err × Option Err)}
    {w w' : Writer D} {rs} (h : Inv es w) (hr : Writer.run C ops w = .val (rs, w')) : Inv (es ++ events C ops w) w' := by
  induction ops generalizing es w rs with
  | nil => simp [Writer.run] at hr; obtain ⟨-, rfl⟩ := hr; simpa [events] using h
  | cons op ops ih =>
    unfold Writer.run at hr
    unfold events
    cases hs : w.step C op with
    | panic => simp [hs] at hr
    | timeout => simp [hs] at hr
    | val p =>
      obtain ⟨r, w1⟩ := p
      simp only [hs] at hr
      simp only
      cases hr2 : Writer.run C ops w1 with
      | panic => simp [hr2] at hr
      | timeout => simp [hr2] at hr
      | val q =>
        obtain ⟨rs', w2⟩ := q
        simp only [hr2] at hr
        cases hr
        have := ih (h.step C hz hs) hr2
        simpa using this

theorem Inv.new (size : Int) (tmo : List (Option Err)) (s : Sink) : Inv [] (newWriter size tmo s : Writer D) :=
  ⟨by simp, fun _ => ⟨by simp [newWriter], by simp [newWriter]⟩, by simp [newWriter], by simp [newWriter]⟩

theorem close_mem {ops : List WOp} {w w' : Writer D} {rs} (hr : Writer.run C ops w = .val (rs, w')) :
    (∃ e ∈ events C ops w, e.1 = .close) ↔ .close ∈ ops := by
  induction ops generalizing w w' rs with
  | nil => simp [events]
  | cons op ops ih =>
    unfold Writer.run at hr
    unfold events
    cases hs : w.step C op with
    | panic => simp [hs] at hr
    | timeout => simp [hs] at hr
    | val p =>
      obtain ⟨r, w1⟩ := p
      simp only [hs] at hr
      simp only
      cases hr2 : Writer.run C ops w1 with
      | panic => simp [hr2] at hr
      | timeout => simp [hr2] at hr
      | val q =>
        obtain ⟨rs', w2⟩ := q
        have := ih hr2
        simp only [List.mem_cons, exists_eq_or_imp, this]
        grind

/-- **C12.** `Close` panics exactly when the writer was closed before, or when a call of `EnableZlib`
with an unknown level was refused and no other succeeded. -/
theorem close_panics_iff (hz : ∀ lvl, C.new lvl ≠ .error .zlibAlreadyActive) (size : Int) (tmo : List (Option Err)) (s : Sink)
    (before : List WOp) {rs w} (hr : Writer.run C before (newWriter size tmo s) = .val (rs, w)) :
    w.step C .close = .panic ↔ .close ∈ before ∨ HalfEnabled (events C before (newWriter size tmo s)) := by
  have inv := (Inv.new size tmo s).run C hz hr
  rw [List.nil_append] at inv
  rw [← close_mem C hr]
  by_cases hc : ∃ e ∈ events C before (newWriter size tmo s), e.1 = .close
  · obtain ⟨h1, h2⟩ := inv.closed hc
    simp only [hc, true_or, iff_true]
    simp [Writer.step, close_closed C h1]
  · have hc' : ∀ e ∈ events C before (newWriter size tmo s), e.1 ≠ .close := fun e he hce => hc ⟨e, he, hce⟩
    simp only [hc, false_or, ← inv.broken hc']
    rcases close_cases C (inv.sane hc') with ⟨⟨e, w1, h1, -, -⟩, hb⟩ | ⟨h1, hb⟩
    · simp only [hb, iff_false]
      simp [Writer.step, h1]
    · simp only [hb, and_self, iff_true]
      simp [Writer.step, h1]

/-- **C12.** The only other calls that panic are `Flush`, `DisableZlib` and `Write`: on a writer that
is open and has no recorded error, after a call of `EnableZlib` with an unknown level was refused and
while no other has succeeded. -/
theorem other_panics (hz : ∀ lvl, C.new lvl ≠ .error .zlibAlreadyActive) (size : Int) (tmo : List (Option Err)) (s : Sink)
    (before : List WOp) {rs w} (hr : Writer.run C before (newWriter size tmo s) = .val (rs, w)) (op : WOp) (hop : op ≠ .close)
    (hp : w.step C op = .panic) :
    (op = .flush ∨ op = .disable ∨ ∃ p, op = .write p) ∧ .close ∉ before ∧ w.err = none ∧
      HalfEnabled (events C before (newWriter size tmo s)) := by
  have inv := (Inv.new size tmo s).run C hz hr
  rw [List.nil_append] at inv
  by_cases hc : ∃ e ∈ events C before (newWriter size tmo s), e.1 = .close
  · obtain ⟨h1, h2⟩ := inv.closed hc
    rcases step_closed C op h1 h2 with ⟨h3, -⟩ | ⟨-, r', w1, h3, -⟩
    · exact absurd h3 hop
    · rw [h3] at hp; cases hp
  · have hc' : ∀ e ∈ events C before (newWriter size tmo s), e.1 ≠ .close := fun e he hce => hc ⟨e, he, hce⟩
    rcases step_open C hz op hop (inv.sane hc') with ⟨r', w1, h1, -⟩ | ⟨-, h2, h3, h4⟩
    · rw [h1] at hp; cases hp
    · exact ⟨h2, fun hm => hc ((close_mem C hr).mpr hm), h3, (inv.broken hc').mp h4⟩

/-- **C12.** No call hangs, whatever was called before. -/
theorem returns_or_panics (hz : ∀ lvl, C.new lvl ≠ .error .zlibAlreadyActive) (size : Int) (tmo : List (Option Err)) (s : Sink)
    (ops : List WOp) : Writer.run C ops (newWriter size tmo s) ≠ .timeout := by
  have main : ∀ (ops : List WOp) (es) (w : Writer D), Inv es w → Writer.run C ops w ≠ .timeout := by
    intro ops
    induction ops with
    | nil => intro es w _; simp [Writer.run]
    | cons op ops ih =>
      intro es w inv
      unfold Writer.run
      cases hs : w.step C op with
      | panic => simp
      | timeout =>
        exfalso
        by_cases hc : ∃ e ∈ es, e.1 = .close
        · obtain ⟨h1, h2⟩ := inv.closed hc
          rcases step_closed C op h1 h2 with ⟨-, h3⟩ | ⟨-, r', w1, h3, -⟩ <;> (rw [h3] at hs; cases hs)
        · have sane := inv.sane fun e he hce => hc ⟨e, he, hce⟩
          by_cases hop : op = .close
          · subst hop
            rcases close_cases C sane with ⟨⟨e, w1, h1, -, -⟩, -⟩ | ⟨h1, -⟩ <;> (rw [Writer.step, h1] at hs; cases hs)
          · rcases step_open C hz op hop sane with ⟨r', w1, h1, -⟩ | ⟨h1, -⟩ <;> (rw [h1] at hs; cases hs)
      | val p =>
        obtain ⟨r, w1⟩ := p
        simp only
        have := ih _ w1 (inv.step C hz hs)
        cases hr2 : Writer.run C ops w1 with
        | timeout => exact absurd hr2 this
        | panic => simp
        | val q => simp
  exact main ops [] _ (Inv.new size tmo s)

/-- `EnableZlib` is refused for its level exactly when the level is not one of zlib's. -/
theorem half_enabled_level (law : C.Law I) (size : Int) (tmo : List (Option Err)) (s : Sink)
    (before : List WOp) {rs w} (hr : Writer.run C before (newWriter size tmo s) = .val (rs, w)) {lvl : Int} {e : Err}
    (hz : ∀ lvl, C.new lvl ≠ .error .zlibAlreadyActive) 
    (hm : (.enable lvl, some e, none) ∈ events C before (newWriter size tmo s)) (he : e ≠ .zlibAlreadyActive) : lvl < -2 ∨ 9 < lvl := by
  have main : ∀ (ops : List WOp) (es) (w w' : Writer D) (rs), Inv es w → Writer.run C ops w = .val (rs, w') →
      (.enable lvl, some e, none) ∈ events C ops w → lvl < -2 ∨ 9 < lvl := by
    intro ops
    induction ops with
    | nil => intro es w w' rs _ _ hm; simp [events] at hm
    | cons op ops ih =>
      intro es w w' rs inv hr hm
      unfold Writer.run at hr
      unfold events at hm
      cases hs : w.step C op with
      | panic => simp [hs] at hr
      | timeout => simp [hs] at hr
      | val p =>
        obtain ⟨r, w1⟩ := p
        simp only [hs] at hr hm
        rcases List.mem_cons.mp hm with hm | hm
        · simp at hm
          obtain ⟨rfl, hr1, hw1⟩ := hm
          by_cases hc : ∃ e ∈ es, e.1 = .close
          · obtain ⟨h1, h2⟩ := inv.closed hc
            rcases step_closed C (.enable lvl) h1 h2 with ⟨h3, -⟩ | ⟨-, r', w2, h3, -, h5⟩
            · cases h3
            · rw [h3] at hs; cases hs
              exact absurd (h5.symm.trans hw1.symm) h2
          · have sane := inv.sane fun e he hce => hc ⟨e, he, hce⟩
            have bad : ∀ x, C.new lvl = .error x → lvl < -2 ∨ 9 < lvl := by
              intro x hx
              have := not_congr (law.levels lvl)
              have := this.mp (by rintro ⟨d, hd⟩; rw [hd] at hx; cases hx)
              omega
            by_cases hb : w.zlibOn = true ∧ w.zlibW = none
            · obtain ⟨x, h1, h2⟩ := enable_broken C lvl hb.1
              rw [Writer.step, h1] at hs; cases hs
              cases hr1
              rcases h2 with h2 | ⟨-, h2⟩
              · rw [h2] at hw1; cases hw1
              · exact absurd h2 he
            · obtain ⟨x, w2, h1, h2, h3, h4⟩ := enable_cases C lvl sane hb
              rw [Writer.step, h1] at hs; cases hs
              rcases h4 with ⟨x, rfl, hk, hx⟩ | ⟨rfl, hk⟩ | ⟨x, rfl, hx, hx1, hon, hk⟩
              · cases hr1
                rcases hx with hx | hx
                · rw [hx] at hw1; cases hw1
                · exact absurd hx he
              · cases hr1
              · exact bad x hx
        · cases hr2 : Writer.run C ops w1 with
          | panic => simp [hr2] at hr
          | timeout => simp [hr2] at hr
          | val q => exact ih _ w1 q.2 q.1 (inv.step C hz hs) hr2 hm
  exact main before [] _ _ _ (Inv.new size tmo s) hr hm

/-! The cases exist. -/

open LineWriter in
/-- The assumption about the errors of zlib can be met. -/
example : ∀ lvl, stored.new lvl ≠ .error .zlibAlreadyActive := by
  intro lvl; unfold stored; simp only; split <;> simp

open LineWriter in
/-- After a refused level, `WriteLine` works and `Flush` panics; after a good one nothing panics. -/
example :
    (∃ rs w, Writer.run stored [.enable 77, .line [65, 124]] (newWriter 0 [] ⟨[], []⟩) = .val (rs, w) ∧
      w.step stored .flush = .panic ∧ w.step stored .close = .panic ∧
      HalfEnabled (events stored [.enable 77, .line [65, 124]] (newWriter 0 [] ⟨[], []⟩))) :=
  ⟨_, _, rfl, rfl, rfl, ⟨77, _, .head _, by simp⟩, by
    intro lvl x h
    have h : (WOp.enable lvl, none, x) ∈ [(WOp.enable 77, some (Err.other 7), none), (.line [65, 124], none, none)] := h
    simp at h⟩

end Verif.Props.LineWriterPanic
