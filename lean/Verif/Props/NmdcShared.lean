import Verif.Nmdc.Shared
import Verif.Props.ConnTotal
import Verif.Props.LineReader
import Verif.Props.LineWriter

/-!
# C86: changing the text encoding during a call

Model: `Verif/Nmdc/Shared.lean`.
-/

namespace Verif.Props.NmdcShared

open Verif Verif.Go Verif.Lineproto Verif.Nmdc

/-! ## Writing -/

section writing

variable {D : Type} (C : Deflater D)

/-- The calls in the order in which they begin. -/
def written : List WEv → List NOp
  | [] => []
  | .set d :: es => .setEncoder d :: written es
  | .other op :: es => op :: written es
  | .call ms :: es => .msgs ms :: written es
  | .msg :: es => written es

/-- The errors returned by the calls, without those of `SetEncoder`, which returns none. -/
def answers : List NOp → List (Option Err) → List (Option Err)
  | .setEncoder _ :: ops, _ :: es => answers ops es
  | _ :: ops, e :: es => e :: answers ops es
  | _, _ => []

/-- The `SetEncoder` calls for a list of encoders. -/
abbrev sets (ds : List Codec) : List NOp := ds.map .setEncoder

/-- The last encoder of a list. -/
def lastOf (ds : List Codec) (d : Codec) : Codec := ds.getLast?.getD d

theorem lastOf_snoc (ds : List Codec) (d e : Codec) : lastOf (ds ++ [d]) e = d := by simp [lastOf]

theorem nrun_append {a b : List NOp} {w w1 w2 : NWriter D} {ra rb} (h1 : NWriter.run C a w = .val (ra, w1))
    (h2 : NWriter.run C b w1 = .val (rb, w2)) : NWriter.run C (a ++ b) w = .val (ra ++ rb, w2) := by
  induction a generalizing w ra with
  | nil => cases h1; exact h2
  | cons op a ih =>
    unfold NWriter.run at h1
    cases hs : w.step C op with
    | panic => simp [hs] at h1
    | timeout => simp [hs] at h1
    | val p =>
      obtain ⟨e, w'⟩ := p
      simp only [hs] at h1
      cases hr : NWriter.run C a w' with
      | panic => simp [hr] at h1
      | timeout => simp [hr] at h1
      | val q =>
        obtain ⟨es, w''⟩ := q
        simp only [hr] at h1
        cases h1
        simp [NWriter.run, hs, ih hr]

theorem nrun_length {a : List NOp} {w w1 : NWriter D} {ra} (h1 : NWriter.run C a w = .val (ra, w1)) : ra.length = a.length := by
  induction a generalizing w ra with
  | nil => cases h1; rfl
  | cons op a ih =>
    unfold NWriter.run at h1
    cases hs : w.step C op with
    | panic => simp [hs] at h1
    | timeout => simp [hs] at h1
    | val p =>
      obtain ⟨e, w'⟩ := p
      simp only [hs] at h1
      cases hr : NWriter.run C a w' with
      | panic => simp [hr] at h1
      | timeout => simp [hr] at h1
      | val q =>
        obtain ⟨es, w''⟩ := q
        simp only [hr] at h1
        cases h1
        simp [ih hr]

theorem answers_append {a b : List NOp} {ra rb : List (Option Err)} (h : ra.length = a.length) :
    answers (a ++ b) (ra ++ rb) = answers a ra ++ answers b rb := by
  induction a generalizing ra with
  | nil => cases ra with
    | nil => simp [answers]
    | cons => simp at h
  | cons op a ih => cases ra with
    | nil => simp at h
    | cons e ra =>
      have := ih (ra := ra) (by simpa using h)
      cases op <;> simp [answers, this]

theorem nrun_sets (ds : List Codec) (w : NWriter D) :
    ∃ rs, NWriter.run C (sets ds) w = .val (rs, { w with enc := lastOf ds w.enc }) ∧ answers (sets ds) rs = [] := by
  induction ds generalizing w with
  | nil => exact ⟨[], rfl, rfl⟩
  | cons d ds ih =>
    obtain ⟨rs, h1, h2⟩ := ih { w with enc := d }
    refine ⟨none :: rs, ?_, h2⟩
    simp only [sets, List.map_cons] at h1 ⊢
    simp only [NWriter.run, NWriter.step, h1]
    cases ds <;> simp [lastOf, List.getLast?_cons]

theorem writeLoop_enc : ∀ (ms : List (Msg × Order)) (w w' : NWriter D) (e : Option Err),
    w.writeLoop C ms = .val (e, w') → w'.enc = w.enc := by
  intro ms
  induction ms with
  | nil => intro w w' e h; cases h; rfl
  | cons x ms ih =>
    intro w w' e h
    obtain ⟨m, ord⟩ := x
    unfold NWriter.writeLoop at h
    repeat' split at h
    all_goals first
      | (cases h; rfl)
      | (cases h)
      | exact (ih _ _ _ h :)

/-- The machine, and the calls one after the other. -/
structure WInv (w0 : NWriter D) (ops : List NOp) (s : WState D) : Prop where
  idle : s.phase = .idle → ∃ rs, NWriter.run C ops w0 = .val (rs, s.w) ∧ s.results = answers ops rs
  busy : ∀ enc ms, s.phase = .writing enc ms → ∃ h all ds rs wb,
    ops = h ++ .msgs all :: sets ds ∧ NWriter.run C h w0 = .val (rs, wb) ∧ s.results = answers h rs ∧ wb.lines.err = none ∧
    enc = wb.enc ∧ s.w.enc = lastOf ds wb.enc ∧
    ∀ x, NWriter.writeLoop C ms { s.w with enc := enc } = .val x → NWriter.writeLoop C all wb = .val x

theorem winv_end {w0 : NWriter D} {ops : List NOp} {s : WState D} {enc : Codec} {ms : List (Msg × Order)} (inv : WInv C w0 ops s)
    (hp : s.phase = .writing enc ms) {e : Option Err} {w' : NWriter D}
    (hw : NWriter.writeLoop C ms { s.w with enc := enc } = .val (e, w')) :
    WInv C w0 ops ⟨{ w' with enc := s.w.enc }, .idle, s.results ++ [e]⟩ := by
  obtain ⟨h, all, ds, rs, wb, rfl, h1, h2, h3, h4, h5, h6⟩ := inv.busy _ _ hp
  refine ⟨fun _ => ?_, by intro _ _ hh; cases hh⟩
  have henc := writeLoop_enc C _ _ _ _ hw
  have h7 : NWriter.run C [.msgs all] wb = .val ([e], w') := by
    simp [NWriter.run, NWriter.step, NWriter.writeMsg, h3, h6 _ hw]
  obtain ⟨rd, h8, h9⟩ := nrun_sets C ds w'
  have h10 := nrun_append C h1 (nrun_append C h7 h8)
  refine ⟨rs ++ ([e] ++ rd), ?_, ?_⟩
  · simp only at henc
    rw [h5, ← h4, ← henc]
    simpa using h10
  · have hl := nrun_length C h1
    show s.results ++ [e] = _
    rw [answers_append hl, h2]
    simp [answers, h9]

theorem winv_step {w0 : NWriter D} {ops : List NOp} {s s' : WState D} {ev : WEv} (inv : WInv C w0 ops s)
    (hs : s.step C ev = some s') : WInv C w0 (ops ++ written [ev]) s' := by
  cases ev with
  | set d =>
    simp only [WState.step, Option.some.injEq] at hs
    subst hs
    refine ⟨fun hp => ?_, fun enc ms hp => ?_⟩
    · obtain ⟨rs, h1, h2⟩ := inv.idle hp
      have hl := nrun_length C h1
      refine ⟨rs ++ [none], nrun_append C h1 (by simp [written, NWriter.run, NWriter.step]), ?_⟩
      rw [answers_append hl]
      simp [written, answers, h2]
    · obtain ⟨h, all, ds, rs, wb, rfl, h1, h2, h3, h4, h5, h6⟩ := inv.busy _ _ hp
      exact ⟨h, all, ds ++ [d], rs, wb, by simp [written, sets], h1, h2, h3, h4, by simp [lastOf_snoc], h6⟩
  | other op =>
    simp only [WState.step] at hs
    cases hp : s.phase with
    | writing enc ms => simp only [hp] at hs; cases hs
    | idle =>
      obtain ⟨rs, h1, h2⟩ := inv.idle hp
      have hl := nrun_length C h1
      have go : ∀ {x : Option (WState D)}, x = some s' → (∀ y, op ≠ .setEncoder y) →
          x = (match s.w.step C op with
            | .val (e, w) => some { w := w, results := s.results ++ [e] }
            | _ => none) → WInv C w0 (ops ++ written [.other op]) s' := by
        intro x hx hne hm
        rw [hm] at hx
        split at hx
        · rename_i e w hw
          cases hx
          refine ⟨fun _ => ⟨rs ++ [e], nrun_append C h1 (by simp [written, NWriter.run, hw]), ?_⟩, fun enc ms hh => ?_⟩
          · rw [answers_append hl, h2]
            cases op <;> simp_all [written, answers]
          · simp at hh
        · cases hx
      cases op <;> simp only [hp] at hs
      case msgs => cases hs
      case setEncoder => cases hs
      all_goals exact go hs (by simp) rfl
  | call ms =>
    simp only [WState.step] at hs
    cases hp : s.phase with
    | writing enc ms => simp only [hp] at hs; cases hs
    | idle =>
      simp only [hp] at hs
      obtain ⟨rs, h1, h2⟩ := inv.idle hp
      have hl := nrun_length C h1
      split at hs
      · rename_i e he
        cases hs
        refine ⟨fun _ => ⟨rs ++ [some e], nrun_append C h1 (by simp [written, NWriter.run, NWriter.step, NWriter.writeMsg, he]), ?_⟩,
          fun enc ms hh => ?_⟩
        · rw [answers_append hl, h2]
          simp [written, answers]
        · simp at hh
      · rename_i he
        cases hs
        refine ⟨fun hh => by simp at hh, fun enc ms' hh => ?_⟩
        cases hh
        exact ⟨ops, ms, [], rs, s.w, by simp [written, sets], h1, h2, he, rfl, rfl, fun _ hx => hx⟩
  | msg =>
    simp only [WState.step] at hs
    have e0 : ops ++ written [.msg] = ops := by simp [written]
    rw [e0]
    have fin : ∀ {enc ms e w'}, s.phase = .writing enc ms → NWriter.writeLoop C ms { s.w with enc := enc } = .val (e, w') →
        s' = ⟨{ w' with enc := s.w.enc }, .idle, s.results ++ [e]⟩ → WInv C w0 ops s' :=
      fun hp hw he => he ▸ winv_end C inv hp hw
    split at hs
    · rename_i enc hp
      cases hs
      exact fin (w' := { s.w with enc := enc }) hp (by simp [NWriter.writeLoop]) rfl
    · rename_i enc m ord ms hp
      have step : ∀ l lw, runAll m s.w.onMessage = .accept → marshalTo enc ord [] m = .ok l → s.w.lines.writeLine C l = .val (none, lw) →
          WInv C w0 ops { s with w := { s.w with lines := lw }, phase := .writing enc ms } := by
        intro l lw ha hm hw
        refine ⟨fun hh => by simp at hh, fun enc' ms' hh => ?_⟩
        simp only [WPhase.writing.injEq] at hh
        obtain ⟨rfl, rfl⟩ := hh
        obtain ⟨h, all, ds, rs, wb, h0, h1, h2, h3, h4, h5, h6⟩ := inv.busy _ _ hp
        refine ⟨h, all, ds, rs, wb, h0, h1, h2, h3, h4, h5, fun x hx => h6 x ?_⟩
        simp only [NWriter.writeLoop, ha, hm, hw]
        exact hx
      split at hs
      · rename_i e he
        cases hs
        exact fin (w' := { s.w with enc := enc }) hp (by simp only [NWriter.writeLoop, he]) rfl
      · rename_i he
        cases hs
        exact fin (w' := { s.w with enc := enc }) hp (by simp only [NWriter.writeLoop, he]) rfl
      · rename_i ha
        split at hs
        · cases hs
        · rename_i e he
          cases hs
          exact fin (w' := { s.w with enc := enc }) hp (by simp only [NWriter.writeLoop, ha, he]) rfl
        · rename_i l hl
          split at hs
          · rename_i e lw hw
            cases hs
            exact fin (w' := { s.w with enc := enc, lines := lw }) hp (by simp only [NWriter.writeLoop, ha, hl, hw]) rfl
          · rename_i lw hw
            cases hs
            exact step l lw ha hl hw
          · cases hs
    · cases hs

theorem written_cons (e : WEv) (es : List WEv) : written (e :: es) = written [e] ++ written es := by
  cases e <;> simp [written]

/-- **C86, writing.** However `SetEncoder` calls of other goroutines and of callbacks are interleaved with the calls of a writer:
once all calls have returned, the results, the bytes that were sent and the encoder are those of the same calls made one after
the other, in the order in which they began. In particular each `WriteMsg` uses one encoder for all its messages. -/
theorem writer_linear (w0 : NWriter D) (es : List WEv) {s : WState D} (hr : WState.run C es { w := w0 } = some s)
    (hi : s.phase = .idle) :
    ∃ rs, NWriter.run C (written es) w0 = .val (rs, s.w) ∧ s.results = answers (written es) rs := by
  have main : ∀ (es : List WEv) (ops : List NOp) (s0 s1 : WState D), WInv C w0 ops s0 → WState.run C es s0 = some s1 →
      WInv C w0 (ops ++ written es) s1 := by
    intro es
    induction es with
    | nil => intro ops s0 s1 inv h; cases h; simpa [written] using inv
    | cons e es ih =>
      intro ops s0 s1 inv h
      unfold WState.run at h
      split at h
      · rename_i s' hs
        have := ih _ _ _ (winv_step C inv hs) h
        rw [List.append_assoc, ← written_cons] at this
        exact this
      · cases h
  have := (main es [] _ _ ⟨fun _ => ⟨[], rfl, rfl⟩, by intro _ _ h; cases h⟩ hr).idle hi
  simpa using this

end writing

/-! ## Reading -/

section reading

variable [HtmlEntities] {Z : Type} (I : Inflater Z) (left : Codec → Msg → Bytes → Msg)

/-- A use of the reader. -/
inductive SOp (Z : Type) where
  | set (d : Codec)
  | between (f : Reader Z → Reader Z)
  | read (cur : Option Msg) (arr : List Msg)

/-- Uses of the reader one after the other, with the results of the calls that read; `SetDecoder`, the line reader, `readMsgTo`. -/
inductive Seq : NReader Z → List (SOp Z) → List RawRet → NReader Z → Prop where
  | nil (r : NReader Z) : Seq r [] [] r
  | set {r r1 : NReader Z} {ops : List (SOp Z)} {xs : List RawRet} (d : Codec) : Seq r ops xs r1 → Seq r (ops ++ [.set d]) xs { r1 with dec := d }
  | between {r r1 : NReader Z} {ops : List (SOp Z)} {xs : List RawRet} (f : Reader Z → Reader Z) : Seq r ops xs r1 →
      Seq r (ops ++ [.between f]) xs { r1 with lines := f r1.lines }
  | read {r r1 r2 : NReader Z} {ops : List (SOp Z)} {xs : List RawRet} (cur : Option Msg) (arr : List Msg) {fuel : Nat} {e : Option Err} {st : St} :
      Seq r ops xs r1 → NReader.loop I left fuel 0 r1 (r1.start cur arr) = .val (e, st, r2) →
      Seq r (ops ++ [.read cur arr]) (xs ++ [(e, st.cur, st.arr, st.hit)]) r2

/-- The uses of the reader in the order in which they begin. -/
def used : List (REv Z) → List (SOp Z)
  | [] => []
  | .set d :: es => .set d :: used es
  | .between f :: es => .between f :: used es
  | .call cur arr :: es => .read cur arr :: used es
  | .line _ :: es => used es
  | .store :: es => used es

/-- The result of a round with another decoder to be stored. -/
def mapR (f : Codec → Codec) : Round → Round
  | .ret e st => .ret e { st with rdec := f st.rdec }
  | .again st => .again { st with rdec := f st.rdec }
  | .panic => .panic

omit [HtmlEntities] in
theorem put_rdec (st : St) (m : Msg) (c : Codec) : St.put { st with rdec := c } m = { St.put st m with rdec := c } := by
  unfold St.put
  simp only
  split
  · rfl
  · split <;> rfl

omit [HtmlEntities] in
theorem put_rdec_eq (st : St) (m : Msg) : (St.put st m).rdec = st.rdec := by
  unfold St.put
  split
  · rfl
  · split <;> rfl

omit [HtmlEntities] in
theorem targetCmd_rdec (st : St) (typ args : Bytes) (c : Codec) :
    targetCmd { st with rdec := c } typ args = (targetCmd st typ args).map fun x => (x.1, { x.2 with rdec := c }) := by
  obtain ⟨dec, rdec, cur, arr, hit⟩ := st
  unfold targetCmd
  simp only
  cases arr with
  | nil =>
    simp only
    cases cur with
    | none => rfl
    | some m => simp only; split <;> (try split) <;> rfl
  | cons a as =>
    simp only
    cases pick (fun m => m.isRaw || m.typ = typ) (a :: as) 0 with
    | none => rfl
    | some x => simp only; split <;> (try split) <;> rfl

omit [HtmlEntities] in
theorem targetChat_rdec (st : St) (args : Bytes) (c : Codec) :
    targetChat { st with rdec := c } args = (targetChat st args).map fun x => (x.1, { x.2 with rdec := c }) := by
  obtain ⟨dec, rdec, cur, arr, hit⟩ := st
  unfold targetChat
  simp only
  cases arr with
  | nil =>
    simp only
    cases cur with
    | none => rfl
    | some m => simp only; split <;> rfl
  | cons a as =>
    simp only
    cases pick (fun m => m.isRaw || m.isChat) (a :: as) 0 with
    | none => rfl
    | some x => simp only; split <;> rfl

omit [HtmlEntities] in
theorem targetCmd_keeps {st st' : St} {typ args : Bytes} {m : Msg} (h : targetCmd st typ args = .ok (m, st')) : st'.rdec = st.rdec := by
  have := targetCmd_rdec st typ args st.rdec
  rw [show ({ st with rdec := st.rdec } : St) = st from rfl, h] at this
  simp only [Except.map, Except.ok.injEq, Prod.mk.injEq, true_and] at this
  rw [this]

omit [HtmlEntities] in
theorem targetChat_keeps {st st' : St} {args : Bytes} {m : Msg} (h : targetChat st args = .ok (m, st')) : st'.rdec = st.rdec := by
  have := targetChat_rdec st args st.rdec
  rw [show ({ st with rdec := st.rdec } : St) = st from rfl, h] at this
  simp only [Except.map, Except.ok.injEq, Prod.mk.injEq, true_and] at this
  rw [this]

omit [HtmlEntities] in
theorem afterDecode_rdec (env : Env) (l : Bytes) (err : Option Err) (out : Msg) (st : St) (c : Codec) :
    afterDecode env l err out { st with rdec := c } = mapR (fun _ => c) (afterDecode env l err out st) := by
  unfold afterDecode
  split
  · split
    · rfl
    · split <;> rfl
  · split <;> rfl

theorem decodeInto_rdec (env : Env) (l args : Bytes) (out : Msg) (st : St) (hn : st.rdec = none) (c : Codec) :
    decodeInto env left l args out { st with rdec := c } = mapR (·.or c) (decodeInto env left l args out st) := by
  have aft : ∀ (err : Option Err) (o : Msg) (s : St) (x : Codec), s.rdec = x →
      afterDecode env l err o { s with rdec := x.or c } = mapR (·.or c) (afterDecode env l err o s) := by
    intro err o s x hx
    rw [afterDecode_rdec]
    have : afterDecode env l err o s = mapR (fun _ => x) (afterDecode env l err o s) := by
      rw [← afterDecode_rdec, ← hx]
    rw [this]
    cases afterDecode env l err o s <;> rfl
  have try_ : ∀ (dec : Codec) (o : Msg) (a : Bytes) (s : St) (x : Codec),
      tryUnmarshal left dec o a { s with rdec := x } = (tryUnmarshal left dec o a s).map fun y => (y.1, y.2.1, { y.2.2 with rdec := x }) := by
    intro dec o a s x
    unfold tryUnmarshal
    split <;> simp [put_rdec]
  have tryk : ∀ (dec : Codec) (o : Msg) (a : Bytes) (s : St) y, tryUnmarshal left dec o a s = some y → y.2.2.rdec = s.rdec := by
    intro dec o a s y h
    unfold tryUnmarshal at h
    split at h <;> cases h <;> exact put_rdec_eq _ _
  unfold decodeInto
  rw [try_]
  simp only
  cases h1 : tryUnmarshal left st.dec out args st with
  | none => rfl
  | some y =>
    obtain ⟨err, o1, s1⟩ := y
    have hs1 : s1.rdec = none := (tryk _ _ _ _ _ h1).trans hn
    simp only [Option.map_some]
    have none_case : afterDecode env l err o1 { s1 with rdec := c } = mapR (·.or c) (afterDecode env l err o1 s1) := by
      have := aft err o1 s1 none hs1
      simpa using this
    unfold fallback
    cases env.unknownEnc with
    | none => exact none_case
    | some f =>
      simp only
      cases err with
      | none => exact none_case
      | some e =>
        by_cases he : ∃ text, e = .unknownEncoding text
        · obtain ⟨text, rfl⟩ := he
          simp only
          cases f text with
          | error e => simp [mapR, hs1]
          | ok d =>
            cases d with
            | none =>
              simp only
              have h2 := try_ none o1 (mapRunes args) { s1 with dec := none } c
              simp only at h2
              rw [h2]
              cases h3 : tryUnmarshal left none o1 (mapRunes args) { s1 with dec := none } with
              | none => rfl
              | some y =>
                have := tryk _ _ _ _ _ h3
                have := aft y.1 y.2.1 y.2.2 none (this.trans hs1)
                simpa using this
            | some d =>
              simp only
              have h2 := try_ (some d) o1 args { s1 with dec := some d, rdec := some d } (some d)
              simp only at h2
              cases h3 : tryUnmarshal left (some d) o1 args { s1 with dec := some d, rdec := some d } with
              | none => rfl
              | some y =>
                obtain ⟨e2, o2, d2, x2, c2, a2, t2⟩ := y
                have hx : x2 = some d := tryk _ _ _ _ _ h3
                subst hx
                exact aft e2 o2 ⟨d2, some d, c2, a2, t2⟩ (some d) rfl
        · cases e with
          | unknownEncoding text => exact absurd ⟨text, rfl⟩ he
          | _ => exact none_case

theorem roundBody_rdec (env : Env) (mx : Int) (body : Bytes) (st : St) (hn : st.rdec = none) (c : Codec) :
    roundBody env left mx body { st with rdec := c } = mapR (·.or c) (roundBody env left mx body st) := by
  have hself : ∀ s : St, s.rdec = none → ({ s with rdec := s.rdec.or c } : St) = { s with rdec := c } := by
    intro s hs; simp [hs]
  unfold roundBody
  cases body with
  | nil => simp [mapR, hn]
  | cons b line =>
    simp only
    by_cases hb : b = c!"$"
    · rw [if_pos hb, if_pos hb]
      split
      · simp [mapR, hn]
      · simp [mapR, hn]
      · split
        · rw [targetCmd_rdec]
          cases ht : targetCmd st (splitCmd line).1 (splitCmd line).2 with
          | error e => simp [Except.map, mapR, hn]
          | ok x => exact decodeInto_rdec left _ _ _ _ _ ((targetCmd_keeps ht).trans hn) c
        · simp [mapR, hn]
    · rw [if_neg hb, if_neg hb]
      split
      · simp [mapR, hn]
      · simp [mapR, hn]
      · rw [targetChat_rdec]
        cases ht : targetChat st (b :: line) with
        | error e => simp [Except.map, mapR, hn]
        | ok x => exact decodeInto_rdec left _ _ _ _ _ ((targetChat_keeps ht).trans hn) c

/-- A round does not use the decoder that is stored in the reader. -/
theorem round_rdec (env : Env) (mx : Int) (res : Bytes × Option Err) (st : St) (hn : st.rdec = none) (c : Codec) :
    round env left mx res { st with rdec := c } = mapR (·.or c) (round env left mx res st) := by
  unfold round
  split
  · simp [mapR, hn]
  · split
    · simp [mapR, hn]
    · split
      · simp [mapR, hn]
      · split
        · split <;> simp [mapR, hn]
        · exact roundBody_rdec left _ _ _ _ hn c

/-- A round stores a decoder only if the callback returns one. -/
def NoSwitch (env : Env) : Prop := ∀ f, env.unknownEnc = some f → ∀ text d, f text ≠ .ok (some d)

/-- The decoder to be stored after a round. -/
def Keeps (c : Codec) : Round → Prop
  | .ret _ st => st.rdec = c
  | .again st => st.rdec = c
  | .panic => True

omit [HtmlEntities] in
theorem afterDecode_keeps (env : Env) (l : Bytes) (err : Option Err) (out : Msg) (st : St) :
    Keeps st.rdec (afterDecode env l err out st) := by
  unfold afterDecode
  split
  · split
    · rfl
    · split <;> rfl
  · split <;> rfl

theorem decodeInto_keeps {env : Env} (he : NoSwitch env) (l args : Bytes) (out : Msg) (st : St) :
    Keeps st.rdec (decodeInto env left l args out st) := by
  have tryk : ∀ (dec : Codec) (o : Msg) (a : Bytes) (s : St) y, tryUnmarshal left dec o a s = some y → y.2.2.rdec = s.rdec := by
    intro dec o a s y h
    unfold tryUnmarshal at h
    split at h <;> cases h <;> exact put_rdec_eq _ _
  unfold decodeInto
  split
  · trivial
  · rename_i err o1 s1 h1
    have hs1 : s1.rdec = st.rdec := tryk _ _ _ _ _ h1
    rw [← hs1]
    split
    · trivial
    · rename_i e s2 h2
      unfold fallback at h2
      split at h2
      · split at h2
        · cases h2; rfl
        · simp at h2
        · simp at h2
      · cases h2
    · rename_i err2 o2 s2 h2
      have : s2.rdec = s1.rdec := by
        unfold fallback at h2
        split at h2
        · rename_i f text hf
          split at h2
          · cases h2
          · simp only [Option.map_eq_some_iff] at h2
            obtain ⟨y, h3, h4⟩ := h2
            cases h4
            exact tryk _ _ _ _ _ h3
          · rename_i d hd
            exact absurd hd (he f hf _ _)
        · cases h2; rfl
      rw [← this]
      exact afterDecode_keeps _ _ _ _ _

theorem round_keeps {env : Env} (he : NoSwitch env) (mx : Int) (res : Bytes × Option Err) (st : St) :
    Keeps st.rdec (round env left mx res st) := by
  unfold round
  split
  · rfl
  · split
    · rfl
    · split
      · rfl
      · split
        · split <;> rfl
        · unfold roundBody
          split
          · rfl
          · split
            · split
              split
              · rfl
              · rfl
              · split
                · split
                  · rfl
                  · rename_i st' ht
                    rw [← targetCmd_keeps ht]
                    exact decodeInto_keeps left he _ _ _ _
                · rfl
            · split
              · rfl
              · rfl
              · split
                · rfl
                · rename_i st' ht
                  rw [← targetChat_keeps ht]
                  exact decodeInto_keeps left he _ _ _ _

/-! ### A call in progress -/

theorem loop_le {f g k : Nat} {r : NReader Z} {st : St} {x} (h : NReader.loop I left f k r st = .val x) (hle : f ≤ g) :
    NReader.loop I left g k r st = .val x := by
  induction g with
  | zero => rw [show f = 0 by omega] at h; exact h
  | succ g ih =>
    by_cases he : f = g + 1
    · rw [← he]; exact h
    · rcases ConnTotal.nloop_mono I left g k r st with h1 | h1
      · rw [ih (by omega)] at h1; cases h1
      · rw [← h1]; exact ih (by omega)

omit [HtmlEntities] in
theorem line_le {f g : Nat} {r : Reader Z} {x} (h : r.readLine I f = .val x) (hle : f ≤ g) : r.readLine I g = .val x := by
  induction g with
  | zero => rw [show f = 0 by omega] at h; exact h
  | succ g ih =>
    by_cases he : f = g + 1
    · rw [← he]; exact h
    · rcases readLine_mono I g r with h1 | h1
      · rw [ih (by omega)] at h1; cases h1
      · rw [← h1]; exact ih (by omega)

/-- The call that began with the reader `rb` is before its `k`-th line; `c` is what it would have stored if nobody interfered. -/
def Prog (rb : NReader Z) (cur : Option Msg) (arr : List Msg) (k : Nat) (r : NReader Z) (st : St) (c : Codec) : Prop :=
  ∀ fuel x, NReader.loop I left fuel k { r with dec := c } { st with rdec := c } = .val x →
    ∃ fuel', NReader.loop I left fuel' 0 rb (rb.start cur arr) = .val x

theorem prog_start (rb r : NReader Z) (cur : Option Msg) (arr : List Msg) (d : Codec) (h : rb = { r with dec := d }) :
    Prog I left rb cur arr 0 r { rb.start cur arr with rdec := none } d := by
  subst h
  intro fuel x hx
  exact ⟨fuel, hx⟩

theorem prog_again {rb r : NReader Z} {cur : Option Msg} {arr : List Msg} {k : Nat} {st st' : St} {c : Codec} (h : Prog I left rb cur arr k r st c)
    (hn : st.rdec = none) {fuel : Nat} {res : Bytes × Option Err} {lr : Reader Z} (hl : r.lines.readLine I fuel = .val (res, lr))
    (hx : round (r.env k) left r.maxCmdName res st = .again st') (d : Codec) :
    Prog I left rb cur arr (k + 1) { r with lines := lr, dec := d } { st' with rdec := none } (st'.rdec.or c) := by
  intro f x hf
  refine h (max fuel f + 1) x ?_
  rw [NReader.loop]
  simp only [line_le I hl (Nat.le_max_left fuel f)]
  rw [round_rdec left (r.env k) r.maxCmdName res st hn c, hx]
  exact loop_le I left hf (Nat.le_max_right fuel f)

theorem prog_ret {rb r : NReader Z} {cur : Option Msg} {arr : List Msg} {k : Nat} {st st' : St} {c : Codec} {e : Option Err}
    (h : Prog I left rb cur arr k r st c)
    (hn : st.rdec = none) {fuel : Nat} {res : Bytes × Option Err} {lr : Reader Z} (hl : r.lines.readLine I fuel = .val (res, lr))
    (hx : round (r.env k) left r.maxCmdName res st = .ret e st') :
    ∃ fuel', NReader.loop I left fuel' 0 rb (rb.start cur arr) =
      .val (e, { st' with rdec := st'.rdec.or c }, { r with lines := lr, dec := st'.rdec.or c }) := by
  refine h (fuel + 1) _ ?_
  rw [NReader.loop]
  simp only [hl]
  rw [round_rdec left (r.env k) r.maxCmdName res st hn c, hx]
  rfl

/-- A call in progress, from the state `rb` of the reader. -/
def Busy (rb : NReader Z) (cur : Option Msg) (arr : List Msg) (c : Codec) (s : RState Z) : Prop :=
  (∃ k st, s.phase = .reading k st ∧ st.rdec = none ∧ Prog I left rb cur arr k s.r st c) ∨
  (∃ k r st fuel res lr, s.phase = .decoded k (round (r.env k) left r.maxCmdName res st) ∧ st.rdec = none ∧
    Prog I left rb cur arr k r st c ∧ r.lines.readLine I fuel = .val (res, lr) ∧ s.r = { r with lines := lr, dec := s.r.dec })

theorem busy_set {rb : NReader Z} {cur : Option Msg} {arr : List Msg} {c : Codec} {s : RState Z} (h : Busy I left rb cur arr c s) (d : Codec) :
    Busy I left rb cur arr c { s with r := { s.r with dec := d } } := by
  rcases h with ⟨k, st, h1, h2, h3⟩ | ⟨k, r, st, fuel, res, lr, h1, h2, h3, h4, h5⟩
  · exact .inl ⟨k, st, h1, h2, h3⟩
  · refine .inr ⟨k, r, st, fuel, res, lr, h1, h2, h3, h4, ?_⟩
    simp only
    rw [h5]

theorem busy_not_idle {rb : NReader Z} {cur : Option Msg} {arr : List Msg} {c : Codec} {s : RState Z} (h : Busy I left rb cur arr c s) :
    s.phase ≠ .idle := by
  rcases h with ⟨k, st, h1, -⟩ | ⟨k, r, st, fuel, res, lr, h1, -⟩ <;> simp [h1]

/-- A step of the goroutine that reads, in a call: it goes on, or it ends with the result the call would have had. -/
theorem busy_step {rb : NReader Z} {cur : Option Msg} {arr : List Msg} {c : Codec} {s s' : RState Z} (h : Busy I left rb cur arr c s)
    {ev : REv Z} (hev : ∀ d, ev ≠ .set d) (hs : s.step I left ev = some s') :
    ((∀ cur arr, ev ≠ .call cur arr) ∧ ∀ f, ev ≠ .between f) ∧ s'.r.env = s.r.env ∧
    ((s'.results = s.results ∧ ∃ x, s'.r.dec = x.or s.r.dec ∧ Busy I left rb cur arr (x.or c) s' ∧
        ((∀ k, NoSwitch (s.r.env k)) → x = none)) ∨
     (s'.phase = .idle ∧ ∃ fuel e st x, NReader.loop I left fuel 0 rb (rb.start cur arr) = .val (e, st, { s'.r with dec := x.or c }) ∧
        s'.results = s.results ++ [(e, st.cur, st.arr, st.hit)] ∧ s'.r.dec = x.or s.r.dec ∧
        ((∀ k, NoSwitch (s.r.env k)) → x = none))) := by
  cases ev with
  | set d => exact absurd rfl (hev d)
  | between f =>
    have := busy_not_idle I left h
    simp [RState.step] at hs
  | call cur' arr' =>
    have := busy_not_idle I left h
    simp [RState.step] at hs
  | line fuel =>
    refine ⟨⟨by simp, by simp⟩, ?_⟩
    simp only [RState.step] at hs
    rcases h with ⟨k, st, h1, h2, h3⟩ | ⟨k, r, st, fuel, res, lr, h1, h2, h3, h4, h5⟩
    · simp only [h1] at hs
      split at hs
      · rename_i res lr hl
        cases hs
        refine ⟨rfl, .inl ⟨rfl, none, by simp, ?_, fun _ => rfl⟩⟩
        exact .inr ⟨k, s.r, st, fuel, res, lr, rfl, h2, h3, hl, rfl⟩
      · cases hs
    · simp [h1] at hs
  | store =>
    refine ⟨⟨by simp, by simp⟩, ?_⟩
    simp only [RState.step] at hs
    rcases h with ⟨k, st, h1, h2, h3⟩ | ⟨k, r, st, fuel, res, lr, h1, h2, h3, h4, h5⟩
    · simp [h1] at hs
    · simp only [h1] at hs
      have henv : s.r.env = r.env := by rw [h5]
      have kp : (∀ k, NoSwitch (s.r.env k)) → Keeps none (round (r.env k) left r.maxCmdName res st) := by
        intro hn
        have := round_keeps left (henv ▸ hn k) r.maxCmdName res st
        rwa [h2] at this
      unfold RState.finish at hs
      cases hx : round (r.env k) left r.maxCmdName res st with
      | panic => simp [hx] at hs
      | again st' =>
        simp only [hx, Option.some.injEq] at hs
        subst hs
        refine ⟨rfl, .inl ⟨rfl, st'.rdec, rfl, ?_, fun hn => ?_⟩⟩
        · refine .inl ⟨k + 1, { st' with rdec := none }, rfl, rfl, ?_⟩
          have := prog_again I left h3 h2 h4 hx (st'.rdec.or s.r.dec)
          simp only
          rw [h5]
          exact this
        · have := kp hn; rw [hx] at this; exact this
      | ret e st' =>
        simp only [hx, Option.some.injEq] at hs
        subst hs
        refine ⟨rfl, .inr ⟨rfl, ?_⟩⟩
        obtain ⟨fuel', hf⟩ := prog_ret I left h3 h2 h4 hx
        refine ⟨fuel', e, { st' with rdec := st'.rdec.or c }, st'.rdec, ?_, rfl, rfl, fun hn => ?_⟩
        · rw [hf]
          simp only
          rw [h5]
        · have := kp hn; rw [hx] at this; exact this

/-! ### Each call by itself -/

/-- A call, made by itself with the decoder that it has found. -/
def loaded (s : RState Z) : REv Z → List (SOp Z)
  | .call cur arr => [.set s.r.dec, .read cur arr]
  | .between f => [.between f]
  | _ => []

/-- The calls as they would be made one after the other: each finds the decoder it has loaded. -/
def loads : List (REv Z) → RState Z → List (SOp Z)
  | [], _ => []
  | e :: es, s =>
    match s.step I left e with
    | none => []
    | some s' =>
      loaded s e ++ loads es s'

/-- The machine, and the calls one after the other. -/
structure IInv (r0 : NReader Z) (ops : List (SOp Z)) (s : RState Z) : Prop where
  idle : s.phase = .idle → ∃ r', Seq I left r0 ops s.results r' ∧ s.r = { r' with dec := s.r.dec }
  busy : s.phase ≠ .idle → ∃ h d cur arr rb c, ops = h ++ [.set d] ++ [.read cur arr] ∧ Seq I left r0 (h ++ [.set d]) s.results rb ∧
    Busy I left rb cur arr c s

theorem iinv_step {r0 : NReader Z} {ops : List (SOp Z)} {s s' : RState Z} {ev : REv Z} (inv : IInv I left r0 ops s)
    (hs : s.step I left ev = some s') : IInv I left r0 (ops ++ loads I left [ev] s) s' := by
  have hl : loads I left [ev] s = loaded s ev := by
    simp only [loads, hs, List.append_nil]
  rw [hl]
  by_cases hp : s.phase = .idle
  · obtain ⟨r', h1, h2⟩ := inv.idle hp
    cases ev with
    | set d =>
      simp only [RState.step, Option.some.injEq] at hs
      subst hs
      refine ⟨fun _ => ⟨r', by simpa [loaded] using h1, ?_⟩, fun hh => absurd hp hh⟩
      simp only
      rw [h2]
    | between f =>
      simp only [RState.step, hp, Option.some.injEq] at hs
      subst hs
      refine ⟨fun _ => ⟨_, .between f h1, ?_⟩, fun hh => by simp at hh⟩
      simp only
      rw [h2]
    | call cur arr =>
      simp only [RState.step, hp, Option.some.injEq] at hs
      subst hs
      refine ⟨fun hh => by simp at hh, fun _ => ?_⟩
      refine ⟨ops, s.r.dec, cur, arr, _, s.r.dec, by simp [loaded], .set s.r.dec h1, .inl ⟨0, _, rfl, rfl, ?_⟩⟩
      have e : s.r = { r' with dec := s.r.dec } := h2
      have := prog_start I left s.r s.r cur arr s.r.dec rfl
      rw [← e]
      exact this
    | line fuel => simp [RState.step, hp] at hs
    | store => simp [RState.step, hp] at hs
  · obtain ⟨h, d, cur, arr, rb, c, rfl, h1, h2⟩ := inv.busy hp
    by_cases hset : ∃ d', ev = .set d'
    · obtain ⟨d', rfl⟩ := hset
      simp only [RState.step, Option.some.injEq] at hs
      subst hs
      refine ⟨fun hh => absurd hh hp, fun _ => ?_⟩
      exact ⟨h, d, cur, arr, rb, c, by simp [loaded], h1, busy_set I left h2 d'⟩
    · obtain ⟨⟨n1, n2⟩, -, hb⟩ := busy_step I left h2 (fun d' hd => hset ⟨d', hd⟩) hs
      have e0 : loaded s ev = [] := by
        unfold loaded
        split
        · exact absurd rfl (n1 _ _)
        · exact absurd rfl (n2 _)
        · rfl
      rw [e0, List.append_nil]
      rcases hb with ⟨hres, x, -, hx, -⟩ | ⟨hidle, fuel, e, st, x, hloop, hres, -, -⟩
      · have hne := busy_not_idle I left hx
        exact ⟨fun hh => absurd hh hne, fun _ => ⟨h, d, cur, arr, rb, _, rfl, hres ▸ h1, hx⟩⟩
      · have hq := Seq.read cur arr h1 hloop
        rw [← hres] at hq
        exact ⟨fun _ => ⟨{ s'.r with dec := x.or c }, hq, rfl⟩, fun hh => absurd hidle hh⟩

theorem loads_cons {e : REv Z} {es : List (REv Z)} {s s' : RState Z} (h : s.step I left e = some s') :
    loads I left (e :: es) s = loads I left [e] s ++ loads I left es s' := by
  simp [loads, h]

/-- **C86, reading.** However `SetDecoder` calls of other goroutines and of callbacks are interleaved with the calls of a reader:
every call returns what it returns when nobody interferes with it, and uses the decoder that it found when it began. -/
theorem calls_isolated (r0 : NReader Z) (es : List (REv Z)) {s : RState Z} (hr : RState.run I left es { r := r0 } = some s)
    (hi : s.phase = .idle) :
    ∃ r', Seq I left r0 (loads I left es { r := r0 }) s.results r' ∧ s.r = { r' with dec := s.r.dec } := by
  have main : ∀ (es : List (REv Z)) (ops : List (SOp Z)) (s0 s1 : RState Z), IInv I left r0 ops s0 → RState.run I left es s0 = some s1 →
      IInv I left r0 (ops ++ loads I left es s0) s1 := by
    intro es
    induction es with
    | nil => intro ops s0 s1 inv h; cases h; simpa [loads] using inv
    | cons e es ih =>
      intro ops s0 s1 inv h
      unfold RState.run at h
      split at h
      · rename_i s' hs
        have := ih _ _ _ (iinv_step I left inv hs) h
        rw [List.append_assoc, ← loads_cons I left hs] at this
        exact this
      · cases h
  have := (main es [] _ _ ⟨fun _ => ⟨r0, .nil r0, rfl⟩, fun h => by simp at h⟩ hr).idle hi
  simpa using this

/-! ### All calls together -/

/-- The machine, and the calls one after the other, if no call stores a decoder. -/
structure LInv (r0 : NReader Z) (ops : List (SOp Z)) (s : RState Z) : Prop where
  env : s.r.env = r0.env
  idle : s.phase = .idle → Seq I left r0 ops s.results s.r
  busy : s.phase ≠ .idle → ∃ h ds cur arr rb, ops = h ++ [.read cur arr] ++ ds.map .set ∧ Seq I left r0 h s.results rb ∧
    Busy I left rb cur arr rb.dec s ∧ s.r.dec = lastOf ds rb.dec

theorem seq_sets {r r' : NReader Z} {ops : List (SOp Z)} {xs : List RawRet} (h : Seq I left r ops xs r') (ds : List Codec) :
    Seq I left r (ops ++ ds.map .set) xs { r' with dec := lastOf ds r'.dec } := by
  induction ds generalizing ops r' with
  | nil => simpa [lastOf] using h
  | cons d ds ih =>
    have := ih (.set d h)
    simp only [List.append_assoc, List.cons_append, List.nil_append] at this
    cases ds <;> simpa [lastOf, List.getLast?_cons] using this

theorem linv_step {r0 : NReader Z} (hn : ∀ k, NoSwitch (r0.env k)) {ops : List (SOp Z)} {s s' : RState Z} {ev : REv Z} (inv : LInv I left r0 ops s)
    (hs : s.step I left ev = some s') : LInv I left r0 (ops ++ used [ev]) s' := by
  by_cases hp : s.phase = .idle
  · have h1 := inv.idle hp
    cases ev with
    | set d =>
      simp only [RState.step, Option.some.injEq] at hs
      subst hs
      exact ⟨inv.env, fun _ => .set d h1, fun hh => absurd hp hh⟩
    | between f =>
      simp only [RState.step, hp, Option.some.injEq] at hs
      subst hs
      exact ⟨inv.env, fun _ => .between f h1, fun hh => by simp at hh⟩
    | call cur arr =>
      simp only [RState.step, hp, Option.some.injEq] at hs
      subst hs
      refine ⟨inv.env, fun hh => by simp at hh, fun _ => ?_⟩
      exact ⟨ops, [], cur, arr, s.r, by simp [used], h1, .inl ⟨0, _, rfl, rfl, prog_start I left s.r s.r cur arr s.r.dec rfl⟩, rfl⟩
    | line fuel => simp [RState.step, hp] at hs
    | store => simp [RState.step, hp] at hs
  · obtain ⟨h, ds, cur, arr, rb, rfl, h1, h2, h3⟩ := inv.busy hp
    by_cases hset : ∃ d', ev = .set d'
    · obtain ⟨d', rfl⟩ := hset
      simp only [RState.step, Option.some.injEq] at hs
      subst hs
      refine ⟨inv.env, fun hh => absurd hh hp, fun _ => ?_⟩
      exact ⟨h, ds ++ [d'], cur, arr, rb, by simp [used], h1, busy_set I left h2 d', by simp [lastOf_snoc]⟩
    · obtain ⟨⟨n1, n2⟩, henv, hb⟩ := busy_step I left h2 (fun d' hd => hset ⟨d', hd⟩) hs
      have e0 : (used [ev] : List (SOp Z)) = [] := by
        cases ev with
        | set d => exact absurd ⟨d, rfl⟩ hset
        | call cur arr => exact absurd rfl (n1 _ _)
        | between f => exact absurd rfl (n2 _)
        | line => rfl
        | store => rfl
      rw [e0, List.append_nil]
      have hn' : ∀ k, NoSwitch (s.r.env k) := by rw [inv.env]; exact hn
      rcases hb with ⟨hres, x, hd, hx, hz⟩ | ⟨hidle, fuel, e, st, x, hloop, hres, hd, hz⟩
      · have hne := busy_not_idle I left hx
        cases hz hn'
        exact ⟨henv.trans inv.env, fun hh => absurd hh hne, fun _ => ⟨h, ds, cur, arr, rb, rfl, hres ▸ h1, hx, by simpa [h3] using hd⟩⟩
      · cases hz hn'
        refine ⟨henv.trans inv.env, fun _ => ?_, fun hh => absurd hidle hh⟩
        have := seq_sets I left (.read cur arr h1 hloop) ds
        rw [← hres] at this
        simp only [Option.none_or] at this hd
        rw [h3] at hd
        rw [← hd] at this
        exact this

omit [HtmlEntities] in
theorem used_cons (e : REv Z) (es : List (REv Z)) : used (e :: es) = used [e] ++ used es := by
  cases e <;> simp [used]

/-- **C86, reading.** If the `OnUnknownEncoding` callback returns no decoders, or there is none: the results, the state of the reader
and its decoder are those of the same calls made one after the other, in the order in which they began. -/
theorem reader_linear (r0 : NReader Z) (hn : ∀ k, NoSwitch (r0.env k)) (es : List (REv Z)) {s : RState Z}
    (hr : RState.run I left es { r := r0 } = some s) (hi : s.phase = .idle) : Seq I left r0 (used es) s.results s.r := by
  have main : ∀ (es : List (REv Z)) (ops : List (SOp Z)) (s0 s1 : RState Z), LInv I left r0 ops s0 → RState.run I left es s0 = some s1 →
      LInv I left r0 (ops ++ used es) s1 := by
    intro es
    induction es with
    | nil => intro ops s0 s1 inv h; cases h; simpa [used] using inv
    | cons e es ih =>
      intro ops s0 s1 inv h
      unfold RState.run at h
      split at h
      · rename_i s' hs
        have := ih _ _ _ (linv_step I left hn inv hs) h
        rw [List.append_assoc, ← used_cons] at this
        exact this
      · cases h
  have := (main es [] _ _ ⟨rfl, fun _ => .nil r0, fun h => by simp at h⟩ hr).idle hi
  simpa using this

/-! ### The calls of the interface -/

/-- `ReadMsg` is `.read none []`. -/
theorem raw_readMsg {fuel : Nat} {r r' : NReader Z} {e : Option Err} {st : St}
    (h : NReader.loop I left fuel 0 r (r.start none []) = .val (e, st, r')) :
    r.readMsg I left fuel = .val (e.elim (.ok st.cur) .error, r') := by
  unfold NReader.readMsg
  rw [h]
  cases e <;> rfl

/-- `ReadMsgTo(m)` is `.read (some m) []`. -/
theorem raw_readMsgTo {fuel : Nat} {r r' : NReader Z} {m : Msg} {e : Option Err} {st : St}
    (h : NReader.loop I left fuel 0 r (r.start (some m) []) = .val (e, st, r')) :
    r.readMsgTo I left fuel (some m) = .val (e, st.cur, r') := by
  simp only [NReader.readMsgTo, h]

/-- `ReadMsgToAny(m, ms...)` is `.read none (m :: ms)`. -/
theorem raw_readMsgToAny {fuel : Nat} {r r' : NReader Z} {m : Msg} {ms : List Msg} {e : Option Err} {st : St}
    (h : NReader.loop I left fuel 0 r (r.start none (m :: ms)) = .val (e, st, r')) :
    r.readMsgToAny I left fuel (m :: ms) = .val (e.elim (.ok st.hit) .error, st.arr, r') := by
  unfold NReader.readMsgToAny
  simp only [h]
  cases e <;> rfl

theorem seq_set_inv {r r' : NReader Z} {ops : List (SOp Z)} {d : Codec} {xs : List RawRet} (h : Seq I left r (ops ++ [.set d]) xs r') :
    ∃ r1, Seq I left r ops xs r1 ∧ r' = { r1 with dec := d } := by
  generalize hl : ops ++ [.set d] = l at h
  cases h with
  | nil => simp at hl
  | set d' h =>
    obtain ⟨rfl, h2⟩ := List.append_inj' hl rfl
    cases h2
    exact ⟨_, h, rfl⟩
  | between f h => exact absurd (List.append_inj' hl rfl).2 (by simp)
  | read cur arr h hl' => exact absurd (List.append_inj' hl rfl).2 (by simp)

theorem seq_read_inv {r r' : NReader Z} {ops : List (SOp Z)} {cur : Option Msg} {arr : List Msg} {xs : List RawRet}
    (h : Seq I left r (ops ++ [.read cur arr]) xs r') :
    ∃ r1 ys fuel e st, Seq I left r ops ys r1 ∧ NReader.loop I left fuel 0 r1 (r1.start cur arr) = .val (e, st, r') ∧
      xs = ys ++ [(e, st.cur, st.arr, st.hit)] := by
  generalize hl : ops ++ [.read cur arr] = l at h
  cases h with
  | nil => simp at hl
  | set d' h => exact absurd (List.append_inj' hl rfl).2 (by simp)
  | between f h => exact absurd (List.append_inj' hl rfl).2 (by simp)
  | read cur arr h hl' =>
    obtain ⟨rfl, h2⟩ := List.append_inj' hl rfl
    cases h2
    exact ⟨_, _, _, _, _, h, hl', rfl⟩

end reading

/-! ## Examples -/

section examples

attribute [local instance] basicEntities

/-- A decoder that replaces the byte `0xE9`. -/
def repl (x : Byte) : Bytes → Option Bytes := fun s => some (s.map fun b => if b = 0xE9 then x else b)

theorem repl_ne : (some (repl c!"E") : Codec) ≠ some (repl c!"e") := by
  intro h
  have := congrFun (Option.some.inj h) [0xE9]
  revert this
  decide

/-- A reader in an unknown encoding, for which the callback returns a decoder. -/
def shared : NReader Bool :=
  { newNReader [⟨[0xE9] ++ b!"|", none⟩] with env := fun _ => { unknownEnc := some fun _ => .ok (some (repl c!"E")) } }

/-- The same without the callback. -/
def plain : NReader Bool := { newNReader [⟨b!"|" ++ [0xE9] ++ b!"|" ++ [0xE9] ++ b!"|", none⟩] with dec := some (repl c!"E") }

/-- The hypotheses of `reader_linear` are met: two `SetDecoder` calls during a `ReadMsg`, whose message still is decoded with the
decoder that was there when it began, and a second `ReadMsg`. -/
example : ∃ s, RState.run LineReader.toy (fun _ m _ => m) [.call none [], .line 10, .set (some (repl c!"e")), .store, .line 10, .set (some (repl c!"x")), .store,
      .call none [], .line 10, .store] { r := plain } = some s ∧ s.phase = .idle ∧
    s.results = [(none, some (.chat { name := [], text := b!"E" }), [], none), (none, some (.chat { name := [], text := b!"x" }), [], none)] ∧
    ∀ k, NoSwitch (plain.env k) :=
  ⟨_, rfl, rfl, rfl, fun _ _ h => by cases h⟩

/-- A `SetDecoder` during a call that meets an unknown encoding. -/
def race : List (REv Bool) := [.call none [], .line 10, .set (some (repl c!"e")), .store]

/-- **Finding.** `SetDecoder` in another goroutine is lost if at the same time `ReadMsg` stores the decoder that it got from
`OnUnknownEncoding`, although that callback was asked about a text for which the new decoder was meant: neither order of the two
calls has this result. So the condition of `reader_linear` cannot be dropped. -/
theorem lost_update : ∃ s, RState.run LineReader.toy (fun _ m _ => m) race { r := shared } = some s ∧ s.phase = .idle ∧
    s.results = [(none, some (.chat { name := [], text := b!"E" }), [], none)] ∧ s.r.dec = some (repl c!"E") ∧
    ¬ Seq LineReader.toy (fun _ m _ => m) shared [.read none [], .set (some (repl c!"e"))] s.results s.r ∧
    ¬ Seq LineReader.toy (fun _ m _ => m) shared [.set (some (repl c!"e")), .read none []] s.results s.r := by
  refine ⟨_, rfl, rfl, rfl, rfl, fun h => ?_, fun h => ?_⟩
  · obtain ⟨r1, -, he⟩ := seq_set_inv _ _ (ops := [.read none []]) h
    exact repl_ne (congrArg NReader.dec he)
  · obtain ⟨r1, ys, fuel, e, st, h1, h2, h3⟩ := seq_read_inv _ _ (ops := [.set (some (repl c!"e"))]) h
    obtain ⟨r0, h4, rfl⟩ := seq_set_inv _ _ (ops := []) h1
    have h5 : r0 = shared := by
      generalize hl : ([] : List (SOp Bool)) = l at h4
      cases h4 with
      | nil => rfl
      | set => simp at hl
      | between => simp at hl
      | read => simp at hl
    subst h5
    have h6 := loop_le _ _ h2 (Nat.le_max_left fuel 10)
    have h7 : NReader.loop LineReader.toy (fun _ m _ => m) 10 0 { shared with dec := some (repl c!"e") }
        (NReader.start { shared with dec := some (repl c!"e") } none []) = .val (none, ⟨some (repl c!"e"), some (repl c!"e"), some (.chat { name := [], text := b!"e" }), [], none⟩, _) := rfl
    have h8 := (loop_le _ _ h7 (Nat.le_max_right fuel 10)).symm.trans h6
    simp only [Exec.val.injEq, Prod.mk.injEq] at h8
    exact repl_ne (congrArg NReader.dec h8.2.2).symm

/-- `SetEncoder` during a `WriteMsg` of two messages: both are written with the encoder that was there when it began. -/
example : ∃ s, WState.run LineWriter.stored [.call [(.chat { name := [], text := [0xE9] }, id), (.chat { name := [], text := [0xE9] }, id)], .msg,
      .set (some (repl c!"e")), .msg, .msg, .call [(.chat { name := [], text := [0xE9] }, id)], .msg, .msg, .other .flush]
      { w := { newNWriter 0 [] ⟨[], []⟩ with enc := some (repl c!"E") } } = some s ∧ s.phase = .idle ∧ s.w.lines.sink.sent = b!"E|E|e|" :=
  ⟨_, rfl, rfl, by decide⟩

end examples

end Verif.Props.NmdcShared
