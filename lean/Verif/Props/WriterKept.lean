import Verif.Spec.Kept
import Verif.Props.LineWriter

/-!
# How much of what is written a writer keeps back (C93)
-/

namespace Verif.Props.WriterKept

open Verif.Lineproto Verif.Spec.Kept

variable {D : Type} (C : Deflater D)

/-- A writer without compression and hooks that has sent `sent` and keeps back `held`. -/
structure At (w : Writer D) (cap : Nat) (sent held : Bytes) : Prop where
  curZ : w.curZ = false
  zlibOn : w.zlibOn = false
  bw : w.bw = some ⟨cap, held, none⟩
  sink : w.sink.sent = sent
  hooks : w.onLine = []
  fits : held.length ≤ cap

theorem curWrite_at {w w' : Writer D} {cap : Nat} {sent held p : Bytes} {n : Nat} {e : Option Err} (h : At w cap sent held)
    (hc : w.curWrite C p = .val ((n, e), w')) :
    (e = none → n = p.length ∧ At w' cap (sent ++ p) held) ∧ w'.bw = w.bw := by
  unfold Writer.curWrite at hc
  rw [h.curZ] at hc
  simp only [Bool.false_eq_true, if_false] at hc
  rcases Sink.write_cases p w.sink with ⟨s', h1, h2⟩ | ⟨m, e', s', h1, -, h2⟩
  · rw [h1] at hc
    simp only [Exec.val.injEq, Prod.mk.injEq] at hc
    obtain ⟨⟨rfl, rfl⟩, rfl⟩ := hc
    exact ⟨fun _ => ⟨rfl, ⟨rfl, h.zlibOn, h.bw, by rw [← h.sink]; exact h2, h.hooks, h.fits⟩⟩, rfl⟩
  · rw [h1] at hc
    simp only [Exec.val.injEq, Prod.mk.injEq] at hc
    obtain ⟨⟨rfl, rfl⟩, rfl⟩ := hc
    exact ⟨fun h => (nomatch h), rfl⟩

theorem bwFlush_at {w w' : Writer D} {cap : Nat} {sent held : Bytes} {e : Option Err} (h : At w cap sent held)
    (hf : w.bwFlush C = .val (e, w')) :
    (e = none → At w' cap (sent ++ held) []) ∧ (e ≠ none → ∃ b, w'.bw = some b ∧ b.berr = e) := by
  unfold Writer.bwFlush at hf
  rw [h.bw] at hf
  simp only at hf
  by_cases hh : held = []
  · rw [if_pos hh] at hf
    simp only [Exec.val.injEq, Prod.mk.injEq] at hf
    obtain ⟨rfl, rfl⟩ := hf
    subst hh
    exact ⟨fun _ => by rw [List.append_nil]; exact h, fun h => absurd rfl h⟩
  · rw [if_neg hh] at hf
    cases hc : w.curWrite C held with
    | panic => rw [hc] at hf; cases hf
    | timeout => rw [hc] at hf; cases hf
    | val x =>
      obtain ⟨⟨n, e1⟩, w1⟩ := x
      obtain ⟨g1, -⟩ := curWrite_at C h hc
      rw [hc] at hf
      simp only at hf
      cases e1 with
      | some e1 =>
        simp only [reduceCtorEq, and_false, if_false, Exec.val.injEq, Prod.mk.injEq] at hf
        obtain ⟨rfl, rfl⟩ := hf
        exact ⟨fun h => (nomatch h), fun _ => ⟨_, rfl, rfl⟩⟩
      | none =>
        obtain ⟨rfl, g⟩ := g1 rfl
        simp only [Nat.lt_irrefl, false_and, if_false, Exec.val.injEq, Prod.mk.injEq] at hf
        obtain ⟨rfl, rfl⟩ := hf
        exact ⟨fun _ => ⟨g.curZ, g.zlibOn, rfl, g.sink, g.hooks, by simp⟩, fun h => absurd rfl h⟩

/-- The loop when nothing is kept back. -/
theorem loop_empty {w w' : Writer D} {cap fuel : Nat} {sent p p' : Bytes} {b : BW} (h : At w cap sent [])
    (hl : w.bwLoop C (fuel + 2) p = .val (p', w')) (hb : w'.bw = some b) (he : b.berr = none) :
    if p.length ≤ cap then p' = p ∧ At w' cap sent [] else p' = [] ∧ At w' cap (sent ++ p) [] := by
  rw [Writer.bwLoop, h.bw] at hl
  simp only [List.length_nil, Nat.sub_zero, and_true, if_true] at hl
  by_cases hp : p.length ≤ cap
  · rw [if_pos hp]
    rw [if_neg (by omega)] at hl
    simp only [Exec.val.injEq, Prod.mk.injEq] at hl
    obtain ⟨rfl, rfl⟩ := hl
    exact ⟨rfl, h⟩
  · rw [if_neg hp]
    rw [if_pos (by omega)] at hl
    cases hc : w.curWrite C p with
    | panic => rw [hc] at hl; cases hl
    | timeout => rw [hc] at hl; cases hl
    | val x =>
      obtain ⟨⟨n, e1⟩, w1⟩ := x
      obtain ⟨g1, -⟩ := curWrite_at C h hc
      rw [hc] at hl
      simp only [Writer.bwLoop] at hl
      cases e1 with
      | some e1 =>
        simp only [reduceCtorEq, and_false, if_false, Exec.val.injEq, Prod.mk.injEq] at hl
        obtain ⟨rfl, rfl⟩ := hl
        cases hb
        cases he
      | none =>
        obtain ⟨rfl, g⟩ := g1 rfl
        simp only [List.drop_length, List.length_nil, Nat.not_lt_zero, false_and, if_false, Exec.val.injEq, Prod.mk.injEq] at hl
        obtain ⟨rfl, rfl⟩ := hl
        exact ⟨rfl, g.curZ, g.zlibOn, rfl, g.sink, g.hooks, by simp⟩

theorem bwWrite_at {w w' : Writer D} {cap : Nat} {sent held p : Bytes} (h : At w cap sent held)
    (hw : w.bwWrite C p = .val (none, w')) :
    ∃ sent' held', At w' cap sent' held' ∧ sent' ++ held' = sent ++ held ++ p ∧ held'.length = after cap held.length (.line p) := by
  unfold Writer.bwWrite at hw
  cases hl : w.bwLoop C (p.length + 3) p with
  | panic => rw [hl] at hw; cases hw
  | timeout => rw [hl] at hw; cases hw
  | val x =>
    obtain ⟨p', w1⟩ := x
    rw [hl] at hw
    simp only at hw
    cases hb : w1.bw with
    | none => rw [hb] at hw; cases hw
    | some b =>
      rw [hb] at hw
      simp only at hw
      cases he : b.berr with
      | some e => rw [he] at hw; cases hw
      | none =>
        rw [he] at hw
        simp only [Exec.val.injEq, Prod.mk.injEq, true_and] at hw
        subst hw
        -- what the loop leaves
        have key : ∀ {s hd q : Bytes}, At w1 cap s hd → p' = q → hd.length + q.length ≤ cap →
            At { w1 with bw := some { size := b.size, buf := b.buf ++ p', berr := none } } cap s (hd ++ q) := by
          intro s hd q g hq hf
          subst hq
          have := g.bw
          rw [hb] at this
          cases this
          exact ⟨g.curZ, g.zlibOn, rfl, g.sink, g.hooks, by simpa using hf⟩
        by_cases hh : held = []
        · subst hh
          have := loop_empty C (fuel := p.length + 1) h hl hb he
          by_cases hp : p.length ≤ cap
          · rw [if_pos hp] at this
            exact ⟨sent, [] ++ p, key this.2 this.1 (by simpa using hp), by simp, by simp [after, hp]⟩
          · rw [if_neg hp] at this
            exact ⟨sent ++ p, [] ++ [], key this.2 this.1 (by simp), by simp, by simp [after, hp]⟩
        · have h0 : held.length ≠ 0 := by simpa using hh
          have hcap := h.fits
          by_cases hf : held.length + p.length ≤ cap
          · rw [Writer.bwLoop, h.bw] at hl
            simp only [and_true] at hl
            rw [if_neg (by omega)] at hl
            simp only [Exec.val.injEq, Prod.mk.injEq] at hl
            obtain ⟨rfl, rfl⟩ := hl
            exact ⟨sent, held ++ p, key h rfl hf, by simp, by simp [after, hf]⟩
          · rw [Writer.bwLoop, h.bw] at hl
            simp only [and_true] at hl
            rw [if_pos (by omega), if_neg hh] at hl
            have hAt : At { w with bw := some ⟨cap, held ++ p.take (cap - held.length), none⟩ } cap sent (held ++ p.take (cap - held.length)) :=
              ⟨h.curZ, h.zlibOn, rfl, h.sink, h.hooks, by rw [List.length_append, List.length_take]; omega⟩
            cases hfl : Writer.bwFlush C { w with bw := some ⟨cap, held ++ p.take (cap - held.length), none⟩ } with
            | panic => rw [hfl] at hl; cases hl
            | timeout => rw [hfl] at hl; cases hl
            | val y =>
              obtain ⟨e2, w2⟩ := y
              obtain ⟨f1, f2⟩ := bwFlush_at C hAt hfl
              rw [hfl] at hl
              simp only at hl
              cases e2 with
              | some e2 =>
                obtain ⟨b2, hb2, hbe⟩ := f2 (by simp)
                rw [Writer.bwLoop, hb2] at hl
                simp only [hbe, reduceCtorEq, and_false, if_false, Exec.val.injEq, Prod.mk.injEq] at hl
                obtain ⟨rfl, rfl⟩ := hl
                rw [hb2] at hb
                cases hb
                rw [hbe] at he
                cases he
              | none =>
                have := loop_empty C (fuel := p.length) (f1 rfl) hl hb he
                have hlen : (p.drop (cap - held.length)).length = held.length + p.length - cap := by rw [List.length_drop]; omega
                have hp : p.take (cap - held.length) ++ p.drop (cap - held.length) = p := List.take_append_drop _ _
                by_cases hq : held.length + p.length - cap ≤ cap
                · rw [if_pos (by omega)] at this
                  refine ⟨_, [] ++ p.drop (cap - held.length), key this.2 this.1 (by rw [hlen]; simpa using hq), ?_, ?_⟩
                  · rw [List.nil_append, List.append_assoc, List.append_assoc, hp, List.append_assoc]
                  · rw [List.nil_append, hlen, after, if_neg hf, if_neg h0, if_pos hq]
                · rw [if_neg (by omega)] at this
                  refine ⟨_, [] ++ [], key this.2 this.1 (by simp), ?_, ?_⟩
                  · rw [List.append_nil, List.append_nil, List.append_assoc, List.append_assoc, hp, List.append_assoc]
                  · rw [after, if_neg hf, if_neg h0, if_neg hq]; rfl

theorem timeout_at {w : Writer D} {cap : Nat} {sent held : Bytes} (h : At w cap sent held) : At w.timeout.2 cap sent held := by
  obtain ⟨ts, hts⟩ := timeout_spec w
  rw [hts]
  exact ⟨h.curZ, h.zlibOn, h.bw, h.sink, h.hooks, h.fits⟩

theorem flush_at {w w' : Writer D} {cap : Nat} {sent held : Bytes} (h : At w cap sent held) (hf : w.flush C = .val (none, w')) :
    At w' cap (sent ++ held) [] := by
  unfold Writer.flush at hf
  cases he : w.err with
  | some e => rw [he] at hf; cases hf
  | none =>
    rw [he] at hf
    simp only at hf
    have ht := timeout_at h
    cases hto : w.timeout with
    | mk te w1 =>
      rw [hto] at hf ht
      simp only at ht
      cases te with
      | some e => cases hf
      | none =>
        simp only at hf
        cases hb : w1.bwFlush C with
        | panic => rw [hb] at hf; cases hf
        | timeout => rw [hb] at hf; cases hf
        | val x =>
          obtain ⟨e2, w2⟩ := x
          rw [hb] at hf
          cases e2 with
          | some e => cases hf
          | none =>
            have g := (bwFlush_at C ht hb).1 rfl
            simp only at hf
            rw [g.zlibOn] at hf
            simp only [Bool.false_eq_true, if_false, Exec.val.injEq, Prod.mk.injEq, true_and] at hf
            subst hf
            exact g

/-- One successful call. -/
theorem step_at {w w' : Writer D} {cap : Nat} {sent held : Bytes} {op : WOp} {n : Nat} (hop : Sends op) (h : At w cap sent held)
    (hs : w.step C op = .val ((n, none), w')) :
    ∃ sent' held', At w' cap sent' held' ∧ sent' ++ held' = sent ++ held ++ given op ∧ held'.length = after cap held.length op := by
  cases op with
  | onLine f => cases hop
  | enable l => cases hop
  | disable => cases hop
  | close => cases hop
  | line l =>
    unfold Writer.step at hs
    simp only at hs
    cases hw : w.writeLine C l with
    | panic => rw [hw] at hs; cases hs
    | timeout => rw [hw] at hs; cases hs
    | val x =>
      obtain ⟨e, w1⟩ := x
      rw [hw] at hs
      simp only [Exec.val.injEq, Prod.mk.injEq] at hs
      obtain ⟨⟨-, rfl⟩, rfl⟩ := hs
      unfold Writer.writeLine at hw
      cases he : w.err with
      | some e => rw [he] at hw; cases hw
      | none =>
        rw [he, h.hooks] at hw
        simp only [runHooks] at hw
        have ht := timeout_at h
        cases hto : w.timeout with
        | mk te w2 =>
          rw [hto] at hw ht
          simp only at ht
          cases te with
          | some e => cases hw
          | none =>
            simp only at hw
            cases hb : w2.bwWrite C l with
            | panic => rw [hb] at hw; cases hw
            | timeout => rw [hb] at hw; cases hw
            | val y =>
              obtain ⟨e3, w3⟩ := y
              rw [hb] at hw
              cases e3 with
              | some e => cases hw
              | none =>
                simp only [Exec.val.injEq, Prod.mk.injEq, true_and] at hw
                subst hw
                exact bwWrite_at C ht hb
  | flush =>
    unfold Writer.step at hs
    simp only at hs
    cases hw : w.flush C with
    | panic => rw [hw] at hs; cases hs
    | timeout => rw [hw] at hs; cases hs
    | val x =>
      obtain ⟨e, w1⟩ := x
      rw [hw] at hs
      simp only [Exec.val.injEq, Prod.mk.injEq] at hs
      obtain ⟨⟨-, rfl⟩, rfl⟩ := hs
      exact ⟨_, [], flush_at C h hw, by simp [given], rfl⟩
  | write p =>
    unfold Writer.step at hs
    simp only at hs
    unfold Writer.write at hs
    cases he : w.err with
    | some e => rw [he] at hs; cases hs
    | none =>
      rw [he, h.bw] at hs
      simp only at hs
      by_cases hh : held = []
      · subst hh
        simp only [ne_eq, not_true_eq_false, if_false] at hs
        obtain ⟨-, g⟩ := (curWrite_at C h hs).1 rfl
        exact ⟨_, [], g, by simp [given], rfl⟩
      · rw [if_pos hh] at hs
        cases hw : w.flush C with
        | panic => rw [hw] at hs; cases hs
        | timeout => rw [hw] at hs; cases hs
        | val x =>
          obtain ⟨e, w1⟩ := x
          rw [hw] at hs
          cases e with
          | some e => cases hs
          | none =>
            obtain ⟨-, g⟩ := (curWrite_at C (flush_at C h hw) hs).1 rfl
            exact ⟨_, [], g, by simp [given], rfl⟩

theorem run_at {ops : List WOp} : ∀ {w w' : Writer D} {cap : Nat} {sent held : Bytes} {rs}, (∀ op ∈ ops, Sends op) → At w cap sent held →
    Writer.run C ops w = .val (rs, w') → (∀ r ∈ rs, r.2 = none) →
    ∃ sent' held', At w' cap sent' held' ∧ sent' ++ held' = sent ++ held ++ ops.flatMap given ∧ held'.length = ops.foldl (after cap) held.length := by
  induction ops with
  | nil =>
    intro w w' cap sent held rs _ h hr _
    simp only [Writer.run, Exec.val.injEq, Prod.mk.injEq] at hr
    obtain ⟨-, rfl⟩ := hr
    exact ⟨sent, held, h, by simp, rfl⟩
  | cons op ops ih =>
    intro w w' cap sent held rs hops h hr hrs
    rw [Writer.run] at hr
    cases hs : w.step C op with
    | panic => rw [hs] at hr; cases hr
    | timeout => rw [hs] at hr; cases hr
    | val x =>
      obtain ⟨⟨n, e⟩, w1⟩ := x
      rw [hs] at hr
      simp only at hr
      cases hr1 : Writer.run C ops w1 with
      | panic => rw [hr1] at hr; cases hr
      | timeout => rw [hr1] at hr; cases hr
      | val y =>
        obtain ⟨rs1, w2⟩ := y
        rw [hr1] at hr
        simp only [Exec.val.injEq, Prod.mk.injEq] at hr
        obtain ⟨rfl, rfl⟩ := hr
        have he : e = none := hrs (n, e) (by simp)
        subst he
        obtain ⟨s1, h1, g1, g2, g3⟩ := step_at C (hops op (by simp)) h hs
        obtain ⟨s2, h2, k1, k2, k3⟩ := ih (fun o ho => hops o (by simp [ho])) g1 hr1 (fun r hr => hrs r (by simp [hr]))
        exact ⟨s2, h2, k1, by rw [k2, g2]; simp, by rw [k3, g3]; rfl⟩

/-- **C93.** After any lines, flushes and raw writes that all succeeded, the transport has got all that was given but the last `kept` bytes. -/
theorem kept_back (size : Int) (tmo : List (Option Err)) (script : List SEv) (ops : List WOp) (hops : ∀ op ∈ ops, Sends op) {rs} {w : Writer D}
    (hr : Writer.run C ops (newWriter size tmo ⟨[], script⟩) = .val (rs, w)) (hrs : ∀ r ∈ rs, r.2 = none) :
    w.sink.sent = (ops.flatMap given).take ((ops.flatMap given).length - kept (capacity size) ops) ∧
      kept (capacity size) ops ≤ (ops.flatMap given).length ∧ kept (capacity size) ops ≤ capacity size := by
  have h0 : At (newWriter size tmo ⟨[], script⟩ : Writer D) (capacity size) [] [] := by
    refine ⟨rfl, rfl, ?_, rfl, rfl, by simp⟩
    by_cases hs : 0 < size
    · simp [newWriter, capacity, hs, show ¬ size ≤ 0 by omega]
    · simp [newWriter, capacity, hs, show size ≤ 0 by omega]
  obtain ⟨s, hd, g1, g2, g3⟩ := run_at C hops h0 hr hrs
  have hk : hd.length = kept (capacity size) ops := g3
  rw [List.nil_append, List.nil_append] at g2
  rw [← hk, ← g2, g1.sink, List.length_append]
  exact ⟨by rw [Nat.add_sub_cancel, List.take_left], by omega, g1.fits⟩

theorem foldl_small (cap : Nat) (ls : List Bytes) : ∀ held, held + ls.flatten.length ≤ cap →
    (ls.map WOp.line).foldl (after cap) held = held + ls.flatten.length := by
  induction ls with
  | nil => intro held _; simp
  | cons l ls ih =>
    intro held h
    simp only [List.flatten_cons, List.length_append] at h ⊢
    simp only [List.map_cons, List.foldl_cons]
    rw [show after cap held (.line l) = held + l.length by rw [after, if_pos (by omega)], ih _ (by omega)]
    omega

/-- Lines that fit into the buffer are not sent before they are flushed. -/
theorem small_kept (size : Int) (tmo : List (Option Err)) (script : List SEv) (ls : List Bytes) (hl : ls.flatten.length ≤ capacity size)
    {rs} {w : Writer D} (hr : Writer.run C (ls.map .line) (newWriter size tmo ⟨[], script⟩) = .val (rs, w)) (hrs : ∀ r ∈ rs, r.2 = none) :
    w.sink.sent = [] := by
  have hg : (ls.map WOp.line).flatMap given = ls.flatten := by
    rw [List.flatMap_map]
    simp [given, List.flatMap_def]
  obtain ⟨h, -, -⟩ := kept_back C size tmo script _ (by intro op ho; obtain ⟨l, -, rfl⟩ := List.mem_map.mp ho; trivial) hr hrs
  rw [h, hg, kept, foldl_small _ _ 0 (by omega)]
  simp

/-- Lines that do not fit into the buffer are sent at least in part, without a flush. -/
theorem large_sent (size : Int) (tmo : List (Option Err)) (script : List SEv) (ls : List Bytes) (hl : capacity size < ls.flatten.length)
    {rs} {w : Writer D} (hr : Writer.run C (ls.map .line) (newWriter size tmo ⟨[], script⟩) = .val (rs, w)) (hrs : ∀ r ∈ rs, r.2 = none) :
    w.sink.sent ≠ [] := by
  have hg : (ls.map WOp.line).flatMap given = ls.flatten := by
    rw [List.flatMap_map]
    simp [given, List.flatMap_def]
  obtain ⟨h, -, hk⟩ := kept_back C size tmo script _ (by intro op ho; obtain ⟨l, -, rfl⟩ := List.mem_map.mp ho; trivial) hr hrs
  rw [h, hg]
  intro h0
  have := congrArg List.length h0
  rw [List.length_take, List.length_nil] at this
  omega

/-! ### Examples -/

/-- A buffer of four bytes: after the second line it was filled and sent, and one byte is kept back. -/
example : ∃ rs w, Writer.run LineWriter.stored [.line b!"ab|", .line b!"c|"] (newWriter 4 [] ⟨[], []⟩) = .val (rs, w) ∧ (∀ r ∈ rs, r.2 = none) ∧
    w.sink.sent = b!"ab|c" ∧ kept (capacity 4) [.line b!"ab|", .line b!"c|"] = 1 :=
  ⟨_, _, rfl, by decide, by decide, by decide⟩

/-- A long line after a short one leaves nothing behind. -/
example : ∃ rs w, Writer.run LineWriter.stored [.line b!"a|", .line b!"0123456789|"] (newWriter 4 [] ⟨[], []⟩) = .val (rs, w) ∧ (∀ r ∈ rs, r.2 = none) ∧
    w.sink.sent = b!"a|0123456789|" ∧ kept (capacity 4) [.line b!"a|", .line b!"0123456789|"] = 0 :=
  ⟨_, _, rfl, by decide, by decide, by decide⟩

/-- A full buffer is not sent before the next line, and a raw write sends all. -/
example : kept (capacity 4) [.line b!"abc|"] = 4 ∧ kept (capacity 4) [.line b!"abc|", .write b!"x"] = 0 ∧ capacity 0 = 4096 ∧ capacity (-7) = 4096 := by
  decide

end Verif.Props.WriterKept
