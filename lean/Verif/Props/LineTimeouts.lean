import Verif.Lineproto.WriterTraceLemmas
import Verif.Props.LineWriter

/-!
# C88: the write deadline

The user of a line writer sets `Timeout`, "a callback to setup timeout on each write".  The theorems say
in which order `Timeout(true)`, `Timeout(false)` and the writes on the transport happen.
-/

namespace Verif.Props.LineTimeouts

open Verif Verif.Lineproto

/-! ## Specification -/

/-- The writes on the transport. -/
def writes : List TEv → List Bytes
  | [] => []
  | .put p :: l => p :: writes l
  | _ :: l => writes l

/-- How often `Timeout(true)` was called. -/
def arms : List TEv → Nat
  | [] => 0
  | .arm :: l => arms l + 1
  | _ :: l => arms l

/-- Every write happens while the deadline is on (`on`: it is on at the beginning). -/
def Guarded (on : Bool) : List TEv → Prop
  | [] => True
  | .arm :: l => Guarded true l
  | .disarm :: l => Guarded false l
  | .put _ :: l => on = true ∧ Guarded on l

/-- Whether the deadline is on at the end. -/
def deadline (on : Bool) : List TEv → Bool
  | [] => on
  | .arm :: l => deadline true l
  | .disarm :: l => deadline false l
  | .put _ :: l => deadline on l

/-- The calls that are meant for messages: `WriteLine`, `Flush`, `OnLine`, `EnableZlib`. -/
def Buffered : WOp → Prop
  | .line _ | .flush | .onLine _ | .enable _ => True
  | _ => False

/-! ## Auxiliary -/

theorem writes_append (l k : List TEv) : writes (l ++ k) = writes l ++ writes k := by
  induction l with
  | nil => rfl
  | cons e l ih => cases e <;> simp [writes, ih]

theorem arms_append (l k : List TEv) : arms (l ++ k) = arms l + arms k := by
  induction l with
  | nil => simp [arms]
  | cons e l ih => cases e <;> simp [arms, ih] <;> omega

theorem writes_put (ps : List Bytes) : writes (ps.map .put) = ps := by
  induction ps with
  | nil => rfl
  | cons p ps ih => simp [writes, ih]

theorem arms_put (ps : List Bytes) : arms (ps.map .put) = 0 := by
  induction ps with
  | nil => rfl
  | cons p ps ih => simp [arms, ih]

theorem guarded_put (ps : List Bytes) (l : List TEv) :
    Guarded true (ps.map .put ++ l) ↔ Guarded true l := by
  induction ps with
  | nil => simp
  | cons p ps ih => simp [Guarded, ih]

theorem deadline_put (b : Bool) (ps : List Bytes) (l : List TEv) :
    deadline b (ps.map .put ++ l) = deadline b l := by
  induction ps with
  | nil => simp
  | cons p ps ih => simp [deadline, ih]

theorem deadline_append (b : Bool) (l k : List TEv) :
    deadline b (l ++ k) = deadline (deadline b l) k := by
  induction l generalizing b with
  | nil => rfl
  | cons e l ih => cases e <;> simp [deadline, ih]

theorem guarded_append (b : Bool) (l k : List TEv) :
    Guarded b (l ++ k) ↔ Guarded b l ∧ Guarded (deadline b l) k := by
  induction l generalizing b with
  | nil => simp [Guarded, deadline]
  | cons e l ih => cases e <;> simp [Guarded, deadline, ih, and_assoc]

variable (C : Deflater D)

theorem timeout_frame {w w' : Writer D} {r} (h : w.timeout = (r, w')) :
    w'.sink = w.sink ∧ w'.tmo = w.tmo.drop 1 ∧ w'.err = w.err ∧ r = w.tmo.head?.join := by
  unfold Writer.timeout at h
  cases ht : w.tmo with
  | nil =>
    simp only [ht, Prod.mk.injEq] at h
    rcases h with ⟨rfl, rfl⟩
    simp [ht]
  | cons t ts =>
    simp only [ht, Prod.mk.injEq] at h
    rcases h with ⟨rfl, rfl⟩
    simp

/-- The shape of what `guarded` lists. -/
theorem guarded_shape (body : Writer D → List Bytes) (w : Writer D) :
    (w.tmo.head?.join = none → ∃ ps : List Bytes, w.guarded body = .arm :: (ps.map .put ++ [.disarm])) ∧
    (w.tmo.head?.join ≠ none → w.guarded body = [.arm]) := by
  unfold Writer.guarded
  rcases h : w.timeout with ⟨r, w'⟩
  have hf := timeout_frame h
  rw [← hf.2.2.2]
  cases r with
  | none => exact ⟨fun _ => ⟨_, rfl⟩, fun h => absurd rfl h⟩
  | some e => exact ⟨fun h => by simp at h, fun _ => rfl⟩

theorem flush_account {w w' : Writer D} {r} (h : w.flush C = .val (r, w')) :
    w'.sink = w.sink.puts (writes (w.flushLog C)) ∧
    w'.tmo = w.tmo.drop (arms (w.flushLog C)) := by
  unfold Writer.flush at h
  unfold Writer.flushLog
  cases he : w.err with
  | some e =>
    simp only [he, Exec.val.injEq, Prod.mk.injEq] at h
    rcases h with ⟨_, rfl⟩
    exact ⟨rfl, rfl⟩
  | none =>
    simp only [he] at h ⊢
    unfold Writer.guarded
    rcases ht : w.timeout with ⟨t, w1⟩
    have hf := timeout_frame ht
    rw [ht] at h
    cases t with
    | some e =>
      simp only [Exec.val.injEq, Prod.mk.injEq] at h
      rcases h with ⟨_, rfl⟩
      simp only [writes, arms]
      exact ⟨hf.1, hf.2.1⟩
    | none =>
      simp only at h ⊢
      simp only [writes, arms, writes_append, arms_append, writes_put, arms_put, List.append_nil]
      unfold Writer.flushBody
      cases hb : w1.bwFlush C with
      | panic => simp [hb] at h
      | timeout => simp [hb] at h
      | val x =>
        rcases x with ⟨r1, w2⟩
        have hp := bwFlush_puts C hb
        simp only [hb] at h ⊢
        cases r1 with
        | some e =>
          simp only [Exec.val.injEq, Prod.mk.injEq] at h
          rcases h with ⟨_, rfl⟩
          simp only [List.append_nil]
          exact ⟨by rw [← hf.1]; exact hp.1, by rw [hp.2]; exact hf.2.1⟩
        | none =>
          simp only at h ⊢
          rw [Sink.puts_append, ← hf.1, ← hp.1]
          have ht2 : w2.tmo = w.tmo.drop 1 := by rw [hp.2]; exact hf.2.1
          by_cases hz : w2.zlibOn = true
          · rw [if_pos hz] at h ⊢
            unfold Writer.zlibLog
            cases hzw : w2.zlibW with
            | none => simp [hzw] at h
            | some z =>
              simp only [hzw] at h ⊢
              have hcp := call_puts z C.flush w2.sink
              rcases hc : z.call C.flush w2.sink with ⟨e, z', s'⟩
              rw [hc] at h hcp
              cases e <;>
                (simp only [Exec.val.injEq, Prod.mk.injEq] at h
                 rcases h with ⟨_, rfl⟩
                 exact ⟨hcp, ht2⟩)
          · rw [if_neg hz] at h ⊢
            simp only [Exec.val.injEq, Prod.mk.injEq] at h
            rcases h with ⟨_, rfl⟩
            exact ⟨rfl, ht2⟩

theorem writeLine_account {w w' : Writer D} {l r} (h : w.writeLine C l = .val (r, w')) :
    w'.sink = w.sink.puts (writes (w.writeLineLog C l)) ∧
    w'.tmo = w.tmo.drop (arms (w.writeLineLog C l)) := by
  unfold Writer.writeLine at h
  unfold Writer.writeLineLog
  cases he : w.err with
  | some e =>
    simp only [he, Exec.val.injEq, Prod.mk.injEq] at h
    rcases h with ⟨_, rfl⟩
    exact ⟨rfl, rfl⟩
  | none =>
    simp only [he] at h ⊢
    cases hh : runHooks l w.onLine with
    | fail e =>
      simp only [hh, Exec.val.injEq, Prod.mk.injEq] at h
      rcases h with ⟨_, rfl⟩
      exact ⟨rfl, rfl⟩
    | drop =>
      simp only [hh, Exec.val.injEq, Prod.mk.injEq] at h
      rcases h with ⟨_, rfl⟩
      exact ⟨rfl, rfl⟩
    | accept =>
      simp only [hh] at h ⊢
      unfold Writer.guarded
      rcases ht : w.timeout with ⟨t, w1⟩
      have hf := timeout_frame ht
      rw [ht] at h
      cases t with
      | some e =>
        simp only [Exec.val.injEq, Prod.mk.injEq] at h
        rcases h with ⟨_, rfl⟩
        simp only [writes, arms]
        exact ⟨hf.1, hf.2.1⟩
      | none =>
        simp only at h ⊢
        simp only [writes, arms, writes_append, arms_append, writes_put, arms_put, List.append_nil]
        cases hb : w1.bwWrite C l with
        | panic => simp [hb] at h
        | timeout => simp [hb] at h
        | val x =>
          rcases x with ⟨r1, w2⟩
          have hp := bwWrite_puts C hb
          simp only [hb] at h
          cases r1 <;>
            (simp only [Exec.val.injEq, Prod.mk.injEq] at h
             rcases h with ⟨_, rfl⟩
             exact ⟨by rw [← hf.1]; exact hp.1, by rw [hp.2]; exact hf.2.1⟩)

theorem write_account {w w' : Writer D} {p r} (h : w.write C p = .val (r, w')) :
    w'.sink = w.sink.puts (writes (w.writeLog C p)) ∧
    w'.tmo = w.tmo.drop (arms (w.writeLog C p)) := by
  unfold Writer.write at h
  unfold Writer.writeLog
  cases he : w.err with
  | some e =>
    simp only [he, Exec.val.injEq, Prod.mk.injEq] at h
    rcases h with ⟨_, rfl⟩
    exact ⟨rfl, rfl⟩
  | none =>
    simp only [he] at h ⊢
    cases hb : w.bw with
    | none => simp [hb] at h
    | some b =>
      simp only [hb] at h ⊢
      by_cases hbuf : b.buf ≠ []
      · rw [if_pos hbuf] at h ⊢
        cases hfl : w.flush C with
        | panic => simp [hfl] at h
        | timeout => simp [hfl] at h
        | val x =>
          rcases x with ⟨r1, w1⟩
          have ha := flush_account C hfl
          simp only [hfl] at h ⊢
          cases r1 with
          | some e =>
            simp only [Exec.val.injEq, Prod.mk.injEq] at h
            rcases h with ⟨_, rfl⟩
            simp only [List.append_nil]
            exact ha
          | none =>
            simp only at h ⊢
            have hc := curWrite_puts C h
            rw [writes_append, arms_append, writes_put, arms_put, Sink.puts_append, ← ha.1]
            exact ⟨hc.1, by rw [hc.2, ha.2]; rfl⟩
      · rw [if_neg hbuf] at h ⊢
        have hc := curWrite_puts C h
        rw [writes_put, arms_put]
        exact ⟨hc.1, by rw [hc.2]; rfl⟩

theorem enable_account {w w' : Writer D} {lvl r} (h : w.enableZlib C lvl = .val (r, w')) :
    w'.sink = w.sink.puts (writes (w.enableZlibLog C)) ∧
    w'.tmo = w.tmo.drop (arms (w.enableZlibLog C)) := by
  unfold Writer.enableZlib at h
  unfold Writer.enableZlibLog
  cases he : w.err with
  | some e =>
    simp only [he, Exec.val.injEq, Prod.mk.injEq] at h
    rcases h with ⟨_, rfl⟩
    exact ⟨rfl, rfl⟩
  | none =>
    simp only [he] at h ⊢
    by_cases hz : w.zlibOn = true
    · rw [if_pos hz] at h ⊢
      simp only [Exec.val.injEq, Prod.mk.injEq] at h
      rcases h with ⟨_, rfl⟩
      exact ⟨rfl, rfl⟩
    · rw [if_neg hz] at h ⊢
      cases hfl : w.flush C with
      | panic => simp [hfl] at h
      | timeout => simp [hfl] at h
      | val x =>
        rcases x with ⟨r1, w1⟩
        have ha := flush_account C hfl
        simp only [hfl] at h
        cases r1 with
        | some e =>
          simp only [Exec.val.injEq, Prod.mk.injEq] at h
          rcases h with ⟨_, rfl⟩
          exact ha
        | none =>
          simp only at h
          split at h
          · simp only [Exec.val.injEq, Prod.mk.injEq] at h
            rcases h with ⟨_, rfl⟩
            exact ha
          · cases hn : C.new lvl <;>
              (simp only [hn, Exec.val.injEq, Prod.mk.injEq] at h
               rcases h with ⟨_, rfl⟩
               exact ha)

theorem disable_account {w w' : Writer D} {r} (h : w.disableZlib C = .val (r, w')) :
    w'.sink = w.sink.puts (writes (w.disableZlibLog C)) ∧
    w'.tmo = w.tmo.drop (arms (w.disableZlibLog C)) := by
  unfold Writer.disableZlib at h
  unfold Writer.disableZlibLog
  cases he : w.err with
  | some e =>
    simp only [he, Exec.val.injEq, Prod.mk.injEq] at h
    rcases h with ⟨_, rfl⟩
    exact ⟨rfl, rfl⟩
  | none =>
    simp only [he] at h ⊢
    by_cases hz : w.zlibOn = true
    · rw [if_pos hz] at h ⊢
      cases hb : w.bwFlush C with
      | panic => simp [hb] at h
      | timeout => simp [hb] at h
      | val x =>
        rcases x with ⟨r1, w1⟩
        have hp := bwFlush_puts C hb
        simp only [hb] at h ⊢
        rw [writes_append, arms_append, writes_put, arms_put, Sink.puts_append, ← hp.1]
        cases r1 with
        | some e =>
          simp only [Exec.val.injEq, Prod.mk.injEq] at h
          rcases h with ⟨_, rfl⟩
          exact ⟨rfl, hp.2⟩
        | none =>
          simp only at h ⊢
          unfold Writer.zlibLog
          cases hzw : w1.zlibW with
          | none => simp [hzw] at h
          | some z =>
            simp only [hzw] at h ⊢
            rw [writes_put, arms_put]
            have hcp := call_puts z C.close w1.sink
            rcases hc : z.call C.close w1.sink with ⟨e, z', s'⟩
            rw [hc] at h hcp
            cases e <;>
              (simp only [Exec.val.injEq, Prod.mk.injEq] at h
               rcases h with ⟨_, rfl⟩
               exact ⟨hcp, hp.2⟩)
    · rw [if_neg hz] at h ⊢
      simp only [Exec.val.injEq, Prod.mk.injEq] at h
      rcases h with ⟨_, rfl⟩
      exact ⟨rfl, rfl⟩

theorem close_account {w w' : Writer D} {r} (h : w.close C = .val (r, w')) :
    w'.sink = w.sink.puts (writes (w.closeLog C)) ∧
    w'.tmo = w.tmo.drop (arms (w.closeLog C)) := by
  unfold Writer.close at h
  unfold Writer.closeLog
  cases hb : w.bwFlush C with
  | panic => simp [hb] at h
  | timeout => simp [hb] at h
  | val x =>
    rcases x with ⟨r1, w1⟩
    have hp := bwFlush_puts C hb
    simp only [hb] at h ⊢
    rw [writes_append, arms_append, writes_put, arms_put, Sink.puts_append, ← hp.1]
    by_cases hz : w1.zlibOn = true
    · rw [if_pos hz] at h ⊢
      unfold Writer.zlibLog
      cases hzw : w1.zlibW with
      | none => simp [hzw] at h
      | some z =>
        simp only [hzw] at h ⊢
        rw [writes_put, arms_put]
        have hcp := call_puts z C.close w1.sink
        rcases hc : z.call C.close w1.sink with ⟨e, z', s'⟩
        rw [hc] at h hcp
        simp only [Exec.val.injEq, Prod.mk.injEq] at h
        rcases h with ⟨_, rfl⟩
        exact ⟨hcp, hp.2⟩
    · rw [if_neg hz] at h ⊢
      simp only [Exec.val.injEq, Prod.mk.injEq] at h
      rcases h with ⟨_, rfl⟩
      exact ⟨rfl, hp.2⟩

/-! ## The theorems -/

/-- The listed calls are the calls: after any call of the user the transport is what the listed writes
make of it, and `Timeout(true)` was asked as often as listed. -/
theorem calls_account (op : WOp) (w w' : Writer D) (r) (h : w.step C op = .val (r, w')) :
    w'.sink = (writes (w.stepLog C op)).foldl (fun s p => (s.write p).2) w.sink ∧
    w'.tmo = w.tmo.drop (arms (w.stepLog C op)) := by
  unfold Writer.step at h
  unfold Writer.stepLog
  cases op with
  | line l =>
    simp only at h ⊢
    cases hs : w.writeLine C l with
    | panic => simp [hs] at h
    | timeout => simp [hs] at h
    | val x =>
      rcases x with ⟨e, w1⟩
      simp only [hs, Exec.val.injEq, Prod.mk.injEq] at h
      rcases h with ⟨_, rfl⟩
      exact writeLine_account C hs
  | flush =>
    simp only at h ⊢
    cases hs : w.flush C with
    | panic => simp [hs] at h
    | timeout => simp [hs] at h
    | val x =>
      rcases x with ⟨e, w1⟩
      simp only [hs, Exec.val.injEq, Prod.mk.injEq] at h
      rcases h with ⟨_, rfl⟩
      exact flush_account C hs
  | write p => exact write_account C h
  | onLine k =>
    simp only [Exec.val.injEq, Prod.mk.injEq] at h
    rcases h with ⟨_, rfl⟩
    exact ⟨rfl, rfl⟩
  | enable lvl =>
    simp only at h ⊢
    cases hs : w.enableZlib C lvl with
    | panic => simp [hs] at h
    | timeout => simp [hs] at h
    | val x =>
      rcases x with ⟨e, w1⟩
      simp only [hs, Exec.val.injEq, Prod.mk.injEq] at h
      rcases h with ⟨_, rfl⟩
      exact enable_account C hs
  | disable =>
    simp only at h ⊢
    cases hs : w.disableZlib C with
    | panic => simp [hs] at h
    | timeout => simp [hs] at h
    | val x =>
      rcases x with ⟨e, w1⟩
      simp only [hs, Exec.val.injEq, Prod.mk.injEq] at h
      rcases h with ⟨_, rfl⟩
      exact disable_account C hs
  | close =>
    simp only at h ⊢
    cases hs : w.close C with
    | panic => simp [hs] at h
    | timeout => simp [hs] at h
    | val x =>
      rcases x with ⟨e, w1⟩
      simp only [hs, Exec.val.injEq, Prod.mk.injEq] at h
      rcases h with ⟨_, rfl⟩
      exact close_account C hs

theorem flush_shape (w : Writer D) :
    w.flushLog C = [] ∨
    (w.tmo.head?.join ≠ none ∧ w.flushLog C = [.arm]) ∨
    (w.tmo.head?.join = none ∧ ∃ ps : List Bytes, w.flushLog C = .arm :: (ps.map .put ++ [.disarm])) := by
  unfold Writer.flushLog
  cases w.err with
  | some e => exact .inl rfl
  | none =>
    have := guarded_shape (fun w => w.flushBody C) w
    by_cases ht : w.tmo.head?.join = none
    · exact .inr (.inr ⟨ht, this.1 ht⟩)
    · exact .inr (.inl ⟨ht, this.2 ht⟩)

/-- `WriteLine`, `Flush` and `EnableZlib` do nothing outside, or ask `Timeout(true)` and stop when it
fails, or ask `Timeout(true)`, write, and call `Timeout(false)` — also when they panic. -/
theorem buffered_shape (op : WOp) (hop : Buffered op) (w : Writer D) :
    w.stepLog C op = [] ∨
    (w.tmo.head?.join ≠ none ∧ w.stepLog C op = [.arm]) ∨
    (w.tmo.head?.join = none ∧ ∃ ps : List Bytes, w.stepLog C op = .arm :: (ps.map .put ++ [.disarm])) := by
  cases op with
  | line l =>
    simp only [Writer.stepLog, Writer.writeLineLog]
    cases w.err with
    | some e => exact .inl rfl
    | none =>
      cases runHooks l w.onLine with
      | fail e => exact .inl rfl
      | drop => exact .inl rfl
      | accept =>
        have := guarded_shape (fun w => w.bwWriteLog C l) w
        by_cases ht : w.tmo.head?.join = none
        · exact .inr (.inr ⟨ht, this.1 ht⟩)
        · exact .inr (.inl ⟨ht, this.2 ht⟩)
  | flush => exact flush_shape C w
  | onLine k => exact .inl rfl
  | enable lvl =>
    simp only [Writer.stepLog, Writer.enableZlibLog]
    cases w.err with
    | some e => exact .inl rfl
    | none =>
      by_cases hz : w.zlibOn = true
      · simp [hz]
      · simp only [hz]
        exact flush_shape C w
  | write p => exact absurd hop id
  | disable => exact absurd hop id
  | close => exact absurd hop id

/-- The log of any call leaves the deadline as follows. -/
theorem step_deadline (op : WOp) (w : Writer D) :
    deadline false (w.stepLog C op) = false ∨
    (w.tmo.head?.join ≠ none ∧ w.stepLog C op = [.arm]) := by
  have fl : deadline false (w.flushLog C) = false ∨
      (w.tmo.head?.join ≠ none ∧ w.flushLog C = [.arm]) := by
    rcases flush_shape C w with h | h | ⟨_, ps, h⟩
    · rw [h]; exact .inl rfl
    · exact .inr h
    · left; rw [h]; simp [deadline, deadline_put]
  have put : ∀ ps : List Bytes, deadline false (ps.map TEv.put) = false := fun ps => by
    have := deadline_put false ps []
    simpa [deadline] using this
  cases op with
  | write p =>
    simp only [Writer.stepLog, Writer.writeLog]
    cases w.err with
    | some e => exact .inl rfl
    | none =>
      cases w.bw with
      | none => exact .inl rfl
      | some b =>
        by_cases hb : b.buf ≠ []
        · simp only [if_pos hb]
          rcases flush_shape C w with h | ⟨ht, h⟩ | ⟨_, ps, h⟩
          · left
            rw [h, List.nil_append]
            split
            · exact put _
            · rfl
          · right
            refine ⟨ht, ?_⟩
            have hne : ∀ w', w.flush C ≠ .val (none, w') := by
              intro w' hw
              unfold Writer.flush at hw
              cases he : w.err with
              | some e => simp [he] at hw
              | none =>
                simp only [he] at hw
                rcases htm : w.timeout with ⟨t, w1⟩
                have := (timeout_frame htm).2.2.2
                rw [htm] at hw
                cases t with
                | some e => simp at hw
                | none => exact ht this.symm
            rw [h]
            split
            · rename_i w' hw
              exact absurd hw (hne w')
            · rfl
          · left
            rw [h, deadline_append]
            have : deadline false (TEv.arm :: (ps.map TEv.put ++ [TEv.disarm])) = false := by
              simp [deadline, deadline_put]
            rw [this]
            split
            · exact put _
            · rfl
        · simp only [if_neg hb]
          exact .inl (put _)
  | disable =>
    left
    simp only [Writer.stepLog, Writer.disableZlibLog]
    cases w.err with
    | some e => rfl
    | none =>
      by_cases hz : w.zlibOn = true
      · simp only [if_pos hz]
        rw [deadline_put]
        split
        · exact put _
        · rfl
      · simp only [if_neg hz]; rfl
  | close =>
    left
    simp only [Writer.stepLog, Writer.closeLog]
    rw [deadline_put]
    split
    · split
      · exact put _
      · rfl
    · rfl
  | line l =>
    rcases buffered_shape C (.line l) trivial w with h | h | ⟨_, ps, h⟩
    · rw [h]; exact .inl rfl
    · exact .inr h
    · left; rw [h]; simp [deadline, deadline_put]
  | flush => exact fl
  | onLine k => exact .inl rfl
  | enable lvl =>
    rcases buffered_shape C (.enable lvl) trivial w with h | h | ⟨_, ps, h⟩
    · rw [h]; exact .inl rfl
    · exact .inr h
    · left; rw [h]; simp [deadline, deadline_put]

/-- In every history the messages are written under the deadline: every transport write made by
`WriteLine`, `Flush` and `EnableZlib` happens between `Timeout(true)` and `Timeout(false)`, whatever
the transport answers and whatever other calls come before.

Partial: `Write`, `DisableZlib` and `Close` are left out, see `bare_write`, `bare_disable` and
`bare_close`. -/
theorem guarded_partial (ops : List WOp) (w : Writer D) :
    ∀ x ∈ ops.zip (w.runLog C ops), Buffered x.1 → Guarded false x.2 := by
  induction ops generalizing w with
  | nil => simp [Writer.runLog]
  | cons op ops ih =>
    intro x hx hb
    simp only [Writer.runLog, List.zip_cons_cons, List.mem_cons] at hx
    rcases hx with rfl | hx
    · rcases buffered_shape C op hb w with h | ⟨_, h⟩ | ⟨_, ps, h⟩
      · simp only [h, Guarded]
      · simp only [h, Guarded]
      · simp only [h, Guarded, guarded_put]
    · cases hs : w.step C op with
      | panic => simp [hs] at hx
      | timeout => simp [hs] at hx
      | val y =>
        simp only [hs] at hx
        exact ih _ x hx hb

/-- After every call of every history, also one that panics, the deadline is off again, unless
`Timeout(true)` itself has failed in that call. -/
theorem deadline_cleared (ops : List WOp) (w : Writer D) :
    ∀ l ∈ w.runLog C ops, deadline false l = false ∨ l = [.arm] := by
  induction ops generalizing w with
  | nil => simp [Writer.runLog]
  | cons op ops ih =>
    intro l hl
    simp only [Writer.runLog, List.mem_cons] at hl
    rcases hl with rfl | hl
    · rcases step_deadline C op w with h | h
      · exact .inl h
      · exact .inr h.2
    · cases hs : w.step C op with
      | panic => simp [hs] at hl
      | timeout => simp [hs] at hl
      | val y =>
        simp only [hs] at hl
        exact ih _ l hl

/-- With a callback that does not fail the deadline is off after every call. -/
theorem deadline_off (ops : List WOp) (w : Writer D) (ht : ∀ t ∈ w.tmo, t = none) :
    ∀ l ∈ w.runLog C ops, deadline false l = false := by
  induction ops generalizing w with
  | nil => simp [Writer.runLog]
  | cons op ops ih =>
    intro l hl
    simp only [Writer.runLog, List.mem_cons] at hl
    rcases hl with rfl | hl
    · rcases step_deadline C op w with h | h
      · exact h
      · exfalso
        apply h.1
        cases hw : w.tmo with
        | nil => rfl
        | cons t ts =>
          have := ht t (by simp [hw])
          simp [this]
    · cases hs : w.step C op with
      | panic => simp [hs] at hl
      | timeout => simp [hs] at hl
      | val y =>
        simp only [hs] at hl
        refine ih y.2 ?_ l hl
        have := (calls_account C op w y.2 y.1 hs).2
        rw [this]
        exact fun t h => ht t (List.mem_of_mem_drop h)

/-- The failing call of the callback ends all use of it: the writer keeps the error. -/
theorem failed_timeout (op : WOp) (w w' : Writer D) (r)
    (h : w.step C op = .val (r, w')) (ha : w.stepLog C op = [.arm]) :
    w'.err ≠ none ∧ w'.err = r.2 := by
  have fl : ∀ e w1, w.flush C = .val (e, w1) → w.flushLog C = [.arm] → e ≠ none ∧ w1.err = e := by
    intro e w1 hs hl
    unfold Writer.flush at hs
    unfold Writer.flushLog at hl
    cases he : w.err with
    | some e => simp [he] at hl
    | none =>
      simp only [he] at hs hl
      unfold Writer.guarded at hl
      rcases ht : w.timeout with ⟨t, w2⟩
      rw [ht] at hs hl
      cases t with
      | none => simp at hl
      | some t =>
        simp only [Exec.val.injEq, Prod.mk.injEq] at hs
        rcases hs with ⟨rfl, rfl⟩
        simp
  have nput : ∀ (ps : List Bytes) (l : List TEv), ps.map TEv.put ++ l = [.arm] → l = [.arm] := by
    intro ps l h
    cases ps with
    | nil => simpa using h
    | cons p ps => simp at h
  have nput0 : ∀ (ps : List Bytes), ps.map TEv.put ≠ [.arm] := by
    intro ps h
    cases ps <;> simp at h
  unfold Writer.step at h
  unfold Writer.stepLog at ha
  cases op with
  | line l =>
    simp only at h ha
    cases hs : w.writeLine C l with
    | panic => simp [hs] at h
    | timeout => simp [hs] at h
    | val x =>
      rcases x with ⟨e, w1⟩
      simp only [hs, Exec.val.injEq, Prod.mk.injEq] at h
      rcases h with ⟨rfl, rfl⟩
      unfold Writer.writeLine at hs
      unfold Writer.writeLineLog at ha
      cases he : w.err with
      | some e => simp [he] at ha
      | none =>
        simp only [he] at hs ha
        cases hh : runHooks l w.onLine with
        | fail e => simp [hh] at ha
        | drop => simp [hh] at ha
        | accept =>
          simp only [hh] at hs ha
          unfold Writer.guarded at ha
          rcases ht : w.timeout with ⟨t, w2⟩
          rw [ht] at hs ha
          cases t with
          | none => simp at ha
          | some t =>
            simp only [Exec.val.injEq, Prod.mk.injEq] at hs
            rcases hs with ⟨rfl, rfl⟩
            simp
  | flush =>
    simp only at h ha
    cases hs : w.flush C with
    | panic => simp [hs] at h
    | timeout => simp [hs] at h
    | val x =>
      rcases x with ⟨e, w1⟩
      simp only [hs, Exec.val.injEq, Prod.mk.injEq] at h
      rcases h with ⟨rfl, rfl⟩
      have := fl e w1 hs ha
      exact ⟨by rw [this.2]; exact this.1, this.2⟩
  | write p =>
    simp only at h ha
    unfold Writer.write at h
    unfold Writer.writeLog at ha
    cases he : w.err with
    | some e => simp [he] at ha
    | none =>
      simp only [he] at h ha
      cases hb : w.bw with
      | none => simp [hb] at ha
      | some b =>
        simp only [hb] at h ha
        by_cases hbuf : b.buf ≠ []
        · rw [if_pos hbuf] at h ha
          cases hfl : w.flush C with
          | panic => simp [hfl] at h
          | timeout => simp [hfl] at h
          | val x =>
            rcases x with ⟨r1, w1⟩
            simp only [hfl] at h ha
            rcases flush_shape C w with hs | ⟨_, hs⟩ | ⟨_, ps, hs⟩
            · rw [hs, List.nil_append] at ha
              cases r1 with
              | some e => simp at ha
              | none => exact absurd ha (nput0 _)
            · have := fl r1 w1 hfl hs
              cases r1 with
              | none => exact absurd rfl this.1
              | some e =>
                simp only [Exec.val.injEq, Prod.mk.injEq] at h
                rcases h with ⟨rfl, rfl⟩
                exact ⟨by rw [this.2]; exact this.1, this.2⟩
            · rw [hs] at ha
              simp at ha
        · rw [if_neg hbuf] at h ha
          exact absurd ha (nput0 _)
  | onLine k => simp at ha
  | enable lvl =>
    simp only at h ha
    cases hs : w.enableZlib C lvl with
    | panic => simp [hs] at h
    | timeout => simp [hs] at h
    | val x =>
      rcases x with ⟨e, w1⟩
      simp only [hs, Exec.val.injEq, Prod.mk.injEq] at h
      rcases h with ⟨rfl, rfl⟩
      unfold Writer.enableZlib at hs
      unfold Writer.enableZlibLog at ha
      cases he : w.err with
      | some e => simp [he] at ha
      | none =>
        simp only [he] at hs ha
        by_cases hz : w.zlibOn = true
        · simp [hz] at ha
        · rw [if_neg hz] at hs ha
          cases hfl : w.flush C with
          | panic => simp [hfl] at hs
          | timeout => simp [hfl] at hs
          | val x =>
            rcases x with ⟨r1, w2⟩
            have := fl r1 w2 hfl ha
            simp only [hfl] at hs
            cases r1 with
            | none => exact absurd rfl this.1
            | some e1 =>
              simp only [Exec.val.injEq, Prod.mk.injEq] at hs
              rcases hs with ⟨rfl, rfl⟩
              exact ⟨by rw [this.2]; exact this.1, this.2⟩
  | disable =>
    simp only at ha
    unfold Writer.disableZlibLog at ha
    cases he : w.err with
    | some e => simp [he] at ha
    | none =>
      simp only [he] at ha
      by_cases hz : w.zlibOn = true
      · rw [if_pos hz] at ha
        have := nput _ _ ha
        split at this
        · exact absurd this (nput0 _)
        · simp at this
      · simp [hz] at ha
  | close =>
    simp only at ha
    unfold Writer.closeLog at ha
    have := nput _ _ ha
    split at this
    · split at this
      · exact absurd this (nput0 _)
      · simp at this
    · simp at this

/-- A writer with an error does not call `Timeout`. -/
theorem no_timeout_after_error (op : WOp) (w : Writer D) (h : w.err ≠ none) :
    arms (w.stepLog C op) = 0 := by
  cases he : w.err with
  | none => exact absurd he h
  | some e =>
    cases op with
    | close =>
      simp only [Writer.stepLog, Writer.closeLog, arms_append, arms_put]
      split
      · split
        · simp [arms_put]
        · rfl
      · rfl
    | _ =>
      simp [Writer.stepLog, Writer.writeLineLog, Writer.flushLog, Writer.writeLog, Writer.enableZlibLog,
        Writer.disableZlibLog, he, arms]

theorem bwFlush_err {w w' : Writer D} {r} (h : w.bwFlush C = .val (r, w')) : w'.err = w.err := by
  have cur : ∀ p q (v : Writer D), w.curWrite C p = .val (q, v) → v.err = w.err := by
    intro p q v h
    unfold Writer.curWrite at h
    by_cases hz : w.curZ = true
    · rw [if_pos hz] at h
      cases hw : w.zlibW with
      | none => simp [hw] at h
      | some z =>
        simp only [hw, Exec.val.injEq, Prod.mk.injEq] at h
        rcases h with ⟨_, rfl⟩
        rfl
    · rw [if_neg hz] at h
      simp only [Exec.val.injEq, Prod.mk.injEq] at h
      rcases h with ⟨_, rfl⟩
      rfl
  unfold Writer.bwFlush at h
  cases hb : w.bw with
  | none => simp [hb] at h
  | some b =>
    simp only [hb] at h
    cases he : b.berr with
    | some e =>
      simp only [he, Exec.val.injEq, Prod.mk.injEq] at h
      rcases h with ⟨_, rfl⟩
      rfl
    | none =>
      simp only [he] at h
      by_cases hbuf : b.buf = []
      · rw [if_pos hbuf] at h
        simp only [Exec.val.injEq, Prod.mk.injEq] at h
        rcases h with ⟨_, rfl⟩
        rfl
      · rw [if_neg hbuf] at h
        cases hc : w.curWrite C b.buf with
        | panic => simp [hc] at h
        | timeout => simp [hc] at h
        | val x =>
          rcases x with ⟨⟨n, e⟩, w1⟩
          have := cur _ _ _ hc
          simp only [hc] at h
          split at h <;>
            (simp only [Exec.val.injEq, Prod.mk.injEq] at h; rcases h with ⟨_, rfl⟩; exact this)

theorem error_kept (op : WOp) {w w' : Writer D} {r} {e : Err} (he : w.err = some e)
    (h : w.step C op = .val (r, w')) : w'.err = some e := by
  cases op with
  | close =>
    unfold Writer.step at h
    simp only at h
    cases hs : w.close C with
    | panic => simp [hs] at h
    | timeout => simp [hs] at h
    | val x =>
      rcases x with ⟨e1, w1⟩
      simp only [hs, Exec.val.injEq, Prod.mk.injEq] at h
      rcases h with ⟨_, rfl⟩
      unfold Writer.close at hs
      cases hb : w.bwFlush C with
      | panic => simp [hb] at hs
      | timeout => simp [hb] at hs
      | val x =>
        rcases x with ⟨r1, w2⟩
        have h2 : w2.err = some e := (bwFlush_err C hb).trans he
        simp only [hb, h2] at hs
        by_cases hz : w2.zlibOn = true
        · rw [if_pos hz] at hs
          cases hzw : w2.zlibW with
          | none => simp [hzw] at hs
          | some z =>
            simp only [hzw, Exec.val.injEq, Prod.mk.injEq] at hs
            rcases hs with ⟨_, rfl⟩
            rfl
        · rw [if_neg hz] at hs
          simp only [Exec.val.injEq, Prod.mk.injEq] at hs
          rcases hs with ⟨_, rfl⟩
          rfl
  | _ =>
    simp [Writer.step, Writer.writeLine, Writer.flush, Writer.write, Writer.enableZlib,
      Writer.disableZlib, he, Writer.addHook] at h
    rcases h with ⟨_, rfl⟩
    first | exact he | rfl

/-- Once `Timeout(true)` has failed, no later call of the history, of whatever kind, calls the callback
again. -/
theorem timeout_never_again (op : WOp) (ops : List WOp) (w w' : Writer D) (r)
    (h : w.step C op = .val (r, w')) (ha : w.stepLog C op = [.arm]) :
    ∀ l ∈ w'.runLog C ops, arms l = 0 := by
  have key : ∀ (ops : List WOp) (v : Writer D), v.err ≠ none → ∀ l ∈ v.runLog C ops, arms l = 0 := by
    intro ops
    induction ops with
    | nil => intro v _ l hl; simp [Writer.runLog] at hl
    | cons op ops ih =>
      intro v hv l hl
      simp only [Writer.runLog, List.mem_cons] at hl
      rcases hl with rfl | hl
      · exact no_timeout_after_error C op v hv
      · cases hs : v.step C op with
        | panic => simp [hs] at hl
        | timeout => simp [hs] at hl
        | val y =>
          simp only [hs] at hl
          refine ih y.2 ?_ l hl
          cases he : v.err with
          | none => exact absurd he hv
          | some e => rw [error_kept C op he hs]; simp
  exact key ops w' (failed_timeout C op w w' r h ha).1

/-! ## What is not under the deadline -/

/-- `DisableZlib` and `Close` never ask for a deadline, although they write. -/
theorem bare_calls (w : Writer D) : arms (w.stepLog C .disable) = 0 ∧ arms (w.stepLog C .close) = 0 := by
  constructor
  · simp only [Writer.stepLog, Writer.disableZlibLog]
    cases w.err with
    | some e => rfl
    | none =>
      by_cases hz : w.zlibOn = true
      · simp only [if_pos hz]
        rw [arms_append, arms_put]
        split
        · simp [arms_put]
        · rfl
      · simp only [if_neg hz]; rfl
  · simp only [Writer.stepLog, Writer.closeLog]
    rw [arms_append, arms_put]
    split
    · split
      · simp [arms_put]
      · rfl
    · rfl

/-- `Write` on an empty buffer hands the data to the transport without a deadline, for every data. -/
theorem bare_write (p : Bytes) (w : Writer D) (b : BW) (he : w.err = none) (hz : w.curZ = false)
    (hb : w.bw = some b) (hbuf : b.buf = []) :
    w.stepLog C (.write p) = [.put p] ∧ ¬ Guarded false (w.stepLog C (.write p)) := by
  have : w.stepLog C (.write p) = [.put p] := by
    simp [Writer.stepLog, Writer.writeLog, he, hb, hbuf, Writer.curWriteLog, hz]
  refine ⟨this, ?_⟩
  rw [this]
  simp [Guarded]

/-- `Close` hands whatever is buffered to the transport without a deadline. -/
theorem bare_close (w : Writer D) (b : BW) (hz : w.curZ = false)
    (hb : w.bw = some b) (hberr : b.berr = none) (hbuf : b.buf ≠ []) :
    ¬ Guarded false (w.stepLog C .close) := by
  simp only [Writer.stepLog, Writer.closeLog, Writer.bwFlushLog, hb, hberr, if_neg hbuf,
    Writer.curWriteLog, hz]
  simp [Guarded]

/-- Refutation of the full statement: with a callback that never fails there are histories whose
transport writes happen with no deadline: `Write` directly, `DisableZlib` with the end of the
compressed section, `Close` with a buffered message. -/
theorem not_all_guarded :
    (∃ l ∈ (newWriter 0 [] ⟨[], []⟩ : Writer Bool).runLog LineWriter.stored [.write b!"abc"],
      ¬ Guarded false l) ∧
    (∃ l ∈ (newWriter 0 [] ⟨[], []⟩ : Writer Bool).runLog LineWriter.stored [.enable 1, .disable],
      ¬ Guarded false l) ∧
    (∃ l ∈ (newWriter 0 [] ⟨[], []⟩ : Writer Bool).runLog LineWriter.stored [.line b!"a|", .close],
      ¬ Guarded false l) := by
  refine ⟨⟨[.put b!"abc"], by decide, ?_⟩,
    ⟨[.put b!"x\x01", .put [0]], by decide, ?_⟩, ⟨[.put b!"a|"], by decide, ?_⟩⟩ <;> simp [Guarded]

/-- A history in which something happens: two lines that overflow a buffer of four bytes, a flush, and
compression; the second writer's callback fails at its second call. -/
example : (newWriter 4 [] ⟨[], []⟩ : Writer Bool).runLog LineWriter.stored
    [.line b!"ab|", .line b!"cd|", .flush, .enable 1, .line b!"e|", .flush] =
    [[.arm, .disarm], [.arm, .put b!"ab|c", .disarm], [.arm, .put b!"d|", .disarm], [.arm, .disarm],
     [.arm, .disarm], [.arm, .put [120, 1], .put [1, 101, 1, 124], .put [], .disarm]] := by decide

example : (newWriter 4 [none, some (.other 5)] ⟨[], []⟩ : Writer Bool).runLog LineWriter.stored
    [.line b!"ab|", .flush, .flush, .close] =
    [[.arm, .disarm], [.arm], [], [.put b!"ab|"]] := by decide

/-- The deferred `Timeout(false)` is called also when the call panics. -/
example : (newWriter 4 [] ⟨[], []⟩ : Writer Bool).runLog LineWriter.stored
    [.enable 99, .flush, .line b!"x|"] = [[.arm, .disarm], [.arm, .disarm]] ∧
    (newWriter 4 [] ⟨[], []⟩ : Writer Bool).run LineWriter.stored [.enable 99, .flush] = .panic :=
  ⟨by decide, rfl⟩

end Verif.Props.LineTimeouts
