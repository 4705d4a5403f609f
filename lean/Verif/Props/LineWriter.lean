import Verif.Lineproto.WriterLemmas
import Verif.Lineproto.WriterSafe

/-!
# Properties of the line writer (C08, C09, C10, C12, C13)
-/

namespace Verif.Props.LineWriter

open Verif.Lineproto

variable {D : Type} (C : Deflater D) {Z : Type} {I : Inflater Z}

/-! ### A compression format that meets the assumptions -/

/-- A toy compressor: header `x`,`1`; each byte is sent as `1`,byte; `0` ends the stream. The state
tells whether the header was sent. -/
def stored : Deflater Bool where
  new lvl := if -2 ≤ lvl ∧ lvl ≤ 9 then .ok false else .error (.other 7)
  reset _ := false
  write h p := (true, [if h then [] else [120, 1], p.flatMap fun c => [1, c]], none)
  flush h := (true, [if h then [] else [120, 1]], none)
  close h := (true, [if h then [] else [120, 1], [0]], none)

/-- Its decompressor. -/
def unstore : Inflater Nat where
  header a b := if a = 120 ∧ b = 1 then .ok 0 else .error .protocolViolation
  step z c := if z = 1 then (0, [c]) else if c = 1 then (1, []) else if c = 0 then (2, []) else (3, [])
  status z := if z = 2 then .done else if z = 3 then .failed .protocolViolation else .running

theorem stored_trace (b : Bool) (ops : List ZOp) : stored.trace b ops =
    ((if ops = [] then b else true), (if b ∨ ops = [] then [] else [120, 1]) ++ (writtenZ ops).flatMap fun c => [1, c]) := by
  induction ops generalizing b with
  | nil => simp [Deflater.trace, writtenZ]
  | cons op ops ih =>
    cases op <;> cases b <;> simp [Deflater.trace, Deflater.exec, stored, writtenZ] <;>
      simp [stored] at ih <;> simp [ih]

theorem unstore_part (p : Bytes) : inflatePart unstore 0 (p.flatMap fun c => [1, c]) = some p := by
  induction p with
  | nil => rfl
  | cons c p ih => simp [inflatePart, unstore] at ih ⊢; simp [ih]

theorem unstore_full (p : Bytes) : inflate unstore 0 ((p.flatMap fun c => [1, c]) ++ [0]) = some p := by
  induction p with
  | nil => rfl
  | cons c p ih => simp [inflate, unstore] at ih ⊢; simp [ih]

/-- The assumptions about zlib can be met. -/
theorem stored_law : stored.Law unstore where
  levels lvl := by
    unfold stored; simp only; split <;> simp_all
  noErr d _ ops op := by cases op <;> rfl
  complete d hd ops := by
    have hd' : d = false := by
      rcases hd with ⟨lvl, h⟩ | ⟨d0, h⟩
      · simp only [stored] at h
        split at h
        · cases h; rfl
        · cases h
      · exact h
    subst hd'
    refine ⟨rfl, 120, 1, 0, ((writtenZ ops).flatMap fun c => [1, c]) ++ [0], ?_, rfl, unstore_full _⟩
    rw [stored_trace]
    cases ops <;> simp [stored, writtenZ]
  flushed d hd ops := by
    have hd' : d = false := by
      rcases hd with ⟨lvl, h⟩ | ⟨d0, h⟩
      · simp only [stored] at h
        split at h
        · cases h; rfl
        · cases h
      · exact h
    subst hd'
    refine ⟨120, 1, 0, ((writtenZ ops).flatMap fun c => [1, c]), ?_, rfl, unstore_part _⟩
    rw [stored_trace]
    simp [writtenZ_append, writtenZ]

/-! ### C08: order and prefix on a plain connection -/

/-- Calls that do not touch compression. -/
def Plain : WOp → Prop
  | .line _ | .flush | .write _ | .onLine _ => True
  | _ => False

/-- The bytes the user has given to the writer, in order, up to the first failed `WriteLine` or
`Flush` (its line included): lines accepted by the hooks registered at that time, and the part of the
raw data that `Write` reported as written. -/
def offered : List (Bytes → Hook) → List WOp → List (Nat × Option Err) → Bytes
  | hs, .line l :: ops, (_, e) :: rs =>
    (if runHooks l hs = .accept then l else []) ++ (if e = none then offered hs ops rs else [])
  | hs, .flush :: ops, (_, e) :: rs => if e = none then offered hs ops rs else []
  | hs, .write p :: ops, (n, _) :: rs => p.take n ++ offered hs ops rs
  | hs, .onLine h :: ops, _ :: rs => offered (hs ++ [h]) ops rs
  | _, _, _ => []

theorem run_length {ops : List WOp} {w w' : Writer D} {rs} (h : Writer.run C ops w = .val (rs, w')) :
    rs.length = ops.length := by
  induction ops generalizing w rs with
  | nil => simp [Writer.run] at h; simp [← h.1]
  | cons op ops ih =>
    unfold Writer.run at h
    split at h <;> try simp at h
    split at h <;> try simp at h
    rename_i h'
    obtain ⟨rfl, rfl⟩ := h
    simp [ih h']

/-- Once failed, the writer never touches the sink again. -/
theorem dead_run (ops : List WOp) (hp : ∀ op ∈ ops, Plain op) (w : Writer D) (e : Err) (he : w.err = some e) :
    ∃ rs w', Writer.run C ops w = .val (rs, w') ∧ w'.sink = w.sink ∧ w'.err = some e ∧ rs.length = ops.length ∧
      ∀ i (h : i < ops.length), (∃ f, ops[i] = .onLine f) ∨ rs[i]? = some (0, some e) := by
  induction ops generalizing w with
  | nil => exact ⟨[], w, rfl, rfl, he, rfl, by simp⟩
  | cons op ops ih =>
    have hp' : ∀ op ∈ ops, Plain op := fun o ho => hp o (by simp [ho])
    have hpo := hp op (by simp)
    have key : ∀ r w1, w.step C op = .val (r, w1) → w1.sink = w.sink → w1.err = some e →
        ((∃ f, op = .onLine f) ∨ r = (0, some e)) →
        ∃ rs w', Writer.run C (op :: ops) w = .val (rs, w') ∧ w'.sink = w.sink ∧ w'.err = some e ∧
          rs.length = (op :: ops).length ∧
          ∀ i (h : i < (op :: ops).length), (∃ f, (op :: ops)[i] = .onLine f) ∨ rs[i]? = some (0, some e) := by
      intro r w1 h1 h2 h3 h4
      obtain ⟨rs, w', g1, g2, g3, g4, g5⟩ := ih hp' w1 h3
      refine ⟨r :: rs, w', by simp [Writer.run, h1, g1], g2.trans h2, g3, by simp [g4], ?_⟩
      intro i hi
      cases i with
      | zero => rcases h4 with h4 | h4
                · exact .inl (by simpa using h4)
                · exact .inr (by simp [h4])
      | succ i => simpa using g5 i (by simpa using hi)
    cases op with
    | line l => exact key (0, some e) w (by simp [Writer.step, Writer.writeLine, he]) rfl he (.inr rfl)
    | flush => exact key (0, some e) w (by simp [Writer.step, Writer.flush, he]) rfl he (.inr rfl)
    | write p => exact key (0, some e) w (by simp [Writer.step, Writer.write, he]) rfl he (.inr rfl)
    | onLine f => exact key (0, none) (w.addHook f) rfl rfl he (.inl ⟨f, rfl⟩)
    | enable lvl => exact absurd hpo (by simp [Plain])
    | disable => exact absurd hpo (by simp [Plain])
    | close => exact absurd hpo (by simp [Plain])

theorem live_run (law : C.Law I) (ops : List WOp) (hp : ∀ op ∈ ops, Plain op) (w : Writer D) (content : Bytes)
    (hg : Good C w [] content) (he : w.err = none) (hc : w.curZ = false) :
    ∃ rs w', Writer.run C ops w = .val (rs, w') ∧ w'.sink.sent <+: content ++ offered w.onLine ops rs ∧
      (∀ ops', ops = ops' ++ [.flush] → rs.getLast? = some (0, none) →
        w'.sink.sent = content ++ offered w.onLine ops rs) := by
  induction ops generalizing w content with
  | nil =>
    refine ⟨[], w, rfl, ?_, by simp⟩
    have := hg.failed C hc
    simpa [offered] using this
  | cons op ops ih =>
    have hp' : ∀ op ∈ ops, Plain op := fun o ho => hp o (by simp [ho])
    -- a later flush that succeeds is impossible after a failure
    have dead : ∀ (n : Nat) (e : Err) w1 (c' : Bytes), w.step C op = .val ((n, some e), w1) → w1.err = some e →
        w1.sink.sent <+: content ++ c' →
        (∀ rs, c' <+: offered w.onLine (op :: ops) ((n, some e) :: rs)) →
        ∃ rs w', Writer.run C (op :: ops) w = .val (rs, w') ∧
          w'.sink.sent <+: content ++ offered w.onLine (op :: ops) rs ∧
          (∀ ops', op :: ops = ops' ++ [.flush] → rs.getLast? = some (0, none) →
            w'.sink.sent = content ++ offered w.onLine (op :: ops) rs) := by
      intro n e w1 c' h1 h2 h3 h4
      obtain ⟨rs, w', g1, g2, g3, g4, g5⟩ := dead_run C ops hp' w1 e h2
      refine ⟨(n, some e) :: rs, w', by simp [Writer.run, h1, g1], ?_, ?_⟩
      · rw [g2]
        refine h3.trans ?_
        obtain ⟨t, ht⟩ := h4 rs
        exact ⟨t, by simp [← ht]⟩
      · intro ops' hops hlast
        exfalso
        cases ops' with
        | nil =>
          simp at hops
          obtain ⟨-, rfl⟩ := hops
          have : rs = [] := by simpa using g4
          subst this
          simp at hlast
        | cons o ops' =>
          simp at hops
          obtain ⟨-, rfl⟩ := hops
          have hl := g5 ops'.length (by simp)
          simp at hl
          have hrs : rs ≠ [] := by intro h; simp [h] at g4
          rw [List.getLast?_cons, List.getLast?_eq_getElem?, g4] at hlast
          simp [hl] at hlast
    have live : ∀ r w1 c', w.step C op = .val (r, w1) → Good C w1 [] (content ++ c') → w1.err = none → w1.curZ = false →
        (∀ rs, offered w.onLine (op :: ops) (r :: rs) = c' ++ offered w1.onLine ops rs) →
        (op = .flush → w1.sink.sent = content ++ c') →
        ∃ rs w', Writer.run C (op :: ops) w = .val (rs, w') ∧
          w'.sink.sent <+: content ++ offered w.onLine (op :: ops) rs ∧
          (∀ ops', op :: ops = ops' ++ [.flush] → rs.getLast? = some (0, none) →
            w'.sink.sent = content ++ offered w.onLine (op :: ops) rs) := by
      intro r w1 c' h1 h2 h3 h4 h5 h6
      obtain ⟨rs, w', g1, g2, g3⟩ := ih hp' w1 _ h2 h3 h4
      refine ⟨r :: rs, w', by simp [Writer.run, h1, g1], ?_, ?_⟩
      · rw [h5]; simpa using g2
      · intro ops' hops hlast
        cases ops' with
        | nil =>
          simp at hops
          obtain ⟨rfl, rfl⟩ := hops
          simp [Writer.run] at g1
          obtain ⟨rfl, rfl⟩ := g1
          rw [h5]; simpa [offered] using h6 rfl
        | cons o ops' =>
          simp at hops
          obtain ⟨rfl, rfl⟩ := hops
          have hrs : rs ≠ [] := by
            rintro rfl
            simpa using run_length C g1
          rw [h5, ← List.append_assoc]
          refine g3 ops' rfl ?_
          rw [List.getLast?_cons] at hlast
          cases hrl : rs.getLast? with
          | none => simp at hrl; exact absurd hrl hrs
          | some x => simpa [hrl] using hlast
    cases op with
    | line l =>
      cases hh : runHooks l w.onLine with
      | accept =>
        obtain ⟨e, w1, h1, h2, h3, h4⟩ := writeLine_spec C law (l := l) hg he hh
        cases e with
        | none =>
          rcases h4 with ⟨-, h4⟩ | ⟨h4, -⟩
          · exact live (0, none) w1 l (by simp [Writer.step, h1]) h4 h3 (h2.curZ.trans hc)
              (by intro rs; simp [offered, hh, h2.onLine]) (by simp)
          · simp at h4
        | some e =>
          rcases h4 with ⟨h4, -⟩ | ⟨-, h4⟩
          · simp at h4
          · exact dead 0 e w1 l (by simp [Writer.step, h1]) h3 (by simpa using h4 (h2.curZ.trans hc))
              (by intro rs; simp [offered, hh])
      | drop =>
        exact live (0, none) w [] (by simp [Writer.step, Writer.writeLine, he, hh]) (by simpa using hg) he hc
              (by intro rs; simp [offered, hh]) (by simp)
      | fail e =>
        exact dead 0 e { w with err := some e } [] (by simp [Writer.step, Writer.writeLine, he, hh]) rfl
          (by simpa using hg.failed C hc) (by intro rs; simp)
    | flush =>
      obtain ⟨e, w1, h1, h2, h3, h4⟩ := flush_spec C law hg he
      cases e with
      | none =>
        rcases h4 with ⟨-, h4⟩ | ⟨h4, -⟩
        · exact live (0, none) w1 [] (by simp [Writer.step, h1]) (by simpa using h4.1) h3 (h2.curZ.trans hc)
            (by intro rs; simp [offered, h2.onLine]) (fun _ => by simpa using h4.2.2.1 (h2.curZ.trans hc))
        · simp at h4
      | some e =>
        rcases h4 with ⟨h4, -⟩ | ⟨-, h4⟩
        · simp at h4
        · exact dead 0 e w1 [] (by simp [Writer.step, h1]) h3 (by simpa using h4 (h2.curZ.trans hc))
            (by intro rs; simp)
    | write p =>
      obtain ⟨n, e, w1, h1, h2, hn, h3⟩ := write_spec C law (p := p) hg he
      rcases h3 with ⟨rfl, rfl, h3, h4, -⟩ | ⟨hne, h3, rfl, h4⟩ | ⟨hne, h3, h4⟩
      · exact live _ w1 p h1 h4 h3 (h2.curZ.trans hc) (by intro rs; simp [offered, h2.onLine]) (by simp)
      · cases e with
        | none => simp at hne
        | some e => exact dead 0 e w1 [] h1 h3 (by simpa using h4 (h2.curZ.trans hc)) (by intro rs; simp)
      · exact live _ w1 (p.take n) h1 (h4 hc).1 h3 (h2.curZ.trans hc) (by intro rs; simp [offered, h2.onLine]) (by simp)
    | onLine f =>
      exact live (0, none) (w.addHook f) [] rfl
        (by simpa using hg.of_eq C (w' := w.addHook f) rfl rfl rfl rfl rfl) he hc
        (by intro rs; simp [offered, Writer.addHook]) (by simp)
    | enable lvl => exact absurd (hp (.enable lvl) (by simp)) (by simp [Plain])
    | disable => exact absurd (hp .disable (by simp)) (by simp [Plain])
    | close => exact absurd (hp .close (by simp)) (by simp [Plain])

/-- **C08.** In every history of a plain connection, with every buffer size, every behaviour of the
sink (short writes and errors included) and of the timeout callback, the bytes handed to the sink are a
prefix of what the user gave to the writer, in order; after a `Flush` that returned nil they are
exactly that.  (No call hangs or panics either.) -/
theorem sent_prefix (law : C.Law I) (size : Int) (tmo : List (Option Err)) (script : List SEv)
    (ops : List WOp) (hp : ∀ op ∈ ops, Plain op) :
    ∃ rs w, Writer.run C ops (newWriter size tmo ⟨[], script⟩) = .val (rs, w) ∧
      w.sink.sent <+: offered [] ops rs ∧
      (∀ ops', ops = ops' ++ [.flush] → rs.getLast? = some (0, none) → w.sink.sent = offered [] ops rs) := by
  have hg : Good C (newWriter size tmo ⟨[], script⟩ : Writer D) [] [] :=
    ⟨_, [], rfl, rfl, .inl ⟨rfl, rfl, rfl⟩, rfl⟩
  have := live_run C law ops hp _ _ hg rfl rfl
  simp only [List.nil_append] at this
  exact this

/-- A history with a small buffer: two lines, one dropped by a hook, a raw write and a flush. -/
example : ∃ rs w, Writer.run stored [.line b!"hello|", .onLine (fun l => if l = b!"x|" then .drop else .accept),
      .line b!"x|", .line b!"yy|", .write b!"raw", .flush]
      (newWriter 4 [] ⟨[], []⟩) = .val (rs, w) ∧ rs.getLast? = some (0, none) ∧ w.sink.sent = b!"hello|yy|raw" :=
  ⟨_, _, rfl, rfl, by decide⟩

/-- The same with a sink that breaks inside the first line: a proper prefix was sent. -/
example : ∃ rs w, Writer.run stored [.line b!"hello|", .line b!"yy|", .flush]
      (newWriter 4 [] ⟨[], [.fail 2 (.other 5)]⟩) = .val (rs, w) ∧ w.sink.sent = b!"he" ∧
      rs = [(0, some (.other 5)), (0, some (.other 5)), (0, some (.other 5))] :=
  ⟨_, _, rfl, by decide, by decide⟩

/-! ### C09: sticky errors -/

/-- The calls of C09. -/
def Sticky : WOp → Prop
  | .line _ | .flush | .write _ | .enable _ | .disable => True
  | _ => False

/-- **C09 (first half).** A `WriteLine` or `Flush` that fails records its error. -/
theorem error_recorded {w w' : Writer D} {op : WOp} {n : Nat} {e : Err} (hop : (∃ l, op = .line l) ∨ op = .flush)
    (h : w.step C op = .val ((n, some e), w')) : w'.err = some e := by
  rcases hop with ⟨l, rfl⟩ | rfl
  · simp only [Writer.step] at h
    split at h <;> try simp at h
    rename_i e' w1 hw
    obtain ⟨⟨-, rfl⟩, rfl⟩ := h
    unfold Writer.writeLine at hw
    split at hw
    · simp at hw; obtain ⟨rfl, rfl⟩ := hw; assumption
    · split at hw
      · simp at hw; obtain ⟨rfl, rfl⟩ := hw; rfl
      · simp at hw
      · split at hw
        · simp at hw; obtain ⟨rfl, rfl⟩ := hw; rfl
        · split at hw <;> try simp at hw
          obtain ⟨rfl, rfl⟩ := hw; rfl
  · simp only [Writer.step] at h
    split at h <;> try simp at h
    rename_i e' w1 hw
    obtain ⟨⟨-, rfl⟩, rfl⟩ := h
    unfold Writer.flush at hw
    split at hw
    · simp at hw; obtain ⟨rfl, rfl⟩ := hw; assumption
    · split at hw
      · simp at hw; obtain ⟨rfl, rfl⟩ := hw; rfl
      · split at hw <;> try simp at hw
        · obtain ⟨rfl, rfl⟩ := hw; rfl
        · split at hw
          · split at hw
            · simp at hw
            · split at hw <;> try simp at hw
              obtain ⟨rfl, rfl⟩ := hw; rfl
          · simp at hw

theorem flush_records {w w' : Writer D} {e : Err} (h : w.flush C = .val (some e, w')) : w'.err = some e :=
  error_recorded C (w := w) (op := .flush) (n := 0) (.inr rfl) (by simp [Writer.step, h])

/-- A failed `EnableZlibLevel` records its error, unless compression was already on or the level is
unknown. -/
theorem enable_error_recorded {w w' : Writer D} {lvl : Int} {e : Err} (h : w.enableZlib C lvl = .val (some e, w')) :
    w'.err = some e ∨ (w' = w ∧ w.zlibOn = true ∧ e = .zlibAlreadyActive) ∨ C.new lvl = .error e := by
  unfold Writer.enableZlib at h
  split at h
  · simp at h; obtain ⟨rfl, rfl⟩ := h; left; assumption
  · split at h
    · simp at h; obtain ⟨rfl, rfl⟩ := h; exact .inr (.inl ⟨rfl, by assumption, rfl⟩)
    · split at h <;> try simp at h
      · rename_i hf
        obtain ⟨rfl, rfl⟩ := h; left; exact flush_records C hf
      · split at h
        · simp at h
        · split at h <;> try simp at h
          rename_i hn
          right; right; rw [hn, h.1]

/-- A failed `DisableZlib` records its error, unless compression was off. -/
theorem disable_error_recorded {w w' : Writer D} {e : Err} (h : w.disableZlib C = .val (some e, w')) :
    w'.err = some e ∨ (w' = w ∧ w.zlibOn = false ∧ e = .zlibNotActive) := by
  unfold Writer.disableZlib at h
  split at h
  · simp at h; obtain ⟨rfl, rfl⟩ := h; left; assumption
  · split at h
    · split at h <;> try simp at h
      · obtain ⟨rfl, rfl⟩ := h; left; rfl
      · split at h
        · simp at h
        · split at h <;> try simp at h
          obtain ⟨rfl, rfl⟩ := h; left; rfl
    · simp at h; obtain ⟨rfl, rfl⟩ := h
      exact .inr ⟨rfl, by simp_all, rfl⟩

/-- **C09 (second half).** After that, every later `WriteLine`, `Flush`, `Write`, `EnableZlib` and
`DisableZlib` returns that error and nothing at all happens to the sink or to the writer. -/
theorem error_sticks (ops : List WOp) (hops : ∀ op ∈ ops, Sticky op) {w : Writer D} {e : Err} (he : w.err = some e) :
    Writer.run C ops w = .val (List.replicate ops.length (0, some e), w) := by
  induction ops with
  | nil => rfl
  | cons op ops ih =>
    have ih' := ih fun o ho => hops o (by simp [ho])
    have hop := hops op (by simp)
    have hs : w.step C op = .val ((0, some e), w) := by
      cases op <;> simp [Sticky] at hop <;>
        simp [Writer.step, Writer.writeLine, Writer.flush, Writer.write, Writer.enableZlib, Writer.disableZlib, he]
    simp [Writer.run, hs, ih', List.replicate_succ]

/-- The hypothesis is met: a sink error on `Flush` is recorded. -/
example : ∃ w' : Writer Bool, (newWriter 4 [] ⟨[], [.fail 0 (.other 3)]⟩ : Writer Bool).run stored
    [.line b!"ab|", .flush] = .val ([(0, none), (0, some (.other 3))], w') ∧ w'.err = some (.other 3) :=
  ⟨_, rfl, rfl⟩

/-- Finding: an error of the sink during an unbuffered `Write` is not recorded, the next call goes on. -/
theorem write_error_not_sticky : ∃ w' : Writer Bool,
    (newWriter 4 [] ⟨[], [.fail 1 (.other 3)]⟩ : Writer Bool).run stored [.write b!"abc", .line b!"x|", .flush]
      = .val ([(1, some (.other 3)), (0, none), (0, none)], w') ∧ w'.sink.sent = b!"ax|" :=
  ⟨_, rfl, rfl⟩

/-- Finding: `Close` sends what is buffered even after a recorded error (here of a hook). -/
theorem close_sends_after_error : ∃ w' : Writer Bool,
    (newWriter 4 [] ⟨[], []⟩ : Writer Bool).run stored
      [.line b!"ab|", .onLine (fun _ => .fail (.other 9)), .line b!"x|", .flush, .close]
      = .val ([(0, none), (0, none), (0, some (.other 9)), (0, some (.other 9)), (0, none)], w') ∧
    w'.sink.sent = b!"ab|" := ⟨_, rfl, rfl⟩

/-! ### C10: compressed sections -/

/-- A section of the connection: plain or compressed, with the data written while it lasted. -/
inductive Seg where
  | plain (d : Bytes)
  | zlib (d : Bytes)

def Seg.add (p : Bytes) : Seg → Seg
  | .plain d => .plain (d ++ p)
  | .zlib d => .zlib (d ++ p)

def Seg.data : Seg → Bytes
  | .plain d | .zlib d => d

def Seg.isZ : Seg → Bool
  | .plain _ => false
  | .zlib _ => true

/-- The sections of a history in which every call returned nil: `EnableZlib` and `DisableZlib` begin a
new section; accepted lines and raw data go to the current one. -/
def sections : List (Bytes → Hook) → Seg → List WOp → List Seg × Seg
  | _, cur, [] => ([], cur)
  | hs, cur, .line l :: ops => sections hs (if runHooks l hs = .accept then cur.add l else cur) ops
  | hs, cur, .write p :: ops => sections hs (cur.add p) ops
  | hs, cur, .onLine h :: ops => sections (hs ++ [h]) cur ops
  | hs, cur, .enable _ :: ops => (cur :: (sections hs (.zlib []) ops).1, (sections hs (.zlib []) ops).2)
  | hs, cur, .disable :: ops => (cur :: (sections hs (.plain []) ops).1, (sections hs (.plain []) ops).2)
  | hs, cur, .flush :: ops => sections hs cur ops
  | hs, cur, .close :: ops => sections hs cur ops

/-- `bytes` is the concatenation of the sections: plain ones as they are, compressed ones as one
complete compressed stream each. -/
inductive Encodes (I : Inflater Z) : List Seg → Bytes → Prop
  | nil : Encodes I [] []
  | plain (d : Bytes) (segs : List Seg) (b : Bytes) (h : Encodes I segs b) : Encodes I (.plain d :: segs) (d ++ b)
  | zlib (d s : Bytes) (segs : List Seg) (b : Bytes) (hs : IsStream I s d) (h : Encodes I segs b) :
      Encodes I (.zlib d :: segs) (s ++ b)

theorem Encodes.append {s1 s2 : List Seg} {b1 b2 : Bytes} (h1 : Encodes I s1 b1) (h2 : Encodes I s2 b2) :
    Encodes I (s1 ++ s2) (b1 ++ b2) := by
  induction h1 with
  | nil => exact h2
  | plain d segs b _ ih => simpa using Encodes.plain d _ _ ih
  | zlib d s segs b hs _ ih => simpa using Encodes.zlib d s _ _ hs ih

/-- The invariant: the finished sections are on the wire, the current one is good. -/
structure Live (w : Writer D) (base : Bytes) (cur : Seg) : Prop where
  good : Good C w base cur.data
  err : w.err = none
  isZ : w.curZ = cur.isZ

theorem Live.zlibOn {w : Writer D} {base : Bytes} {cur : Seg} (h : Live C w base cur) : w.zlibOn = cur.isZ := by
  obtain ⟨b, a, _, _, h1, _⟩ := h.good
  have h2 := h.isZ
  rcases h1 with ⟨h3, h4, _⟩ | ⟨h3, h4, _⟩ <;> rw [h4, ← h2, h3]

theorem Seg.add_data (p : Bytes) (s : Seg) : (s.add p).data = s.data ++ p := by cases s <;> rfl
theorem Seg.add_isZ (p : Bytes) (s : Seg) : (s.add p).isZ = s.isZ := by cases s <;> rfl

/-- Closing a compressed section completes its stream. -/
theorem close_section (law : C.Law I) {w w' : Writer D} {base d : Bytes}
    (hg : Good C w base d) (hz : w.curZ = true) (hf : w.bwFlush C = .val (none, w')) :
    ∃ z, w'.zlibW = some z ∧ ∀ z' s', z.call C.close w'.sink = (none, z', s') →
      ∃ str, IsStream I str d ∧ s'.sent = base ++ str := by
  obtain ⟨e', w1, h1, h2, h3, h4, h5⟩ := bwFlush_spec C law hg
  rw [hf] at h1; cases h1
  rcases h5 with ⟨-, h5, b, hb, hbuf⟩ | ⟨h5, -⟩
  rotate_left
  · simp at h5
  obtain ⟨b0, a, hb0, -, hch, hcont⟩ := h5
  rw [hb] at hb0; cases hb0
  rw [hbuf, List.append_nil] at hcont
  subst hcont
  rcases hch with ⟨hc, -⟩ | ⟨hc, hz, d0, ops, hst, hzw, hs, ha⟩
  · rw [h2.curZ, hz] at hc; simp at hc
  · refine ⟨_, hzw, ?_⟩
    intro z' s' hcall
    obtain ⟨hne, hstr⟩ := law.complete d0 hst ops
    obtain ⟨⟨d', cs, e'⟩, hex⟩ : ∃ x, x = C.close (C.trace d0 ops).1 := ⟨_, rfl⟩
    rw [← hex] at hne hstr
    simp only at hne hstr
    subst hne
    simp only [ZW.call, ← hex] at hcall
    split at hcall
    · simp at hcall
    · rename_i s1 hem
      simp at hcall
      obtain ⟨-, rfl⟩ := hcall
      exact ⟨_, ha ▸ hstr, by rw [emit_none hem, hs]; simp⟩

theorem live_step (law : C.Law I) {w w' : Writer D} {base : Bytes} {cur : Seg} {op : WOp} {n : Nat}
    (h : Live C w base cur) (hnc : op ≠ .close) (hs : w.step C op = .val ((n, none), w')) :
    ∃ done bytes cur', Encodes I done bytes ∧ Live C w' (base ++ bytes) cur' ∧
      ∀ ops, sections w.onLine cur (op :: ops) =
        (done ++ (sections w'.onLine cur' ops).1, (sections w'.onLine cur' ops).2) := by
  have hg := h.good
  have he := h.err
  cases op with
  | close => exact absurd rfl hnc
  | onLine f =>
    simp [Writer.step] at hs
    obtain ⟨-, rfl⟩ := hs
    exact ⟨[], [], cur, .nil, ⟨by simpa using hg.of_eq C (w' := w.addHook f) rfl rfl rfl rfl rfl, he, h.isZ⟩, by
      intro ops; simp [sections, Writer.addHook]⟩
  | line l =>
    simp only [Writer.step] at hs
    split at hs <;> try simp at hs
    rename_i e w1 hw
    obtain ⟨⟨-, rfl⟩, rfl⟩ := hs
    cases hh : runHooks l w.onLine with
    | accept =>
      obtain ⟨e, w1, h1, h2, h3, h4⟩ := writeLine_spec C law (l := l) hg he hh
      rw [hw] at h1; cases h1
      rcases h4 with ⟨-, h4⟩ | ⟨h4, -⟩
      · refine ⟨[], [], cur.add l, .nil, ⟨?_, h3, ?_⟩, ?_⟩
        · rw [Seg.add_data]; simpa using h4
        · rw [Seg.add_isZ, h2.curZ, h.isZ]
        · intro ops; simp [sections, hh, h2.onLine]
      · simp at h4
    | drop =>
      simp [Writer.writeLine, he, hh] at hw
      subst hw
      exact ⟨[], [], cur, .nil, ⟨by simpa using hg, he, h.isZ⟩, by intro ops; simp [sections, hh]⟩
    | fail e => simp [Writer.writeLine, he, hh] at hw
  | flush =>
    simp only [Writer.step] at hs
    split at hs <;> try simp at hs
    rename_i e w1 hw
    obtain ⟨⟨-, rfl⟩, rfl⟩ := hs
    obtain ⟨e, w1, h1, h2, h3, h4⟩ := flush_spec C law hg he
    rw [hw] at h1; cases h1
    rcases h4 with ⟨-, h4⟩ | ⟨h4, -⟩
    · exact ⟨[], [], cur, .nil, ⟨by simpa using h4.1, h3, h2.curZ.trans h.isZ⟩, by intro ops; simp [sections, h2.onLine]⟩
    · simp at h4
  | write p =>
    simp only [Writer.step] at hs
    obtain ⟨n', e, w1, h1, h2, hn, h3⟩ := write_spec C law (p := p) hg he
    rw [hs] at h1; cases h1
    rcases h3 with ⟨-, rfl, h3, h4, -⟩ | ⟨h3, -⟩ | ⟨h3, -⟩
    · refine ⟨[], [], cur.add p, .nil, ⟨?_, h3, ?_⟩, ?_⟩
      · rw [Seg.add_data]; simpa using h4
      · rw [Seg.add_isZ, h2.curZ, h.isZ]
      · intro ops; simp [sections, h2.onLine]
    · simp at h3
    · simp at h3
  | enable lvl =>
    simp only [Writer.step] at hs
    split at hs <;> try simp at hs
    rename_i e w1 hw
    obtain ⟨⟨-, rfl⟩, rfl⟩ := hs
    unfold Writer.enableZlib at hw
    simp only [he] at hw
    split at hw
    · simp at hw
    rename_i hzo
    have hcz : cur.isZ = false := by rw [← h.zlibOn C]; simpa using hzo
    obtain ⟨e, w2, h1, h2, h3, h4⟩ := flush_spec C law hg he
    simp only [h1] at hw
    cases e with
    | some e => simp at hw
    | none =>
      simp only at hw
      rcases h4 with ⟨-, h4⟩ | ⟨h4, -⟩
      rotate_left
      · simp at h4
      have hc2 : w2.curZ = false := h2.curZ.trans (h.isZ.trans hcz)
      have hsent := h4.2.2.1 hc2
      obtain ⟨b, hb, hbuf⟩ := h4.2.1
      have henc : Encodes I [cur] cur.data := by
        cases cur with
        | plain d => simpa [Seg.data] using Encodes.plain d [] [] Encodes.nil
        | zlib d => simp [Seg.isZ] at hcz
      have mk : ∀ (d0 : D) (lv : Int), C.Start d0 →
          Live C ({ w2 with zlibOn := true, zlibW := some ⟨d0, none⟩, lvl := lv, curZ := true } : Writer D).bwReset
            (base ++ cur.data) (.zlib []) := by
        intro d0 lv hst
        refine ⟨⟨{ b with buf := [], berr := none }, [], by simp [Writer.bwReset, hb], rfl,
          .inr ⟨rfl, rfl, d0, [], hst, rfl, ?_, rfl⟩, rfl⟩, h3, rfl⟩
        simp [Writer.bwReset, hsent, Deflater.trace]
      split at hw
      · simp at hw
        subst hw
        refine ⟨[cur], cur.data, .zlib [], henc, mk _ _ (.inr ⟨_, rfl⟩), ?_⟩
        intro ops; simp [sections, h2.onLine, Writer.bwReset]
      · split at hw
        · simp at hw
        · rename_i d hnew
          simp at hw
          subst hw
          refine ⟨[cur], cur.data, .zlib [], henc, mk _ _ (.inl ⟨_, hnew⟩), ?_⟩
          intro ops; simp [sections, h2.onLine, Writer.bwReset]
  | disable =>
    simp only [Writer.step] at hs
    split at hs <;> try simp at hs
    rename_i e w1 hw
    obtain ⟨⟨-, rfl⟩, rfl⟩ := hs
    unfold Writer.disableZlib at hw
    simp only [he] at hw
    split at hw
    rotate_left
    · simp at hw
    rename_i hzo
    have hcz : cur.isZ = true := by rw [← h.zlibOn C]; simpa using hzo
    obtain ⟨e, w2, h1, h2, h3, h4, h5⟩ := bwFlush_spec C law hg
    simp only [h1] at hw
    cases e with
    | some e => simp at hw
    | none =>
      simp only at hw
      obtain ⟨z, hzw, hcl⟩ := close_section C law hg (h.isZ.trans hcz) h1
      simp only [hzw] at hw
      split at hw <;> try simp at hw
      subst hw
      rename_i z' s' hcall
      obtain ⟨str, hstr, hsent⟩ := hcl z' s' hcall
      rcases h5 with ⟨-, -, b, hb, hbuf⟩ | ⟨h5, -⟩
      rotate_left
      · simp at h5
      refine ⟨[cur], str, .plain [], ?_, ⟨⟨{ b with buf := [], berr := none }, [], by simp [Writer.bwReset, hb], rfl, .inl ⟨rfl, rfl, ?_⟩, rfl⟩, h3.trans he, rfl⟩, ?_⟩
      · cases cur with
        | plain d => simp [Seg.isZ] at hcz
        | zlib d => simpa using Encodes.zlib d str [] [] hstr Encodes.nil
      · simp [Writer.bwReset, hsent]
      · intro ops; simp [sections, h2.onLine, Writer.bwReset]

theorem live_history (law : C.Law I) (ops : List WOp) (hnc : .close ∉ ops) {w w' : Writer D} {base : Bytes} {cur : Seg}
    {rs} (h : Live C w base cur) (hr : Writer.run C ops w = .val (rs, w')) (hok : ∀ r ∈ rs, r.2 = none) :
    ∃ bytes, Encodes I (sections w.onLine cur ops).1 bytes ∧ Live C w' (base ++ bytes) (sections w.onLine cur ops).2 := by
  induction ops generalizing w base cur rs with
  | nil =>
    simp [Writer.run] at hr
    obtain ⟨rfl, rfl⟩ := hr
    exact ⟨[], .nil, by simpa [sections] using h⟩
  | cons op ops ih =>
    simp only [Writer.run] at hr
    split at hr <;> try simp at hr
    rename_i r w1 hst
    split at hr <;> try simp at hr
    rename_i rs1 w2 hrun
    obtain ⟨rfl, rfl⟩ := hr
    obtain ⟨n, e⟩ := r
    have he : e = none := by simpa using hok (n, e) (by simp)
    subst he
    have hne : op ≠ .close := by rintro rfl; simp at hnc
    obtain ⟨done, bytes, cur', h1, h2, h3⟩ := live_step C law h hne hst
    obtain ⟨bytes2, h4, h5⟩ := ih (by simp_all) h2 hrun (fun r hr => hok r (by simp [hr]))
    rw [h3]
    exact ⟨bytes ++ bytes2, h1.append h4, by simpa using h5⟩

theorem live_new (size : Int) (tmo : List (Option Err)) (script : List SEv) :
    Live C (newWriter size tmo ⟨[], script⟩ : Writer D) [] (.plain []) :=
  ⟨⟨_, [], rfl, rfl, .inl ⟨rfl, rfl, rfl⟩, rfl⟩, rfl, rfl⟩

/-- **C10 (flush).** After any successful history followed by a successful `Flush`, the wire carries
the finished sections -- plain ones verbatim, compressed ones as complete streams that decompress to
exactly the data of the section -- followed by the current section: its data if it is plain, or the
beginning of a compressed stream from which all of its data can already be decompressed. -/
theorem flushed_wire (law : C.Law I) (size : Int) (tmo : List (Option Err)) (script : List SEv)
    (ops : List WOp) (hnc : .close ∉ ops) {rs} {w w' : Writer D}
    (hr : Writer.run C ops (newWriter size tmo ⟨[], script⟩) = .val (rs, w)) (hok : ∀ r ∈ rs, r.2 = none)
    (hf : w.flush C = .val (none, w')) :
    ∃ base part, w'.sink.sent = base ++ part ∧ Encodes I (sections [] (.plain []) ops).1 base ∧
      match (sections [] (.plain []) ops).2 with
      | .plain d => part = d
      | .zlib d => IsPart I part d := by
  obtain ⟨bytes, h1, h2⟩ := live_history C law ops hnc (live_new C size tmo script) hr hok
  obtain ⟨e, w1, g1, g2, g3, g4⟩ := flush_spec C law h2.good h2.err
  rw [hf] at g1; cases g1
  rcases g4 with ⟨-, -, -, g5, g6⟩ | ⟨g4, -⟩
  rotate_left
  · simp at g4
  have hiz := g2.curZ.trans h2.isZ
  simp only [List.nil_append] at g5 g6
  have hon : (newWriter size tmo ⟨[], script⟩ : Writer D).onLine = [] := rfl
  rw [hon] at h1 hiz g5 g6
  cases hcur : (sections [] (.plain []) ops).2 with
  | plain d =>
    rw [hcur] at hiz g5
    exact ⟨bytes, d, g5 hiz, h1, rfl⟩
  | zlib d =>
    rw [hcur] at hiz g6
    obtain ⟨part, hp, hq⟩ := g6 hiz
    exact ⟨bytes, part, hp, h1, hq⟩

/-- **C10 (close).** After any successful history followed by a successful `Close`, the wire carries
exactly the sections, the last one complete too. -/
theorem closed_wire (law : C.Law I) (size : Int) (tmo : List (Option Err)) (script : List SEv)
    (ops : List WOp) (hnc : .close ∉ ops) {rs} {w w' : Writer D}
    (hr : Writer.run C ops (newWriter size tmo ⟨[], script⟩) = .val (rs, w)) (hok : ∀ r ∈ rs, r.2 = none)
    (hf : w.close C = .val (none, w')) :
    Encodes I ((sections [] (.plain []) ops).1 ++ [(sections [] (.plain []) ops).2]) w'.sink.sent := by
  obtain ⟨bytes, h1, h2⟩ := live_history C law ops hnc (live_new C size tmo script) hr hok
  have hon : (newWriter size tmo ⟨[], script⟩ : Writer D).onLine = [] := rfl
  rw [hon] at h1 h2
  simp only [List.nil_append] at h2
  have hg := h2.good
  have hzo := h2.zlibOn C
  obtain ⟨e, w2, g1, g2, g3, g4, g5⟩ := bwFlush_spec C law hg
  unfold Writer.close at hf
  simp only [g1, g3, h2.err] at hf
  cases hcur : (sections [] (.plain []) ops).2 with
  | plain d =>
    rw [hcur] at hg hzo h2 g5
    have hz2 : w2.zlibOn = false := g2.zlibOn.trans hzo
    simp [hz2] at hf
    obtain ⟨rfl, rfl⟩ := hf
    rcases g5 with ⟨-, ⟨b0, a, hb0, -, hch, hcont⟩, b, hb, hbuf⟩ | ⟨g5, -⟩
    · rw [hb] at hb0; cases hb0
      rw [hbuf, List.append_nil] at hcont
      rw [hcont] at hch
      have hsent := hch.sent C (g2.curZ.trans h2.isZ)
      simp only [hsent]
      refine h1.append ?_
      simpa [Seg.data] using Encodes.plain d [] [] (Encodes.nil (I := I))
    · simp at g5
  | zlib d =>
    rw [hcur] at hg hzo h2
    have hz2 : w2.zlibOn = true := g2.zlibOn.trans hzo
    simp only [hz2, if_true] at hf
    cases hzw : w2.zlibW with
    | none => simp [hzw] at hf
    | some z =>
      simp only [hzw] at hf
      obtain ⟨⟨e', z', s'⟩, hcall⟩ : ∃ x, x = z.call C.close w2.sink := ⟨_, rfl⟩
      rw [← hcall] at hf
      simp at hf
      obtain ⟨hfe, rfl⟩ := hf
      have hnn : e' = none ∧ e = none := by
        cases e' with
        | none => exact ⟨rfl, by simpa using hfe⟩
        | some x => simp at hfe
      obtain ⟨rfl, rfl⟩ := hnn
      obtain ⟨z1, hz1, hcl⟩ := close_section C law hg h2.isZ g1
      rw [hzw] at hz1; cases hz1
      obtain ⟨str, hstr, hsent⟩ := hcl z' s' hcall.symm
      simp only [hsent]
      refine h1.append ?_
      simpa using Encodes.zlib d str [] [] hstr Encodes.nil

/-- Two lines plain, a compressed section with a flush inside, a plain line, another compressed section
ended by `Close`. -/
example : ∃ (rs : List (Nat × Option Err)) (w w' : Writer Bool), Writer.run stored
      [.line b!"a|", .enable 6, .line b!"bb|", .flush, .line b!"c|", .disable, .line b!"d|", .enable 6, .line b!"e|"]
      (newWriter 3 [none, none] ⟨[], [.ok]⟩) = .val (rs, w) ∧ (∀ r ∈ rs, r.2 = none) ∧
      w.close stored = .val (none, w') ∧
      w'.sink.sent = b!"a|" ++ [120, 1, 1, 98, 1, 98, 1, 124, 1, 99, 1, 124, 0] ++ b!"d|" ++ [120, 1, 1, 101, 1, 124, 0] :=
  ⟨_, _, _, rfl, by decide, rfl, by decide⟩

/-! ### C12: no panic -/

/-- Levels that exist; at most one `Close`. -/
def Proper : List WOp → Prop
  | [] => True
  | .enable lvl :: ops => (-2 ≤ lvl ∧ lvl ≤ 9) ∧ Proper ops
  | .close :: ops => .close ∉ ops
  | _ :: ops => Proper ops

/-- **C12, partial.** With levels from -2 to 9 and a single `Close`, no history of calls panics or
hangs, whatever the sink and the callbacks do.  Missing: an unknown level, see
`enable_bad_level_panics`. -/
theorem no_panic_partial (law : C.Law I) (size : Int) (tmo : List (Option Err)) (s : Sink)
    (ops : List WOp) (hp : Proper ops) :
    ∃ rs w, Writer.run C ops (newWriter size tmo s) = .val (rs, w) := by
  have closed : ∀ (ops : List WOp) (w : Writer D), .close ∉ ops → w.err ≠ none →
      ∃ rs w', Writer.run C ops w = .val (rs, w') := by
    intro ops
    induction ops with
    | nil => intro w _ _; exact ⟨_, _, rfl⟩
    | cons op ops ih =>
      intro w hnc he
      cases hwe : w.err with
      | none => exact absurd hwe he
      | some e =>
        have : ∃ r w1, w.step C op = .val (r, w1) ∧ w1.err ≠ none := by
          cases op with
          | close => simp at hnc
          | onLine f => exact ⟨_, _, rfl, he⟩
          | _ => exact ⟨(0, some e), w, by simp [Writer.step, Writer.writeLine, Writer.flush, Writer.write,
                    Writer.enableZlib, Writer.disableZlib, hwe], he⟩
        obtain ⟨r, w1, h1, h2⟩ := this
        obtain ⟨rs, w', h3⟩ := ih w1 (by simp_all) h2
        exact ⟨_, _, by simp [Writer.run, h1, h3]; exact ⟨rfl, rfl⟩⟩
  have main : ∀ (ops : List WOp) (w : Writer D), Proper ops → Safe w → ∃ rs w', Writer.run C ops w = .val (rs, w') := by
    intro ops
    induction ops with
    | nil => intro w _ _; exact ⟨_, _, rfl⟩
    | cons op ops ih =>
      intro w hp hs
      have go : ∀ r w1, w.step C op = .val (r, w1) → Safe w1 → Proper ops → ∃ rs w', Writer.run C (op :: ops) w = .val (rs, w') := by
        intro r w1 h1 h2 h3
        obtain ⟨rs, w', h4⟩ := ih w1 h3 h2
        exact ⟨r :: rs, w', by simp [Writer.run, h1, h4]⟩
      cases op with
      | line l => obtain ⟨e, w', h1, h2⟩ := writeLine_safe C l hs
                  exact go (0, e) w' (by simp [Writer.step, h1]) h2 hp
      | flush => obtain ⟨e, w', h1, h2⟩ := flush_safe C hs
                 exact go (0, e) w' (by simp [Writer.step, h1]) h2 hp
      | write p => obtain ⟨r, w', h1, h2⟩ := write_safe C p hs
                   exact go r w' (by simp [Writer.step, h1]) h2 hp
      | onLine f => exact go (0, none) (w.addHook f) rfl ⟨hs.bw, hs.z, hs.c⟩ hp
      | enable lvl => obtain ⟨e, w', h1, h2⟩ := enable_safe C lvl ((law.levels lvl).mpr hp.1) hs
                      exact go (0, e) w' (by simp [Writer.step, h1]) h2 hp.2
      | disable => obtain ⟨e, w', h1, h2⟩ := disable_safe C hs
                   exact go (0, e) w' (by simp [Writer.step, h1]) h2 hp
      | close =>
        obtain ⟨e, w', h1, h2⟩ := close_safe C hs
        obtain ⟨rs, w'', h3⟩ := closed ops w' hp h2
        exact ⟨(0, e) :: rs, w'', by simp [Writer.run, Writer.step, h1, h3]⟩
  exact main ops _ hp ⟨by simp [newWriter], by simp [newWriter], by simp [newWriter]⟩

example : Proper [.line b!"a|", .enable (-1), .write b!"x", .disable, .close, .flush] := by
  simp [Proper]

/-- **C12 is false.** After `EnableZlibLevel(10)` has returned an error, `Flush` panics. -/
theorem enable_bad_level_panics : ∃ (e : Err) (w : Writer Bool),
    (newWriter 0 [] ⟨[], []⟩ : Writer Bool).enableZlib stored 10 = .val (some e, w) ∧
    w.flush stored = .panic ∧ w.disableZlib stored = .panic ∧ w.close stored = .panic := ⟨_, _, rfl, rfl, rfl, rfl⟩

/-- A second `Close` panics. -/
theorem double_close_panics : (newWriter 0 [] ⟨[], []⟩ : Writer Bool).run stored [.close, .close] = .panic := rfl

/-! ### C13: hooks -/

/-- **C13.** A line that a hook refuses changes nothing and is reported as success. -/
theorem hook_drop {w : Writer D} {l : Bytes} (he : w.err = none) (h : runHooks l w.onLine = .drop) :
    w.writeLine C l = .val (none, w) := by simp [Writer.writeLine, he, h]

/-- The first hook that does not accept decides; later hooks are not asked. -/
theorem runHooks_spec (l : Bytes) (hs : List (Bytes → Hook)) :
    (runHooks l hs = .accept ↔ ∀ h ∈ hs, h l = .accept) ∧
    (∀ a, a ≠ .accept → (runHooks l hs = a ↔ ∃ h1 h h2, hs = h1 ++ h :: h2 ∧ (∀ g ∈ h1, g l = .accept) ∧ h l = a)) := by
  induction hs with
  | nil => refine ⟨by simp [runHooks], fun a ha => ⟨fun h => absurd h.symm ha, by simp⟩⟩
  | cons h hs ih =>
    cases hh : h l with
    | accept =>
      simp only [runHooks, hh]
      refine ⟨by simp [ih.1, hh], fun a ha => (ih.2 a ha).trans ⟨?_, ?_⟩⟩
      · rintro ⟨h1, g, h2, rfl, h3, h4⟩
        exact ⟨h :: h1, g, h2, rfl, by simpa [hh] using h3, h4⟩
      · rintro ⟨h1, g, h2, he, h3, h4⟩
        cases h1 with
        | nil => simp at he; rw [← he.1, hh] at h4; exact absurd h4.symm ha
        | cons x h1 =>
          simp at he
          exact ⟨h1, g, h2, he.2, fun y hy => h3 y (by simp [hy]), h4⟩
    | drop =>
      simp only [runHooks, hh]
      refine ⟨by simp [hh], fun a ha => ⟨fun h' => ⟨[], h, hs, rfl, by simp, by simp [hh, h']⟩, ?_⟩⟩
      rintro ⟨h1, g, h2, he, h3, h4⟩
      cases h1 with
      | nil => simp at he; rw [← he.1, hh] at h4; exact h4
      | cons x h1 => simp at he; have := h3 x (by simp); rw [← he.1, hh] at this; simp at this
    | fail e =>
      simp only [runHooks, hh]
      refine ⟨by simp [hh], fun a ha => ⟨fun h' => ⟨[], h, hs, rfl, by simp, by simp [hh, h']⟩, ?_⟩⟩
      rintro ⟨h1, g, h2, he, h3, h4⟩
      cases h1 with
      | nil => simp at he; rw [← he.1, hh] at h4; exact h4
      | cons x h1 => simp at he; have := h3 x (by simp); rw [← he.1, hh] at this; simp at this

/-- **C13 (accepted lines).** On a working writer, a line accepted by all hooks and reported as written
is, after a successful flush, on the wire verbatim behind everything sent before. -/
theorem hook_accept (law : C.Law I) {w w1 w2 : Writer D} {l content : Bytes} (hg : Good C w [] content)
    (he : w.err = none) (hc : w.curZ = false) (h : ∀ f ∈ w.onLine, f l = .accept)
    (h1 : w.writeLine C l = .val (none, w1)) (h2 : w1.flush C = .val (none, w2)) :
    w2.sink.sent = content ++ l := by
  obtain ⟨e, w', g1, g2, g3, g4⟩ := writeLine_spec C law hg he ((runHooks_spec l w.onLine).1.mpr h)
  rw [h1] at g1; cases g1
  rcases g4 with ⟨-, g4⟩ | ⟨g4, -⟩
  · obtain ⟨e, w', k1, k2, k3, k4⟩ := flush_spec C law g4 g3
    rw [h2] at k1; cases k1
    rcases k4 with ⟨-, k4⟩ | ⟨k4, -⟩
    · simpa using k4.2.2.1 (k2.curZ.trans (g2.curZ.trans hc))
    · simp at k4
  · simp at g4

example : Good stored (newWriter 3 [] ⟨[], []⟩ : Writer Bool) [] [] := (live_new stored 3 [] []).good

end Verif.Props.LineWriter
